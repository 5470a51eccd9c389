import Verif.Array.Clients

/-!
# Large numbers kept in `Array`s

Client code: an `Array<std::uint32_t>` holds a number, the lowest word first and without leading zeros. Uses the functions of
/repo/include/xme/container/array.hpp and /repo/include/xme/container/icontainer.hpp.
-/

set_option autoImplicit false

namespace Verif.Arr

variable (cfg : Elem Nat)

/-- `for(; i != a.size(); ++i) { u64 t = u64(a[i]) * m + carry; a[i] = u32(t); carry = u32(t >> 32); }`
`if(carry) a.push_back(carry);`. Calls array.hpp:221-223, icontainer.hpp:13-25, 61-76. -/
def mulAdd (a m : Nat) : Nat → Nat → Nat → M (World Nat) Unit
  | 0, _, _ => M.ub
  | fuel + 1, i, carry => do
    let n ← ask (sizeOf' · a)
    if (i : Int) = n then
      if carry = 0 then pure ()
      else do
        let _ ← call cfg (.pushBack a (.val carry))
        pure ()
    else do
      let v ← ask (indexOf · a (i : Int))
      let t := (v * m + carry) % 2 ^ 64
      let _ ← call cfg (.writeAt a i (t % 2 ^ 32))
      mulAdd a m fuel (i + 1) (t / 2 ^ 32)

/-- `while(i-- > 0) { u64 t = (u64(rest) << 32) + a[i]; a[i] = u32(t / m); rest = t % m; } return rest;`.
Calls icontainer.hpp:13-25. -/
def divWords (a m : Nat) : Nat → Nat → M (World Nat) Nat
  | 0, rest => pure rest
  | i + 1, rest => do
    let v ← ask (indexOf · a (i : Int))
    let t := (rest * 2 ^ 32 + v) % 2 ^ 64
    let _ ← call cfg (.writeAt a i (t / m % 2 ^ 32))
    divWords a m i (t % m)

/-- `while(!a.empty() && a.back() == 0) a.pop_back();`. Calls array.hpp:246-249, icontainer.hpp:27-45, 92-104. -/
def dropZeros (a : Nat) : Nat → M (World Nat) Unit
  | 0 => M.ub
  | fuel + 1 => do
    let e ← ask (emptyOf · a)
    if e = true then pure ()
    else do
      let v ← ask (backOf · a)
      if v = 0 then do
        let _ ← call cfg (.popBack a)
        dropZeros a fuel
      else pure ()

/-- Reads digits, the highest first: `for(auto d : digits) mulAdd(a, base, 0, d);`. Calls icontainer.hpp:61-76. -/
def readDigits (a base : Nat) : List Nat → M (World Nat) Unit
  | [] => pure ()
  | d :: ds => do
    let n ← ask (sizeOf' · a)
    mulAdd cfg a base (n.toNat + 1) 0 d
    readDigits a base ds

/-- Writes digits into another array, the lowest first: `while(!a.empty()) { auto r = divWords(a, base); dropZeros(a);`
`out.push_back(r); }`. Calls array.hpp:221-223, icontainer.hpp:27-45, 61-76. -/
def writeDigits (a out base : Nat) : Nat → M (World Nat) Unit
  | 0 => M.ub
  | fuel + 1 => do
    let e ← ask (emptyOf · a)
    if e = true then pure ()
    else do
      let n ← ask (sizeOf' · a)
      let r ← divWords cfg a base n.toNat 0
      dropZeros cfg a (n.toNat + 1)
      let _ ← call cfg (.pushBack out (.val r))
      writeDigits a out base fuel

/-- From digits in one base to digits in another. Part of the model, not of the code. -/
def convertDigits (a out base base' fuel : Nat) (ds : List Nat) : M (World Nat) Unit := do
  readDigits cfg a base ds
  writeDigits cfg a out base' fuel

/-- `if(i == a.size()) a.push_back(0);`. Calls array.hpp:221-223, icontainer.hpp:61-76. -/
def oneMore (a i : Nat) : M (World Nat) Unit := do
  let n ← ask (sizeOf' · a)
  if (i : Int) = n then do
    let _ ← call cfg (.pushBack a (.val 0))
    pure ()
  else pure ()

/-- `return i < b.size() ? b[i] : 0;`. Calls icontainer.hpp:13-25, 61-76. -/
def wordOr (b i : Nat) : M (World Nat) Nat := do
  let n ← ask (sizeOf' · b)
  if (i : Int) < n then ask (indexOf · b (i : Int)) else pure 0

/-- `for(; i < b.size() || carry; ++i) { oneMore(a, i);`
`u64 t = u64(a[i]) + wordOr(b, i) + carry; a[i] = u32(t); carry = u32(t >> 32); }`.
Calls array.hpp:221-223, icontainer.hpp:13-25, 61-76. -/
def addTo (a b : Nat) : Nat → Nat → Nat → M (World Nat) Unit
  | 0, _, _ => M.ub
  | fuel + 1, i, carry => do
    let nb ← ask (sizeOf' · b)
    if (i : Int) < nb ∨ carry ≠ 0 then do
      oneMore cfg a i
      let v ← ask (indexOf · a (i : Int))
      let u ← wordOr b i
      let t := (v + u + carry) % 2 ^ 64
      let _ ← call cfg (.writeAt a i (t % 2 ^ 32))
      addTo a b fuel (i + 1) (t / 2 ^ 32)
    else pure ()

end Verif.Arr
