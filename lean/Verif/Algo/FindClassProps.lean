import Verif.Algo.FindProps

/-!
C153. `find` over elements whose type has an `==` of its own: classes, and types with padding.
-/

set_option autoImplicit false

namespace Verif.Algo

/-- `n` elements with the bytes `x`, the first at address 0. -/
def copies (n : Nat) (x : List Byte) : Mem := ⟨0, (List.replicate n x).flatten⟩

theorem copies_length (n : Nat) (x : List Byte) : (copies n x).bytes.length = n * x.length := by
  simp [copies]

theorem copies_elem {n j : Nat} {x : List Byte} (h : j < n) : elem (copies n x) x.length j = x := by
  unfold elem copies slice
  induction n generalizing j with
  | zero => omega
  | succ n ih =>
    cases j with
    | zero => simp [List.replicate_succ]
    | succ j =>
      have := ih (j := j) (by omega)
      simp only [List.replicate_succ, List.flatten_cons] at this ⊢
      rw [show (j + 1) * x.length = x.length + j * x.length by ring, ← List.drop_drop, List.drop_left]
      exact this

/-- C153, exactly. In a build with SIMD `find` gives the first element `x` with `x == value` — for all ranges at
aligned addresses and all values of an element type of 1, 2, 4 or 8 bytes — if and only if `==` of that type is
equality of all the bytes. -/
theorem find_class_iff (eqv : List Byte → List Byte → Bool) (isa : Isa) (hi : isa ≠ .scalar) {k : Nat} (hk : SizeOk k) :
    (∀ (last : Nat) (m : Mem) (value : List Byte) (fuel : Nat), Ok k last m value → m.base % isa.width = 0 →
      last < fuel → ∃ r, find eqv isa k last m value fuel = .ok r ∧ IsFirst eqv m k last value r) ↔
    ∀ x y : List Byte, x.length = k → y.length = k → (eqv x y = true ↔ x = y) := by
  constructor
  · intro h x y hx hy
    have hpos : 0 < isa.width / k := by
      rcases hk with rfl | rfl | rfl | rfl <;> cases isa <;> decide
    set n := isa.width / k with hn
    have ok : Ok k n (copies n x) y := ⟨hk, by rw [copies_length, hx], hy⟩
    have base : (copies n x).base % isa.width = 0 := Nat.zero_mod _
    obtain ⟨r, e, h1, h2, h3⟩ := h n (copies n x) y (n + 1) ok base (by omega)
    obtain ⟨r', e', g1, g2, g3⟩ := find_any_exact eqv isa hi ok base (fuel := n + 1) (by omega) n
      (by rw [← hn]) le_rfl (by omega)
    rw [e] at e'; cases e'
    have el : ∀ j < n, elem (copies n x) k j = x := fun j hj => by rw [← hx]; exact copies_elem hj
    rcases Nat.eq_or_lt_of_le h1 with rfl | hr
    · have a1 := h2 0 hpos
      have a2 := (g2 0 hpos).1 hpos
      rw [el 0 hpos] at a1 a2
      rw [a1]
      exact ⟨fun h => absurd h (by decide), fun h => absurd h a2⟩
    · have a1 := h3 hr
      have a2 := (g3 hr).1 hr
      rw [el r hr] at a1 a2
      exact ⟨fun _ => a2, fun _ => a1⟩
  · intro h last m value fuel ok ha hf
    refine find_run ok (fun _ => .inl ha) (fun _ => .inr fun i hl => ?_) hf
    have hlen : (elem m k i).length = k := by
      unfold elem slice
      rw [List.length_take, List.length_drop, ok.bytes]
      have : i * k + k ≤ last * k := by
        calc i * k + k = (i + 1) * k := by ring
          _ ≤ last * k := Nat.mul_le_mul_right _ (by omega)
      omega
    have := h (elem m k i) value hlen ok.value
    by_cases e : elem m k i = value
    · rw [this.2 e, decide_eq_true e]
    · rw [decide_eq_false e]
      cases hq : eqv (elem m k i) value with
      | false => rfl
      | true => exact absurd (this.1 hq) e

/-- C153, what holds for every `==`: builds without SIMD, ranges shorter than a vector, and ranges in which no
element is equal to the value without having its bytes, nor has its bytes without being equal. -/
theorem find_class_partial (eqv : List Byte → List Byte → Bool) (isa : Isa) {k last : Nat} {m : Mem}
    {value : List Byte} (h : Ok k last m value) (ha : m.base % isa.width = 0)
    (hv : isa = .scalar ∨ last < isa.width / k ∨ ∀ i < last, (eqv (elem m k i) value = true ↔ elem m k i = value))
    {fuel : Nat} (hf : last < fuel) :
    ∃ r, find eqv isa k last m value fuel = .ok r ∧ IsFirst eqv m k last value r := by
  refine find_run h (fun _ => .inl ha) (fun hi => ?_) hf
  rcases hv with hv | hv | hv
  · exact absurd hv hi
  · exact .inl hv
  · refine .inr fun i hl => ?_
    have := hv i hl
    by_cases e : elem m k i = value
    · rw [this.2 e, decide_eq_true e]
    · rw [decide_eq_false e]
      cases hq : eqv (elem m k i) value with
      | false => rfl
      | true => exact absurd (this.1 hq) e

/-- A defaulted `==` of `struct { std::uint8_t a; std::uint16_t b; }`: the byte at 1 is padding and not
compared. -/
def padEq (x y : List Byte) : Bool := x.getD 0 0 == y.getD 0 0 && x.getD 2 0 == y.getD 2 0 && x.getD 3 0 == y.getD 3 0

/-- C153, what is wrong: four elements equal to the value, but with another padding byte, are not found by a build
with SSE2; three of them are, and so is a fifth behind the four. -/
theorem find_class_wrong :
    (∀ j < 5, padEq (elem (copies 5 [1#8, 0#8, 2#8, 3#8]) 4 j) [1#8, 0xcc#8, 2#8, 3#8] = true) ∧
    find padEq .sse2 4 4 (copies 4 [1#8, 0#8, 2#8, 3#8]) [1#8, 0xcc#8, 2#8, 3#8] 5 = .ok 4 ∧
    find padEq .sse2 4 3 (copies 3 [1#8, 0#8, 2#8, 3#8]) [1#8, 0xcc#8, 2#8, 3#8] 5 = .ok 0 ∧
    find padEq .sse2 4 5 (copies 5 [1#8, 0#8, 2#8, 3#8]) [1#8, 0xcc#8, 2#8, 3#8] 6 = .ok 4 ∧
    find padEq .scalar 4 4 (copies 4 [1#8, 0#8, 2#8, 3#8]) [1#8, 0xcc#8, 2#8, 3#8] 5 = .ok 0 := by
  decide +kernel

/-- The partial theorem applies: the same range, sought for an element with the same padding. -/
example : ∃ r, find padEq .avx2 4 8 (copies 8 [1#8, 0#8, 2#8, 3#8]) [1#8, 0#8, 2#8, 3#8] 9 = .ok r ∧
    IsFirst padEq (copies 8 [1#8, 0#8, 2#8, 3#8]) 4 8 [1#8, 0#8, 2#8, 3#8] r :=
  find_class_partial (k := 4) (last := 8) (m := copies 8 [1#8, 0#8, 2#8, 3#8]) (value := [1#8, 0#8, 2#8, 3#8])
    padEq .avx2 ⟨by unfold SizeOk; decide, by decide, rfl⟩ rfl (.inr (.inr (by decide))) (by decide)

end Verif.Algo
