import Verif.Array.Sizes
import Verif.Array.OpsD
import Verif.Array.Bugs

/-! # The sizes that `Array` computes in 64 bits are the exact ones -/

set_option autoImplicit false

namespace Verif.Arr

variable {α : Type} (cfg : Elem α)

theorem sz_small {n : Nat} (h : n < 2 ^ 64) : sz n = n := Nat.mod_eq_of_lt h

/-- C124. As long as the storage of an array has less than 2^63 elements (an object has at most `PTRDIFF_MAX` bytes) and a range
less than 2^63 elements, no size overflows: the functions do what they do with exact sizes. In particular the allocator is asked
for the exact number of elements, also when that is more than there can be. -/
theorem array_sizes_partial {s : St α} (hle : s.d.size ≤ s.d.cap) (hcap : s.d.cap < 2 ^ 63) :
    (∀ src, emplaceBackZ cfg src s = emplaceBack cfg src s) ∧
    (∀ pos src, reallocInsertZ cfg pos src s = reallocInsert cfg pos src s) ∧
    (∀ pos srcs, srcs.length < 2 ^ 63 → insertRangeZ cfg pos srcs s = insertRange cfg pos srcs s) ∧
    ∀ srcs, srcs.length < 2 ^ 63 → pushRangeZ cfg srcs s = pushRange cfg srcs s := by
  have hd : getD s = .ok s.d s := rfl
  refine ⟨fun src => ?_, fun pos src => ?_, fun pos srcs hl => ?_, fun srcs hl => ?_⟩
  · unfold emplaceBackZ emplaceBack
    rw [bind_of_ok hd, bind_of_ok hd, sz_small (by omega)]
  · unfold reallocInsertZ reallocInsert
    rw [bind_of_ok hd, bind_of_ok hd, sz_small (by omega)]
  · unfold insertRangeZ insertRange
    rw [bind_of_ok hd, bind_of_ok hd]
    simp only
    rw [sz_small (n := srcs.length) (by omega), sz_small (n := s.d.size + srcs.length) (by omega),
      sz_small (n := s.d.cap + srcs.length) (by omega)]
  · unfold pushRangeZ pushRange
    rw [bind_of_ok hd, bind_of_ok hd, sz_small (by omega)]

/-- Constructing a value: undefined, or the state differs in a cell. -/
theorem construct_cases (b i : Nat) (v : α) (s : St α) :
    construct cfg b i v s = .ub ∨
    (inBounds s.mem b i = true ∧ ∃ s', construct cfg b i v s = .ok () s' ∧ s'.mem.size = s.mem.size ∧
      s'.mem.ticks = s.mem.ticks ∧ s'.d = s.d) := by
  unfold construct
  split
  · rename_i h
    exact .inr ⟨(Bool.and_eq_true_iff.1 h).1, _, rfl, rfl, rfl, rfl⟩
  · exact .inl rfl

theorem evalSrc_val {v : α} {s : St α} (hn : s.mem.ticks = none) : evalSrc cfg (.val v) s = .ok v s := by
  show ((tick : A α Unit) >>= fun _ => pure v) s = _
  rw [bind_of_ok (show tick s = .ok () s by unfold tick; rw [hn])]
  rfl

theorem inBounds_false {m : Mem α} {b n i : Nat} (h : m.size b = some n) (hi : n ≤ i) : inBounds m b i ≠ true := by
  rw [ne_eq, inBounds_iff h]; omega

/-- More elements than there is room for. -/
theorem pushLoop_ub (vs : List α) : ∀ s : St α, s.mem.ticks = none →
    (s.mem.size s.d.blk = some s.d.cap ∨ s.mem.size s.d.blk = none) → s.d.size ≤ s.d.cap →
    s.d.cap < s.d.size + vs.length → pushLoop cfg (vs.map .val) s = .ub := by
  induction vs with
  | nil => intro s _ _ _ _; simp at *; omega
  | cons v vs ih =>
    intro s hn hb hle hlen
    simp only [List.length_cons] at hlen
    show pushLoop cfg (.val v :: vs.map .val) s = _
    unfold pushLoop
    rw [bind_of_ok (show getD s = .ok s.d s from rfl), bind_of_ok (evalSrc_val cfg hn)]
    rcases construct_cases cfg s.d.blk s.d.size v s with h | ⟨h, s1, h1, h2, h3, h4⟩
    · exact bind_of_ub h
    · rw [bind_of_ok h1, bind_of_ok (show setD { s.d with size := s.d.size + 1 } s1 =
        .ok () { s1 with d := { s.d with size := s.d.size + 1 } } from rfl)]
      rcases hb with hb | hb
      · have : s.d.size < s.d.cap := (inBounds_iff hb).1 h
        refine ih _ (by show s1.mem.ticks = none; rw [h3]; exact hn) (.inl ?_) ?_ ?_
        · show s1.mem.size s.d.blk = some s.d.cap; rw [h2]; exact hb
        · show s.d.size + 1 ≤ s.d.cap; omega
        · show s.d.cap < s.d.size + 1 + vs.length; omega
      · simp [inBounds, hb] at h

theorem constructLoop_ub {b n : Nat} (vs : List α) : ∀ (o : Nat) (s : St α), s.mem.ticks = none →
    s.mem.size b = some n → o ≤ n → n < o + vs.length → constructLoop cfg b o (vs.map .val) s = .ub := by
  induction vs with
  | nil => intro o s _ _ _ _; simp at *; omega
  | cons v vs ih =>
    intro o s hn hb hle hlen
    simp only [List.length_cons] at hlen
    show constructLoop cfg b o (.val v :: vs.map .val) s = _
    unfold constructLoop
    rw [bind_of_ok (evalSrc_val cfg hn)]
    rcases construct_cases cfg b o v s with h | ⟨h, s1, h1, h2, h3, h4⟩
    · exact bind_of_ub h
    · rw [bind_of_ok h1]
      have : o < n := (inBounds_iff hb).1 h
      exact ih (o + 1) s1 (by rw [h3]; exact hn) (by rw [h2]; exact hb) (by omega) (by omega)

/-- C124. Disagreement: a range can have more elements, such as the 2^64 - 1 numbers of a `std::views::iota` of 64-bit numbers.
If the sum with the size of the array is 2^64 or more by at most the capacity, the array does not grow and the elements are
written behind its storage. -/
theorem array_sizes_wrong {s : St α} {xs : List α} (hh : Holds cfg s.mem s.d xs) (hcap : s.d.cap < 2 ^ 63)
    (hn : s.mem.ticks = none) {vs : List α} (hlen : vs.length < 2 ^ 64) (hvs : 2 ^ 64 ≤ xs.length + vs.length)
    (hfit : xs.length + vs.length ≤ 2 ^ 64 + s.d.cap) :
    pushRangeZ cfg (vs.map .val) s = .ub ∧ insertRangeZ cfg xs.length (vs.map .val) s = .ub := by
  have hsz := hh.size
  have hle := hh.le
  have hw : sz (xs.length + vs.length) ≤ s.d.cap := by unfold sz; omega
  have hal := hh.alive cfg (by omega)
  have hd : getD s = .ok s.d s := rfl
  have hl : (vs.map (Src.val : α → Src α)).length = vs.length := List.length_map _
  constructor
  · unfold pushRangeZ
    rw [bind_of_ok hd, hl, hsz]
    unfold onlyIf
    rw [if_neg (by omega), bind_of_ok (show (pure () : A α Unit) s = .ok () s from rfl)]
    exact pushLoop_ub cfg vs s hn (.inl hal) hle (by omega)
  · unfold insertRangeZ
    rw [bind_of_ok hd, hl]
    simp only
    rw [sz_small (n := vs.length) (by omega), hsz, if_neg (by omega), Nat.sub_self]
    rw [bind_of_ok (show backLoop cfg false s.d.blk xs.length (xs.length + vs.length) 0 s = .ok () s from rfl),
      bind_of_ok (show setD { s.d with size := xs.length + vs.length } s =
        .ok () { s with d := { s.d with size := xs.length + vs.length } } from rfl)]
    apply bind_of_ub
    exact constructLoop_ub cfg (n := s.d.cap) vs xs.length _ hn hal (by omega) (by omega)

/-! ### The hypotheses can be met -/

/-- An array of two numbers, and a range of 2^64 - 2. -/
example : ∃ (s : St Nat) (xs vs : List Nat), Holds (⟨true, id⟩ : Elem Nat) s.mem s.d xs ∧ s.d.size ≤ s.d.cap ∧
    s.d.cap < 2 ^ 63 ∧ s.mem.ticks = none ∧ vs.length < 2 ^ 64 ∧ xs.length + vs.length = 2 ^ 64 := by
  refine ⟨⟨⟨fun b => if b = 1 then some 3 else none, fun _ i => .live i, 2, none, 0, 0, 0⟩, ⟨1, 2, 3⟩⟩, [0, 1],
    List.replicate (2 ^ 64 - 2) 0, ⟨rfl, by decide, .inr ⟨by decide, rfl⟩, ?_, by intro h; cases h⟩, by decide, by decide,
    rfl, ?_, ?_⟩
  · intro i hi
    match i, hi with
    | 0, _ => rfl
    | 1, _ => rfl
  · rw [List.length_replicate]; decide
  · rw [List.length_replicate]; rfl

end Verif.Arr
