import Verif.Algo.Pointers
import Mathlib.Tactic.Linarith

/-!
C145: the pointers that `find` and `reverse` form, and what they are worth in constant expressions.
-/

set_option autoImplicit false

namespace Verif.Algo.Ptr

variable {α : Type} [DecidableEq α]

/-- `r` is the position of the first element equal to `value` in the part `[i, s)` of the array, or `s`. -/
structure First (arr : List α) (i s : Nat) (value : α) (r : Nat) : Prop where
  lower : i ≤ r
  upper : r ≤ s
  before : ∀ j, i ≤ j → j < r → arr[j]? ≠ some value
  here : r < s → arr[r]? = some value

theorem ok_bind {β γ : Type} (x : β) (f : β → Except Stop γ) : (Except.ok x >>= f) = f x := rfl

theorem tail_first {arr : List α} {i s r : Nat} {value : α} (h : First arr i s value r) (hs : s ≤ arr.length) :
    ∀ (fuel p : Nat), i ≤ p → p ≤ r → s - p < fuel → tail arr value s fuel p = .ok r
  | 0, _, _, _, hf => by omega
  | fuel + 1, p, hp, hr, hf => by
    unfold tail
    by_cases e : p = s
    · rw [if_pos e]; have := h.upper; congr 1; omega
    · rw [if_neg e]
      have hu := h.upper
      have hlt : p < arr.length := by omega
      unfold deref
      rw [List.getElem?_eq_getElem hlt]
      show (if arr[p] = value then _ else _) = _
      by_cases hv : arr[p] = value
      · rw [if_pos hv]
        have : ¬p < r := fun hpr => h.before p hp hpr (by rw [List.getElem?_eq_getElem hlt, hv])
        show Except.ok p = _
        congr 1; omega
      · rw [if_neg hv]
        unfold plus
        rw [if_pos (by omega)]
        show tail arr value s fuel (p + 1) = _
        have hpr : p < r := by
          by_contra hc
          have e2 : p = r := by omega
          subst e2
          have := h.here (by omega)
          rw [List.getElem?_eq_getElem hlt] at this
          exact hv (Option.some.inj this)
        exact tail_first h hs fuel (p + 1) (by omega) (by omega) (by omega)

theorem simd_first {arr : List α} {i s r : Nat} {value : α} (h : First arr i s value r) (hs : s ≤ arr.length)
    {rb p : Nat} (hp : i ≤ p) (hr : p ≤ r) (hb : p + rb ≤ s) :
    simd .runTime arr rb p value = .ok (if r < p + rb then r - p else rb) := by
  unfold simd
  rw [if_pos (by omega)]
  show Except.ok _ = Except.ok _
  congr 1
  have hl : ((arr.drop p).take rb).length = rb := by simp; omega
  have get : ∀ j, j < rb → ((arr.drop p).take rb)[j]? = arr[p + j]? := fun j hj => by
    rw [List.getElem?_take_of_lt hj, List.getElem?_drop]
  by_cases e : r < p + rb
  · rw [if_pos e]
    have hj : r - p < ((arr.drop p).take rb).length := by omega
    rw [List.findIdx_eq hj]
    constructor
    · have g := get (r - p) (by omega)
      rw [show p + (r - p) = r by omega, h.here (by omega), List.getElem?_eq_getElem hj] at g
      simpa using Option.some.inj g
    · intro j hjr
      have g := get j (by omega)
      have hb := h.before (p + j) (by omega) (by omega)
      rw [← g, List.getElem?_eq_getElem (by omega)] at hb
      simpa using hb
  · rw [if_neg e]
    rw [List.findIdx_eq_length_of_false, hl]
    intro x hx
    obtain ⟨j, hj, rfl⟩ := List.getElem_of_mem hx
    have g := get j (by omega)
    have hb := h.before (p + j) (by omega) (by omega)
    rw [← g, List.getElem?_eq_getElem hj] at hb
    simpa using hb

theorem blocks_exact {arr : List α} {i s r : Nat} {value : α} (h : First arr i s value r) (hs : s ≤ arr.length)
    {rb : Nat} (h0 : 0 < rb) :
    ∀ (fuel j : Nat), i + j * rb ≤ r → s - (i + j * rb) < fuel →
      blocks .runTime arr value rb i s fuel (i + j * rb) =
        if r < i + (s - i) / rb * rb ∨ i + (s - i) / rb * rb + rb ≤ arr.length then .ok r else .error .pointer
  | 0, _, _, hf => by omega
  | fuel + 1, j, hr, hf => by
    have hu := h.upper
    have hl := h.lower
    have q1 := Nat.div_mul_le_self (s - i) rb
    have q2 := Nat.lt_div_mul_add h0 (a := s - i)
    have q3 : j + 1 ≤ (s - i) / rb ↔ (j + 1) * rb ≤ s - i := Nat.le_div_iff_mul_le h0
    have ej : (j + 1) * rb = j * rb + rb := Nat.succ_mul j rb
    generalize hq : (s - i) / rb = q at *
    unfold blocks
    by_cases hb : i + j * rb + rb ≤ s
    · unfold plus
      rw [if_pos (by omega)]
      show (if i + j * rb + rb ≤ s then _ else _) = _
      rw [if_pos hb, simd_first h hs (by omega) hr hb]
      have hjq : j + 1 ≤ q := q3.mpr (by omega)
      have hjq' := Nat.mul_le_mul_right rb hjq
      show (if (if r < i + j * rb + rb then r - (i + j * rb) else rb) ≠ rb then _ else _) = _
      by_cases e : r < i + j * rb + rb
      · rw [if_pos e, if_pos (by omega), if_pos (by omega)]
        show (plus arr.length i (i + j * rb + (r - (i + j * rb)) - i)) = _
        unfold plus
        rw [if_pos (by omega), if_pos (by left; omega)]
        congr 1; omega
      · rw [if_neg e, if_neg (by simp)]
        show blocks .runTime arr value rb i s fuel (i + j * rb + rb) = _
        have := blocks_exact h hs h0 fuel (j + 1) (by omega) (by omega)
        rw [hq] at this
        rw [show i + j * rb + rb = i + (j + 1) * rb by omega]
        exact this
    · have ejq : j = q := by
        have h1 : ¬j + 1 ≤ q := fun hh => hb (by have := q3.mp hh; omega)
        have h2 : j ≤ q := by
          by_contra hc
          have := Nat.mul_le_mul_right rb (show q + 1 ≤ j by omega)
          rw [Nat.succ_mul] at this
          omega
        omega
      subst ejq
      unfold plus
      by_cases hN : i + j * rb + rb ≤ arr.length
      · rw [if_pos hN, if_pos (Or.inr hN)]
        show (if i + j * rb + rb ≤ s then _ else tail arr value s (fuel + 1) (i + j * rb)) = _
        rw [if_neg hb]
        exact tail_first h hs (fuel + 1) _ (by omega) hr hf
      · rw [if_neg hN, if_neg (by omega)]
        rfl

/-- C145, `find` at run time, exactly: it is defined when there is a match in the part of the range that whole vectors cover
or when the array goes on for a vector behind that part; then it returns the first match. Otherwise it has formed a pointer
outside the array. -/
theorem find_pointers_exact {arr : List α} {i s r : Nat} {value : α} (h : First arr i s value r) (hs : s ≤ arr.length)
    {rb : Nat} (h0 : 0 < rb) {fuel : Nat} (hf : s - i < fuel) :
    find .runTime (some rb) arr i s value fuel =
      if r < i + (s - i) / rb * rb ∨ i + (s - i) / rb * rb + rb ≤ arr.length then .ok r else .error .pointer := by
  have := blocks_exact h hs h0 fuel 0 (by have := h.lower; omega) (by omega)
  rw [Nat.zero_mul, Nat.add_zero] at this
  exact this

/-- C145, `find` in a constant expression, exactly, in the builds with vectors. -/
theorem find_constant_exact {arr : List α} {i s r : Nat} {value : α} (h : First arr i s value r) (hs : s ≤ arr.length)
    {rb : Nat} (h0 : 0 < rb) {fuel : Nat} (hf : s - i < fuel) :
    find .compileTime (some rb) arr i s value fuel =
      if rb ≤ s - i then .error .notConstant else if i + rb ≤ arr.length then .ok r else .error .pointer := by
  have hl := h.lower
  have hu := h.upper
  show blocks .compileTime arr value rb i s fuel i = _
  cases fuel with
  | zero => omega
  | succ fuel =>
    unfold blocks plus
    by_cases hb : rb ≤ s - i
    · rw [if_pos hb, if_pos (by omega)]
      show (if i + rb ≤ s then _ else _) = _
      rw [if_pos (by omega)]
      rfl
    · rw [if_neg hb]
      by_cases hN : i + rb ≤ arr.length
      · rw [if_pos hN, if_pos hN]
        show (if i + rb ≤ s then _ else tail arr value s (fuel + 1) i) = _
        rw [if_neg (by omega)]
        exact tail_first h hs (fuel + 1) i le_rfl hl hf
      · rw [if_neg hN, if_neg hN]; rfl

/-- C145, what holds: `find` without vectors is defined and a constant expression for every range, and with vectors it is
defined at run time if the array goes on for a vector behind the range. -/
theorem find_pointers_partial {arr : List α} {i s r : Nat} {value : α} (h : First arr i s value r) (hs : s ≤ arr.length)
    {fuel : Nat} (hf : s - i < fuel) :
    (∀ w, find w none arr i s value fuel = .ok r) ∧
    ∀ rb, 0 < rb → s + rb ≤ arr.length → find .runTime (some rb) arr i s value fuel = .ok r := by
  refine ⟨fun w => tail_first h hs fuel i le_rfl h.lower hf, fun rb h0 hN => ?_⟩
  rw [find_pointers_exact h hs h0 hf, if_pos]
  have := Nat.div_mul_le_self (s - i) rb
  have := h.lower
  have := h.upper
  right; omega

/-- Every part of an array has a first match, or its end. -/
theorem first_exists (arr : List α) {i s : Nat} (his : i ≤ s) (value : α) : ∃ r, First arr i s value r := by
  classical
  have ex : ∃ r, i ≤ r ∧ (r = s ∨ arr[r]? = some value) := ⟨s, his, .inl rfl⟩
  refine ⟨Nat.find ex, (Nat.find_spec ex).1, Nat.find_min' ex ⟨his, .inl rfl⟩, fun j h1 h2 h3 => ?_, fun h => ?_⟩
  · exact Nat.find_min ex h2 ⟨h1, .inr h3⟩
  · exact (Nat.find_spec ex).2.resolve_left (by omega)

/-- C145. Disagreement: looking in a whole array for a value that is not there is undefined in every build with vectors, and
in a constant expression no search of a whole array is possible in such a build, whatever its length and contents. -/
theorem find_pointers_wrong (arr : List α) (value : α) {rb : Nat} (h0 : 0 < rb) {fuel : Nat} (hf : arr.length < fuel) :
    (value ∉ arr → find .runTime (some rb) arr 0 arr.length value fuel = .error .pointer) ∧
    ∀ r, find .compileTime (some rb) arr 0 arr.length value fuel ≠ .ok r := by
  constructor
  · intro hv
    have h : First arr 0 arr.length value arr.length :=
      ⟨Nat.zero_le _, le_rfl, fun j _ _ e => hv (List.mem_of_getElem? e), fun h => absurd h (by omega)⟩
    rw [find_pointers_exact h le_rfl h0 (by omega), if_neg]
    have := Nat.div_mul_le_self arr.length rb
    have := Nat.lt_div_mul_add h0 (a := arr.length)
    simp only [Nat.sub_zero, Nat.zero_add]
    omega
  · intro r
    obtain ⟨r', h⟩ := first_exists arr (Nat.zero_le arr.length) value
    rw [find_constant_exact h le_rfl h0 (by omega)]
    split
    · exact fun h => nomatch h
    · rw [if_neg (by omega)]; exact fun h => nomatch h

/-! ### `reverse` -/

omit [DecidableEq α] in
theorem swap_mid (a b mid : List α) (x y : α) :
    ((a ++ x :: (mid ++ y :: b)).set a.length y).set (a.length + mid.length + 1) x = a ++ y :: (mid ++ x :: b) := by
  rw [List.set_append_right _ _ (le_refl _), Nat.sub_self, List.set_cons_zero,
    List.set_append_right _ _ (by omega), show a.length + mid.length + 1 - a.length = mid.length + 1 by omega,
    List.set_cons_succ, List.set_append_right _ _ (le_refl _), Nat.sub_self, List.set_cons_zero]

theorem revSwaps_spec : ∀ (fuel : Nat) (a mid b : List α), mid.length < fuel →
    revSwaps fuel a.length (a.length + mid.length) (a ++ mid ++ b) = .ok (a ++ mid.reverse ++ b)
  | 0, _, _, _, hf => by omega
  | fuel + 1, a, mid, b, hf => by
    unfold revSwaps
    match mid, List.eq_nil_or_concat mid with
    | [], _ => simp
    | [x], _ =>
      rw [if_pos (by simp)]
      have e1 : plus (a ++ [x] ++ b).length a.length 1 = .ok (a.length + 1) := by
        unfold plus; rw [if_pos (by simp)]
      have e2 : minus (a.length + [x].length) 1 = .ok a.length := by
        unfold minus; rw [if_pos (by simp)]; simp
      have e3 : deref (a ++ [x] ++ b) a.length = .ok x := by
        unfold deref; simp
      rw [e1, ok_bind, e2, ok_bind, e3, ok_bind, ok_bind]
      show revSwaps fuel (a.length + 1) a.length (((a ++ [x] ++ b).set a.length x).set a.length x) = _
      have e4 : (((a ++ [x] ++ b).set a.length x).set a.length x) = a ++ [x] ++ b := by simp
      rw [e4]
      cases fuel with
      | zero => simp at hf
      | succ fuel => unfold revSwaps; rw [if_neg (by omega)]; rfl
    | x :: z :: rest, _ =>
      rw [if_pos (by simp)]
      obtain ⟨ys, y, e⟩ := (List.eq_nil_or_concat (z :: rest)).resolve_left (by simp)
      rw [List.concat_eq_append] at e
      have hl : (z :: rest).length = ys.length + 1 := by rw [e]; simp
      rw [e]
      have e0 : a ++ x :: (ys ++ [y]) ++ b = a ++ x :: (ys ++ y :: b) := by simp
      have e1 : plus (a ++ x :: (ys ++ y :: b)).length a.length 1 = .ok (a.length + 1) := by
        unfold plus; rw [if_pos (by simp)]
      have e2 : minus (a.length + (x :: (ys ++ [y])).length) 1 = .ok (a.length + ys.length + 1) := by
        unfold minus; rw [if_pos (by simp; omega)]; simp; omega
      have e3 : deref (a ++ x :: (ys ++ y :: b)) a.length = .ok x := by
        unfold deref; simp
      have e4 : deref (a ++ x :: (ys ++ y :: b)) (a.length + ys.length + 1) = .ok y := by
        unfold deref
        rw [List.getElem?_append_right (by omega), show a.length + ys.length + 1 - a.length = ys.length + 1 by omega,
          List.getElem?_cons_succ, List.getElem?_append_right le_rfl, Nat.sub_self]
        rfl
      rw [e0, e1, ok_bind, e2, ok_bind, e3, ok_bind, e4, ok_bind]
      show revSwaps fuel (a.length + 1) (a.length + ys.length + 1) _ = _
      rw [swap_mid]
      have := revSwaps_spec fuel (a ++ [y]) ys (x :: b) (by simp at hf hl; omega)
      simp only [List.length_append, List.length_singleton] at this
      rw [show a.length + 1 + ys.length = a.length + ys.length + 1 by omega] at this
      simp only [List.append_assoc, List.cons_append, List.nil_append] at this
      simp only [List.reverse_cons, List.reverse_append, List.append_assoc, List.cons_append, List.nil_append,
        List.reverse_nil]
      exact this

omit [DecidableEq α] in
theorem simd_mid {rb : Nat} (a x mid y b : List α) (hx : x.length = rb) (hy : y.length = rb) :
    reverseSimd .runTime rb (a ++ (x ++ mid ++ y) ++ b) a.length (a.length + (rb + mid.length + rb)) =
      .ok (a ++ y.reverse ++ mid ++ (x.reverse ++ b)) := by
  unfold reverseSimd minus
  rw [if_pos (by omega)]
  have e : a.length + (rb + mid.length + rb) - rb = a.length + rb + mid.length := by omega
  rw [e]
  show (if a.length + rb ≤ a.length + rb + mid.length ∧ _ then _ else _) = _
  rw [if_pos ⟨by omega, by simp [hx, hy]; omega⟩]
  show Except.ok _ = Except.ok _
  congr 1
  have t1 : (a ++ (x ++ mid ++ y) ++ b).take a.length = a := by simp
  have t2 : ((a ++ (x ++ mid ++ y) ++ b).drop (a.length + rb + mid.length)).take rb = y := by
    have : a ++ (x ++ mid ++ y) ++ b = (a ++ x ++ mid) ++ (y ++ b) := by simp
    rw [this, List.drop_left' (by simp [hx]; omega), List.take_left' hy]
  have t3 : ((a ++ (x ++ mid ++ y) ++ b).drop (a.length + rb)).take (a.length + rb + mid.length - (a.length + rb)) = mid := by
    have : a ++ (x ++ mid ++ y) ++ b = (a ++ x) ++ (mid ++ (y ++ b)) := by simp
    rw [this, List.drop_left' (by simp [hx]), List.take_left' (by omega)]
  have t4 : ((a ++ (x ++ mid ++ y) ++ b).drop a.length).take rb = x := by
    have : a ++ (x ++ mid ++ y) ++ b = a ++ (x ++ (mid ++ (y ++ b))) := by simp
    rw [this, List.drop_left' rfl, List.take_left' hx]
  have t5 : (a ++ (x ++ mid ++ y) ++ b).drop (a.length + (rb + mid.length + rb)) = b :=
    List.drop_left' (by simp [hx, hy]; omega)
  rw [t1, t2, t3, t4, t5]
  simp

omit [DecidableEq α] in
theorem revBlocks_spec {rb : Nat} : ∀ (count : Nat) (a mid b : List α), 2 * (count * rb) ≤ mid.length →
    ∃ a' mid' b', revBlocks .runTime rb count a.length (a.length + mid.length) (a ++ mid ++ b) =
        .ok (a' ++ mid' ++ b', a'.length, a'.length + mid'.length) ∧
      a' ++ mid'.reverse ++ b' = a ++ mid.reverse ++ b ∧ mid'.length ≤ mid.length
  | 0, a, mid, b, _ => ⟨a, mid, b, rfl, rfl, le_rfl⟩
  | count + 1, a, mid, b, hc => by
    have hc' : 2 * (count * rb) + 2 * rb ≤ mid.length := by rw [Nat.add_mul] at hc; omega
    obtain ⟨x, mid', y, rfl, hx, hy⟩ : ∃ x mid' y, mid = x ++ mid' ++ y ∧ x.length = rb ∧ y.length = rb := by
      refine ⟨mid.take rb, (mid.drop rb).take (mid.length - 2 * rb), mid.drop (mid.length - rb), ?_, ?_, ?_⟩
      · have : mid.drop (mid.length - rb) = (mid.drop rb).drop (mid.length - 2 * rb) := by
          rw [List.drop_drop]; congr 1; omega
        rw [this, List.append_assoc, List.take_append_drop, List.take_append_drop]
      · simp; omega
      · simp; omega
    simp only [List.length_append, hx, hy] at hc' ⊢
    obtain ⟨a1, m1, b1, h1, h2, h3⟩ := revBlocks_spec (rb := rb) count (a ++ y.reverse) mid' (x.reverse ++ b) (by omega)
    refine ⟨a1, m1, b1, ?_, ?_, by omega⟩
    · unfold revBlocks
      rw [simd_mid a x mid' y b hx hy]
      show (plus (a ++ y.reverse ++ mid' ++ (x.reverse ++ b)).length a.length rb >>= _) = _
      unfold plus
      rw [if_pos (by simp [hx, hy])]
      show (minus (a.length + (rb + mid'.length + rb)) rb >>= _) = _
      unfold minus
      rw [if_pos (by omega)]
      show revBlocks .runTime rb count (a.length + rb) (a.length + (rb + mid'.length + rb) - rb) _ = _
      rw [← h1]
      congr 1
      · simp [hy]
      · simp [hy]; omega
    · rw [h2]; simp

/-- C145, `reverse`, exactly. Its pointers never leave the array: at run time every part of every array is reversed, in every
build. In a constant expression it is reversed if it is shorter than two vectors; otherwise the call is no constant expression. -/
theorem reverse_pointers_exact (a mid b : List α) {fuel : Nat} (hf : mid.length < fuel) :
    (∀ w, reverse w none (a ++ mid ++ b) a.length (a.length + mid.length) fuel =
      .ok (a ++ mid.reverse ++ b, a.length + mid.length)) ∧
    ∀ rb, 0 < rb →
      reverse .runTime (some rb) (a ++ mid ++ b) a.length (a.length + mid.length) fuel =
        .ok (a ++ mid.reverse ++ b, a.length + mid.length) ∧
      reverse .compileTime (some rb) (a ++ mid ++ b) a.length (a.length + mid.length) fuel =
        if 2 * rb ≤ mid.length then .error .notConstant else .ok (a ++ mid.reverse ++ b, a.length + mid.length) := by
  refine ⟨fun w => ?_, fun rb h0 => ⟨?_, ?_⟩⟩
  · unfold reverse
    show (revSwaps fuel _ _ _ >>= _) = _
    rw [revSwaps_spec fuel a mid b hf]; rfl
  · have hc : 2 * (mid.length / 2 / rb * rb) ≤ mid.length := by
      have := Nat.div_mul_le_self (mid.length / 2) rb
      omega
    obtain ⟨a', mid', b', h1, h2, h3⟩ := revBlocks_spec (mid.length / 2 / rb) a mid b hc
    unfold reverse minus
    show ((if a.length ≤ a.length + mid.length then _ else _) >>= _) = _
    rw [if_pos (by omega), show a.length + mid.length - a.length = mid.length by omega]
    show (revBlocks .runTime rb (mid.length / 2 / rb) _ _ _ >>= _) = _
    rw [h1]
    show (revSwaps fuel a'.length (a'.length + mid'.length) (a' ++ mid' ++ b') >>= _) = _
    rw [revSwaps_spec fuel a' mid' b' (by omega), h2]; rfl
  · unfold reverse minus
    show ((if a.length ≤ a.length + mid.length then _ else _) >>= _) = _
    rw [if_pos (by omega), show a.length + mid.length - a.length = mid.length by omega]
    show (revBlocks .compileTime rb (mid.length / 2 / rb) _ _ _ >>= _) = _
    by_cases h2 : 2 * rb ≤ mid.length
    · rw [if_pos h2]
      have : 0 < mid.length / 2 / rb := Nat.div_pos (by omega) h0
      obtain ⟨c, hc⟩ := Nat.exists_eq_succ_of_ne_zero (Nat.pos_iff_ne_zero.mp this)
      rw [hc]; rfl
    · rw [if_neg h2, Nat.div_eq_of_lt (by omega : mid.length / 2 < rb)]
      show (revSwaps fuel _ _ _ >>= _) = _
      rw [revSwaps_spec fuel a mid b hf]; rfl

/-! ### Cases -/

section Examples

/-- Twenty numbers in vectors of eight: looking for one of the first sixteen is defined. -/
example : find .runTime (some 8) (List.range 20) 0 20 9 21 = .ok 9 := by decide +kernel
/-- The number 17 is there, but the pointer to 24 is formed before it is found. -/
example : find .runTime (some 8) (List.range 20) 0 20 17 21 = .error .pointer := by decide +kernel
/-- In a part of a longer array it is found. -/
example : find .runTime (some 8) (List.range 40) 3 23 17 21 = .ok 17 := by decide +kernel
example : First (List.range 40) 3 23 17 17 := ⟨by decide, by decide, by decide, by decide⟩
example : find .compileTime (some 32) (List.range 20) 0 20 17 21 = .error .pointer := by decide +kernel
example : find .compileTime (some 32) (List.range 40) 0 20 17 21 = .ok 17 := by decide +kernel
example : reverse .compileTime (some 32) (List.range 20) 2 18 17 =
    .ok ([0, 1] ++ [17, 16, 15, 14, 13, 12, 11, 10, 9, 8, 7, 6, 5, 4, 3, 2] ++ [18, 19], 18) := by decide +kernel
example : reverse .compileTime (some 4) (List.range 20) 2 18 17 = .error .notConstant := by decide +kernel
example : reverse .runTime (some 4) (List.range 12) 1 10 10 = .ok ([0, 9, 8, 7, 6, 5, 4, 3, 2, 1, 10, 11], 10) := by
  decide +kernel

end Examples

end Verif.Algo.Ptr
