import Verif.View.Construct
import Verif.View.Props

/-! # Properties of the constructors and iterators of `ArrayView` -/

set_option autoImplicit false

namespace Verif.AV

/-! ### Specification -/

/-- The range lies inside the array; no array has `2^63` bytes or more. -/
structure Rng.Inside (r : Rng) (len : Nat) : Prop where
  inside : r.p + r.n * r.sz ≤ len
  size : 0 < r.sz
  len : len < 2 ^ 63

/-- The `T` parts of the elements of a range: `sz` bytes at byte `off` of each element. -/
def Rng.parts (r : Rng) (off sz : Nat) (m : Mem) : List (List Byte) :=
  (List.range r.n).map fun i => (m.drop (r.p + i * r.sz + off)).take sz

/-- The view designates exactly the elements of the range, and lies inside the array as the range does. -/
def Views (v : View) (r : Rng) (len : Nat) : Prop :=
  Valid v len ∧ v.size = r.n ∧ v.m_view = r.p ∧ v.sz = r.sz ∧ ∀ m : Mem, v.elems m = r.parts 0 r.sz m

/-! ### Lemmas -/

theorem views_mk {r : Rng} {len : Nat} (hr : r.Inside len) {ext : Option Nat} (he : ext = none ∨ ext = some r.n) :
    Views ⟨r.sz, ext, r.p, r.n⟩ r len := by
  have hs : View.size ⟨r.sz, ext, r.p, r.n⟩ = r.n := by rcases he with rfl | rfl <;> rfl
  refine ⟨⟨by rw [hs]; exact hr.inside, hr.size, hr.len⟩, hs, rfl, rfl, fun m => ?_⟩
  simp [View.elems, Rng.parts, hs]

theorem make_ok (checked : Bool) {sz p n : Nat} {ext : Option Nat} (he : ext = none ∨ ext = some n) :
    make checked sz ext p n = .ok ⟨sz, ext, p, n⟩ := by
  rcases he with rfl | rfl
  · rfl
  · unfold make
    simp only [assert_true checked (show (n == n) = true by simp)]
    rfl

theorem requireLen_ok {n : Nat} {ext : Option Nat} (he : ext = none ∨ ext = some n) : requireLen ext n = .ok () := by
  rcases he with rfl | rfl
  · rfl
  · simp [requireLen, staticAssert]

theorem toSize_iters {sz p n : Nat} (h0 : 0 < sz) (hn : n < 2 ^ 64) :
    toSize ((((p + n * sz : Nat) : Int) - p) / sz) = n := by
  have : ((p + n * sz : Nat) : Int) - p = n * sz := by push_cast; ring
  rw [this, Int.mul_ediv_cancel _ (by omega)]
  unfold toSize
  omega

/-! ### C115 -/

/-- C115, what holds. The full claim is that a view made from a range designates exactly its elements. It holds for every
constructor if the elements of the range are of the type of the view and the view is of dynamic size or of the size of the
range; in particular for the size the deduction guides choose. -/
theorem view_construct_partial (checked : Bool) {r : Rng} {len : Nat} (hr : r.Inside len) (ext : Option Nat)
    (he : ext = none ∨ ext = some r.n) :
    ∃ v, Views v r len ∧
      ofIter checked r.sz ext .same r.p r.n = .ok v ∧
      ofIters checked r.sz ext .same r.sz r.p (r.p + r.n * r.sz) = .ok v ∧
      ofRange checked r.sz ext .same r = .ok v ∧ ofCArray checked ext r = .ok v ∧
      ofStdArray checked r.sz ext .same r = .ok v := by
  have h1 := make_ok checked (sz := r.sz) (p := r.p) he
  have h2 := requireLen_ok he
  have hn : r.n < 2 ^ 64 := by
    have := hr.inside
    have := Nat.le_mul_of_pos_right r.n hr.size
    have := hr.len
    omega
  refine ⟨_, views_mk hr he, h1, ?_, h1, ?_, ?_⟩
  · unfold ofIters
    rw [toSize_iters hr.size hn]
    exact h1
  · unfold ofCArray
    rw [h2]; exact h1
  · unfold ofStdArray
    rw [h2]; exact h1

/-- C115. The size the deduction guides choose meets the condition, and the empty views are what they say. -/
theorem view_deduced {r : Rng} {len : Nat} (hr : r.Inside len) (isArray : Bool) :
    (deduceExt isArray r.n = none ∨ deduceExt isArray r.n = some r.n) ∧
    (isArray = true → deduceExt isArray r.n = some r.n) ∧
    (∀ sz : Nat, ∃ v w, ofNothing sz none = .ok v ∧ ofNothing sz (some 0) = .ok w ∧ v.size = 0 ∧ w.size = 0) ∧
    (∀ sz e : Nat, e ≠ 0 → ofNothing sz (some e) = .error .illFormed) := by
  have hn : r.n ≠ 2 ^ 64 - 1 := by
    have := hr.inside
    have := Nat.le_mul_of_pos_right r.n hr.size
    have := hr.len
    omega
  refine ⟨?_, ?_, fun sz => ⟨_, _, rfl, rfl, rfl, rfl⟩, fun sz e he => ?_⟩
  · cases isArray
    · exact Or.inl rfl
    · right; simp only [deduceExt, extOf]; rw [if_pos trivial, if_neg hn]
  · rintro rfl
    simp only [deduceExt, extOf]; rw [if_pos trivial, if_neg hn]
  · cases e with
    | zero => exact absurd rfl he
    | succ e => rfl

/-- C115. A view of fixed size cannot be made from an array of another size in any build; in checked builds it cannot be
made from another range of another size either, nor from iterators in the wrong order, unless the view is of dynamic
size. -/
theorem view_construct_checked {sz e : Nat} (cv : Conv) {r : Rng} (hne : e ≠ r.n) (checked : Bool) :
    ofCArray checked (some e) r = .error .illFormed ∧ ofStdArray checked sz (some e) cv r = .error .illFormed ∧
    (cv ≠ .toDerived → ofRange true sz (some e) cv r = .error .assertion ∧
      ofIter true sz (some e) cv r.p r.n = .error .assertion ∧
      (0 < r.sz → r.n < 2 ^ 64 → ofIters true sz (some e) cv r.sz r.p (r.p + r.n * r.sz) = .error .assertion)) := by
  have h1 : requireLen (some e) r.n = .error .illFormed := by simp [requireLen, staticAssert, hne]
  have h2 : ∀ p, make true sz (some e) p r.n = .error .assertion := by
    intro p
    have : (r.n == e) = false := by simp; exact fun h => hne h.symm
    simp only [make, this]; rfl
  have h3 : cv ≠ .toDerived → ofIter true sz (some e) cv r.p r.n = .error .assertion := by
    intro hc
    unfold ofIter
    cases cv with
    | same => exact h2 _
    | toBase off => exact h2 _
    | toDerived => exact absurd rfl hc
  refine ⟨by rw [ofCArray, h1]; rfl, by rw [ofStdArray, h1]; rfl, fun hc => ⟨h3 hc, h3 hc, fun h0 hn => ?_⟩⟩
  unfold ofIters
  rw [toSize_iters h0 hn]
  exact h3 hc

/-- C115 is false in four cases. (1) In a release build a view of fixed size made from a shorter range reaches beyond it:
beyond the array, if the range is the end of it. (2) Iterators in the wrong order give a view of dynamic size of almost
`2^64` elements, in checked builds too. (3) A range of elements of a derived class converts to a view of the base class;
the view, made in any way from iterators, a range or a `std::array`, designates the base parts of the elements exactly if
both classes have the same size or there is at most one element. (4) A `std::array` of a base class converts to a view of
a derived class, which is undefined unless the array is empty; the conversion does not compile for other ranges. -/
theorem view_construct_wrong :
    (∀ {r : Rng} {len e : Nat}, r.Inside len → r.p + r.n * r.sz = len → r.n < e →
      ∃ v, ofRange false r.sz (some e) .same r = .ok v ∧ v.size = e ∧ ¬ Valid v len) ∧
    (∀ (checked : Bool) {r : Rng} {len : Nat}, r.Inside len → 0 < r.n →
      ∃ v, ofIters checked r.sz none .same r.sz (r.p + r.n * r.sz) r.p = .ok v ∧ v.size = 2 ^ 64 - r.n ∧ ¬ Valid v len) ∧
    (∀ (checked : Bool) {r : Rng} {len off szT : Nat} {ext : Option Nat}, r.Inside len → 0 < szT → off + szT ≤ r.sz →
      ext = none ∨ ext = some r.n →
      ∃ v, ofRange checked szT ext (.toBase off) r = .ok v ∧ ofStdArray checked szT ext (.toBase off) r = .ok v ∧
        ofIter checked szT ext (.toBase off) r.p r.n = .ok v ∧
        ofIters checked szT ext (.toBase off) r.sz r.p (r.p + r.n * r.sz) = .ok v ∧
        ((∀ m : Mem, m.length = len → v.elems m = r.parts off szT m) ↔ szT = r.sz ∨ r.n ≤ 1)) ∧
    (∀ (checked : Bool) {r : Rng} {szT : Nat} {ext : Option Nat}, ext = none ∨ ext = some r.n →
      (r.n ≠ 0 → ofStdArray checked szT ext .toDerived r = .error .ub) ∧
      (r.n = 0 → ∃ v, ofStdArray checked szT ext .toDerived r = .ok v ∧ v.size = 0) ∧
      ofRange checked szT ext .toDerived r = .error .illFormed ∧
      ofIter checked szT ext .toDerived r.p r.n = .error .illFormed ∧
      (∀ q, ofIters checked szT ext .toDerived r.sz r.p q = .error .illFormed)) := by
  refine ⟨fun {r len e} hr hlen he => ?_, fun checked r len hr hn => ?_,
    fun checked r len off szT ext hr h0 hoff he => ?_, fun checked r szT ext he => ?_⟩
  · refine ⟨⟨r.sz, some e, r.p, r.n⟩, rfl, rfl, fun hv => ?_⟩
    have h1 : r.p + e * r.sz ≤ len := hv.inside
    have h2 : r.n * r.sz + r.sz ≤ e * r.sz := by
      have := Nat.mul_le_mul_right r.sz he
      rw [Nat.succ_mul] at this; exact this
    have := hr.size
    omega
  · have hlt : r.n < 2 ^ 63 := by
      have := hr.inside
      have := Nat.le_mul_of_pos_right r.n hr.size
      have := hr.len
      omega
    have hs : toSize (((r.p : Int) - ((r.p + r.n * r.sz : Nat) : Int)) / r.sz) = 2 ^ 64 - r.n := by
      have : (r.p : Int) - ((r.p + r.n * r.sz : Nat) : Int) = (-(r.n : Int)) * r.sz := by push_cast; ring
      rw [this, Int.mul_ediv_cancel _ (by have := hr.size; omega)]
      unfold toSize
      omega
    refine ⟨⟨r.sz, none, r.p + r.n * r.sz, 2 ^ 64 - r.n⟩, ?_, rfl, fun hv => ?_⟩
    · unfold ofIters
      rw [hs]; rfl
    · have := hv.size_le
      simp only [View.size] at this
      have := hr.len
      omega
  · have h1 := make_ok checked (sz := szT) (p := r.p + off) he
    have hs : View.size ⟨szT, ext, r.p + off, r.n⟩ = r.n := by rcases he with rfl | rfl <;> rfl
    have hn : r.n < 2 ^ 64 := by
      have := hr.inside
      have := Nat.le_mul_of_pos_right r.n hr.size
      have := hr.len
      omega
    refine ⟨⟨szT, ext, r.p + off, r.n⟩, h1, by rw [ofStdArray, requireLen_ok he]; exact h1, h1, by
      unfold ofIters
      rw [toSize_iters hr.size hn]
      exact h1, ⟨fun h => ?_, fun h m _ => ?_⟩⟩
    · by_contra hc
      rw [not_or] at hc
      have hlt : szT < r.sz := by omega
      have h2 : r.p + 2 * r.sz ≤ len := by
        have := Nat.mul_le_mul_right r.sz (show 2 ≤ r.n by omega)
        have := hr.inside
        omega
      have hh := h (List.range len) (by simp)
      have hh1 := congrArg (fun l => (l[1]?).bind (·[0]?)) hh
      simp only [View.elems, Rng.parts, hs] at hh1
      rw [List.getElem?_map, List.getElem?_map, List.getElem?_range (by omega)] at hh1
      simp only [Option.map_some, Option.bind_some, List.getElem?_take, List.getElem?_drop, if_pos h0] at hh1
      rw [List.getElem?_range (by omega), List.getElem?_range (by omega)] at hh1
      simp at hh1
      omega
    · unfold View.elems Rng.parts
      simp only [hs]
      refine List.map_congr_left fun i hi => ?_
      rw [List.mem_range] at hi
      rcases h with h | h
      · rw [h]; congr 2; omega
      · obtain rfl : i = 0 := by omega
        simp
  · refine ⟨fun h => ?_, fun h => ⟨⟨szT, ext, r.p, r.n⟩, ?_, ?_⟩, rfl, rfl, fun _ => rfl⟩
    · rw [ofStdArray, requireLen_ok he]
      simp only [bind, Except.bind, staticCast]
      rw [if_neg h]
    · rw [ofStdArray, requireLen_ok he]
      simp only [bind, Except.bind, staticCast]
      rw [if_pos h]
      exact make_ok checked he
    · rcases he with rfl | rfl <;> exact h

/-! ### Iteration -/

theorem readAt_elem {v : View} {m : Mem} (hv : Valid v m.length) {i : Nat} (hi : i < v.size) :
    readAt v.sz m (v.m_view + i * v.sz) = .ok ((v.elems m)[i]'(by simpa [View.elems] using hi)) := by
  have hb := hv.bound (k := i + 1) hi
  rw [Nat.add_mul] at hb
  unfold readAt
  rw [if_pos (by omega)]
  simp [View.elems]

theorem visit_from {v : View} {m : Mem} (hv : Valid v m.length) (fuel i : Nat) (hi : i ≤ v.size)
    (hf : v.size - i < fuel) :
    visit m v.sz fuel (v.m_view + i * v.sz) (v.m_view + v.size * v.sz) = .ok ((v.elems m).drop i) := by
  induction fuel generalizing i with
  | zero => omega
  | succ fuel ih =>
    unfold visit
    have hl : (v.elems m).length = v.size := by simp [View.elems]
    by_cases h : i = v.size
    · subst h
      rw [if_pos rfl, List.drop_eq_nil_of_le (by omega)]
    · have hlt : i < v.size := by omega
      have hne : v.m_view + i * v.sz ≠ v.m_view + v.size * v.sz := by
        intro e
        exact h (Nat.eq_of_mul_eq_mul_right hv.size (by omega))
      have hb := hv.bound (k := i + 1) hlt
      have e1 : v.m_view + i * v.sz + 1 * v.sz = v.m_view + (i + 1) * v.sz := by ring
      have hp : ptrAdd m.length v.sz (v.m_view + i * v.sz) 1 = .ok (v.m_view + (i + 1) * v.sz) := by
        rw [← e1]; exact ptrAdd_nat (k := 1) (by omega)
      rw [if_neg hne, readAt_elem hv hlt, hp]
      simp only [bind, Except.bind]
      rw [ih (i + 1) hlt (by omega), List.drop_eq_getElem_cons (i := i) (by omega)]

/-- C116. A loop from `begin()` to `end()` visits the elements of the view in order, each once; `empty()`, `front()` and
`back()` agree with them, and `begin() + i` designates element `i`. -/
theorem view_iteration {v : View} {m : Mem} (hv : Valid v m.length) :
    ∃ e, v.endIt m.length = .ok e ∧
      (∀ fuel, v.size < fuel → visit m v.sz fuel v.beginIt e = .ok (v.elems m)) ∧
      (v.elems m).length = v.size ∧ v.empty = (v.elems m).isEmpty ∧
      (∀ h : v.elems m ≠ [], v.front m = .ok ((v.elems m).head h) ∧ v.back m = .ok ((v.elems m).getLast h)) ∧
      (∀ i (hi : i < (v.elems m).length), v.read m i = .ok (v.elems m)[i]) := by
  have hl : (v.elems m).length = v.size := by simp [View.elems]
  have he : v.endIt m.length = .ok (v.m_view + v.size * v.sz) := ptrAdd_nat (hv.bound (Nat.le_refl _))
  refine ⟨_, he, fun fuel hf => ?_, hl, ?_, fun h => ⟨?_, ?_⟩, fun i hi => view_read hv i (by omega)⟩
  · simpa [View.beginIt] using visit_from hv fuel 0 (by omega) (by omega)
  · rw [View.empty, ← hl]
    cases v.elems m <;> rfl
  · have hp : 0 < v.size := by have := List.length_pos_iff.2 h; omega
    have := readAt_elem hv hp
    rw [List.head_eq_getElem]
    simpa [View.front, View.beginIt] using this
  · have hp : 0 < v.size := by have := List.length_pos_iff.2 h; omega
    have hb := hv.bound (k := v.size) (Nat.le_refl _)
    have e1 : v.size * v.sz = (v.size - 1) * v.sz + v.sz := by
      obtain ⟨k, hk⟩ := Nat.exists_eq_succ_of_ne_zero (show v.size ≠ 0 by omega)
      rw [hk, Nat.succ_mul]; simp
    have hq : ptrAdd m.length v.sz (v.m_view + v.size * v.sz) (-1) = .ok (v.m_view + (v.size - 1) * v.sz) := by
      unfold ptrAdd
      have h1 : ((v.m_view + v.size * v.sz : Nat) : Int) + -1 * (v.sz : Int) = ((v.m_view + (v.size - 1) * v.sz : Nat) : Int) := by
        rw [e1]; push_cast; ring
      simp only
      rw [h1, if_pos ⟨Int.natCast_nonneg _, by have : v.m_view + (v.size - 1) * v.sz ≤ m.length := by omega
                                               exact_mod_cast this⟩, Int.toNat_natCast]
    rw [View.back, he]
    simp only [bind, Except.bind]
    rw [hq]
    simp only
    rw [readAt_elem hv (i := v.size - 1) (by omega), List.getLast_eq_getElem]
    simp [hl]

/-- C116. Of an empty view `front()` is undefined at the end of the array, and `back()` at its start. -/
theorem view_empty_undefined {v : View} {m : Mem} (h : v.size = 0) (hz : 0 < v.sz) :
    (v.m_view = m.length → v.front m = .error .ub) ∧ (v.m_view = 0 → v.back m = .error .ub) := by
  refine ⟨fun h0 => by simp [View.front, View.beginIt, readAt, h0, hz.ne'], fun h0 => ?_⟩
  have e : v.endIt m.length = .ok 0 := by simp [View.endIt, h, h0, ptrAdd]
  rw [View.back, e]
  simp only [bind, Except.bind]
  have : ptrAdd m.length v.sz 0 (-1) = .error .ub := by
    unfold ptrAdd
    simp only
    rw [if_neg (by omega)]
  rw [this]

/-! ### The hypotheses can be met -/

/-- The four-byte elements at bytes 4 to 11 of an array of 12 bytes. -/
example : Rng.Inside ⟨4, 4, 2⟩ bytes.length := ⟨by decide, by decide, by decide⟩
example : (ofIters true 4 (some 2) .same 4 4 12).map (·.elems bytes) = .ok [[4, 5, 6, 7], [8, 9, 10, 11]] := by decide
/-- Two objects of six bytes whose base class has two bytes: the second element of the view lies inside the first object. -/
example : (ofRange true 2 none (.toBase 0) ⟨6, 0, 2⟩).map (·.elems bytes) = .ok [[0, 1], [2, 3]] ∧
    Rng.parts ⟨6, 0, 2⟩ 0 2 bytes = [[0, 1], [6, 7]] := by decide
example : visit bytes 2 6 demo.beginIt 12 = .ok [[2, 3], [4, 5], [6, 7], [8, 9], [10, 11]] := by decide
example : demo.back bytes = .ok [10, 11] := by decide
example : View.front ⟨2, none, 12, 0⟩ bytes = .error .ub ∧ View.back ⟨2, none, 0, 0⟩ bytes = .error .ub := by decide

end Verif.AV
