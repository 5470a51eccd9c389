import Verif.View.Model
import Mathlib.Tactic.Linarith
import Mathlib.Tactic.Ring
import Mathlib.Data.List.TakeDrop

/-! # Properties of `ArrayView` -/

set_option autoImplicit false

namespace Verif.AV

/-! ### Specification -/

/-- A view of elements inside the array; no array has `2^63` bytes or more. -/
structure Valid (v : View) (len : Nat) : Prop where
  inside : v.m_view + v.size * v.sz ≤ len
  size : 0 < v.sz
  len : len < 2 ^ 63

/-- The elements a view designates. -/
def View.elems (v : View) (m : Mem) : List (List Byte) :=
  (List.range v.size).map fun i => (m.drop (v.m_view + i * v.sz)).take v.sz

/-! ### Lemmas -/

theorem Valid.size_le {v : View} {len : Nat} (h : Valid v len) : v.size ≤ len := by
  have := h.inside
  have := Nat.le_mul_of_pos_right v.size h.size
  omega

theorem Valid.bound {v : View} {len k : Nat} (h : Valid v len) (hk : k ≤ v.size) : v.m_view + k * v.sz ≤ len := by
  have := h.inside
  have := Nat.mul_le_mul_right v.sz hk
  omega

theorem ptrAdd_nat {len sz p k : Nat} (h : p + k * sz ≤ len) : ptrAdd len sz p (k : Int) = .ok (p + k * sz) := by
  unfold ptrAdd
  have h1 : (p : Int) + (k : Int) * (sz : Int) = ((p + k * sz : Nat) : Int) := by push_cast; ring
  rw [h1]
  simp only [Int.toNat_natCast]
  rw [if_pos ⟨Int.natCast_nonneg _, by exact_mod_cast h⟩]

theorem wrap_of_lt {n : Nat} (h : n < 2 ^ 64) : wrap n = n := Nat.mod_eq_of_lt h

theorem assert_true {c : Bool} (checked : Bool) (h : c = true) : assert checked c = .ok () := by
  subst h; simp [assert]

theorem staticAssert_true {c : Bool} (h : c = true) : staticAssert c = .ok () := by
  subst h; rfl

theorem make_none (checked : Bool) (sz p n : Nat) : make checked sz none p n = .ok ⟨sz, none, p, n⟩ := rfl

theorem make_ext (checked : Bool) (sz p n : Nat) : make checked sz (extOf n) p n = .ok ⟨sz, extOf n, p, n⟩ := by
  unfold extOf make
  by_cases h : n = 2 ^ 64 - 1
  · rw [if_pos h]; rfl
  · rw [if_neg h]
    show (do assert checked (n == n); pure _) = _
    rw [assert_true checked (by simp)]; rfl

theorem make_fields {checked : Bool} {sz p n : Nat} {ext : Option Nat} {b : View}
    (h : make checked sz ext p n = .ok b) : b.sz = sz ∧ b.m_view = p := by
  unfold make at h
  cases ext with
  | none => cases h; exact ⟨rfl, rfl⟩
  | some e =>
    cases ha : assert checked (n == e) with
    | error f => simp [ha, bind, Except.bind] at h
    | ok u =>
      simp only [ha, bind, Except.bind] at h
      cases h; exact ⟨rfl, rfl⟩

theorem size_ext (sz p n : Nat) : View.size ⟨sz, extOf n, p, n⟩ = n := by
  unfold extOf View.size
  by_cases h : n = 2 ^ 64 - 1
  · rw [if_pos h]
  · rw [if_neg h]

theorem sizeSub_of_le {a b : Nat} (h : b ≤ a) (ha : a < 2 ^ 64) : sizeSub a b = a - b := by
  unfold sizeSub wrap
  omega

/-- A part of a view. -/
structure Part (v w : View) (offset count : Nat) : Prop where
  sz : w.sz = v.sz
  size : w.size = count
  m_view : w.m_view = v.m_view + offset * v.sz

theorem Part.elems {v w : View} {o c : Nat} (h : Part v w o c) (hoc : o + c ≤ v.size) (m : Mem) :
    w.elems m = ((v.elems m).drop o).take c := by
  unfold View.elems
  apply List.ext_getElem
  · simp [h.size]; omega
  · intro i h1 h2
    simp only [List.getElem_map, List.getElem_range, List.getElem_take, List.getElem_drop, h.sz, h.m_view]
    congr 2
    ring

theorem Part.valid {v w : View} {o c len : Nat} (h : Part v w o c) (hoc : o + c ≤ v.size) (hv : Valid v len) :
    Valid w len := by
  refine ⟨?_, by rw [h.sz]; exact hv.size, hv.len⟩
  rw [h.sz, h.size, h.m_view]
  have := hv.bound hoc
  rw [Nat.add_mul] at this
  omega

/-! ### Sub-views -/

/-- C51. `subview(o, c)` inside the view is defined, in checked builds too, and designates exactly the elements
`o, …, o + c - 1`; the template form does the same. -/
theorem view_subview (checked : Bool) {v : View} {len : Nat} (hv : Valid v len) (o c : Nat) (h : o + c ≤ v.size) :
    ∃ w w', v.subview checked len o c = .ok w ∧ v.subviewT checked len o c = .ok w' ∧ Valid w len ∧ Valid w' len ∧
      w.size = c ∧ w'.size = c ∧
      ∀ m : Mem, w.elems m = ((v.elems m).drop o).take c ∧ w'.elems m = ((v.elems m).drop o).take c := by
  have hs := hv.size_le
  have hl := hv.len
  have hw : wrap (c + o) = c + o := wrap_of_lt (by omega)
  have hp := ptrAdd_nat (hv.bound (k := o) (by omega))
  have p1 : Part v ⟨v.sz, none, v.m_view + o * v.sz, c⟩ o c := ⟨rfl, rfl, rfl⟩
  have p2 : Part v ⟨v.sz, extOf c, v.m_view + o * v.sz, c⟩ o c := ⟨rfl, size_ext _ _ _, rfl⟩
  refine ⟨_, _, ?_, ?_, p1.valid h hv, p2.valid h hv, p1.size, p2.size, fun m => ⟨p1.elems h m, p2.elems h m⟩⟩
  · unfold View.subview
    rw [hw, assert_true checked (by simpa using by omega), hp]
    rfl
  · unfold View.subviewT
    rw [hw]
    cases he : v.ext with
    | none =>
      simp only
      rw [assert_true checked (by simpa using by omega), hp]
      exact make_ext _ _ _ _
    | some e =>
      simp only
      have : v.size = e := by simp [View.size, he]
      rw [staticAssert_true (by simpa using by omega), hp]
      exact make_ext _ _ _ _

/-- C51. `first(c)` designates the first `c` elements. -/
theorem view_first (checked : Bool) {v : View} {len : Nat} (hv : Valid v len) (c : Nat) (h : c ≤ v.size) :
    ∃ w w', v.first checked c = .ok w ∧ v.firstT checked c = .ok w' ∧ Valid w len ∧ Valid w' len ∧
      w.size = c ∧ w'.size = c ∧ ∀ m : Mem, w.elems m = (v.elems m).take c ∧ w'.elems m = (v.elems m).take c := by
  have p1 : Part v ⟨v.sz, none, v.m_view, c⟩ 0 c := ⟨rfl, rfl, by simp⟩
  have p2 : Part v ⟨v.sz, extOf c, v.m_view, c⟩ 0 c := ⟨rfl, size_ext _ _ _, by simp⟩
  have h' : 0 + c ≤ v.size := by omega
  refine ⟨_, _, ?_, ?_, p1.valid h' hv, p2.valid h' hv, p1.size, p2.size,
    fun m => ⟨by simpa using p1.elems h' m, by simpa using p2.elems h' m⟩⟩
  · unfold View.first
    rw [assert_true checked (by simpa using h)]
    rfl
  · unfold View.firstT
    cases he : v.ext with
    | none =>
      simp only
      rw [assert_true checked (by simpa using h)]
      exact make_ext _ _ _ _
    | some e =>
      simp only
      have : v.size = e := by simp [View.size, he]
      rw [staticAssert_true (by simpa using by omega)]
      exact make_ext _ _ _ _

/-- C51. `last(c)` designates the last `c` elements. -/
theorem view_last (checked : Bool) {v : View} {len : Nat} (hv : Valid v len) (c : Nat) (h : c ≤ v.size) :
    ∃ w w', v.last checked len c = .ok w ∧ v.lastT checked len c = .ok w' ∧ Valid w len ∧ Valid w' len ∧
      w.size = c ∧ w'.size = c ∧
      ∀ m : Mem, w.elems m = (v.elems m).drop (v.size - c) ∧ w'.elems m = (v.elems m).drop (v.size - c) := by
  have hs := hv.size_le
  have hl := hv.len
  have hw : sizeSub v.size c = v.size - c := sizeSub_of_le h (by omega)
  have hp := ptrAdd_nat (hv.bound (k := v.size - c) (by omega))
  have p1 : Part v ⟨v.sz, none, v.m_view + (v.size - c) * v.sz, c⟩ (v.size - c) c := ⟨rfl, rfl, rfl⟩
  have p2 : Part v ⟨v.sz, extOf c, v.m_view + (v.size - c) * v.sz, c⟩ (v.size - c) c := ⟨rfl, size_ext _ _ _, rfl⟩
  have h' : v.size - c + c ≤ v.size := by omega
  have ht : ∀ m : Mem, ((v.elems m).drop (v.size - c)).take c = (v.elems m).drop (v.size - c) := by
    intro m
    apply List.take_of_length_le
    simp [View.elems]; omega
  refine ⟨_, _, ?_, ?_, p1.valid h' hv, p2.valid h' hv, p1.size, p2.size,
    fun m => ⟨by rw [p1.elems h' m, ht], by rw [p2.elems h' m, ht]⟩⟩
  · unfold View.last
    rw [assert_true checked (by simpa using h), hw, hp]
    rfl
  · unfold View.lastT
    rw [hw]
    cases he : v.ext with
    | none =>
      simp only
      rw [assert_true checked (by simpa using h), hp]
      exact make_ext _ _ _ _
    | some e =>
      simp only
      have : v.size = e := by simp [View.size, he]
      rw [staticAssert_true (by simpa using by omega), hp]
      exact make_ext _ _ _ _

/-- C51. Sub-views of sub-views compose: the result is the sub-view at the sum of the offsets. -/
theorem view_nested (checked : Bool) {v : View} {len : Nat} (hv : Valid v len) (o c o' c' : Nat) (h : o + c ≤ v.size)
    (h' : o' + c' ≤ c) :
    (do let w ← v.subview checked len o c; w.subview checked len o' c') = v.subview checked len (o + o') c' ∧
    ∃ w, v.subview checked len (o + o') c' = .ok w := by
  have hs := hv.size_le
  have hl := hv.len
  have e1 : v.subview checked len o c = .ok ⟨v.sz, none, v.m_view + o * v.sz, c⟩ := by
    unfold View.subview
    rw [wrap_of_lt (by omega), assert_true checked (by simpa using by omega), ptrAdd_nat (hv.bound (by omega))]
    rfl
  have e2 : v.subview checked len (o + o') c' = .ok ⟨v.sz, none, v.m_view + (o + o') * v.sz, c'⟩ := by
    unfold View.subview
    rw [wrap_of_lt (by omega), assert_true checked (by simpa using by omega), ptrAdd_nat (hv.bound (by omega))]
    rfl
  refine ⟨?_, _, e2⟩
  rw [e1, e2]
  show View.subview _ _ _ _ _ = _
  unfold View.subview
  have hb := hv.bound (k := o + o') (by omega)
  rw [Nat.add_mul] at hb
  have ha : decide (wrap (c' + o') ≤ View.size ⟨v.sz, none, v.m_view + o * v.sz, c⟩) = true := by
    rw [wrap_of_lt (by omega)]
    apply decide_eq_true
    show c' + o' ≤ c
    omega
  rw [assert_true checked ha]
  simp only
  rw [ptrAdd_nat (by omega)]
  simp only [bind, Except.bind, make_none]
  congr 2
  ring

/-- The `i`-th element is read. -/
theorem view_read {v : View} {m : Mem} (hv : Valid v m.length) (i : Nat) (hi : i < v.size) :
    v.read m i = .ok ((v.elems m)[i]'(by simpa [View.elems] using hi)) := by
  unfold View.read
  have hb := hv.bound (k := i + 1) hi
  rw [Nat.add_mul] at hb
  rw [ptrAdd_nat (by omega)]
  simp only [bind, Except.bind]
  rw [if_pos (by omega)]
  simp [View.elems]

/-- An element of a view of a whole array can be read and written exactly if its index is in range; everything else is
undefined, no assertion stops it. -/
theorem view_access_exact {v : View} {m : Mem} (hv : Valid v m.length) (h0 : v.m_view = 0)
    (hm : v.size * v.sz = m.length) (i : Int) (x : List Byte) :
    ((∃ y, v.read m i = .ok y) ↔ 0 ≤ i ∧ i < v.size) ∧ ((∃ m', v.write m i x = .ok m') ↔ 0 ≤ i ∧ i < v.size) ∧
    (¬ (0 ≤ i ∧ i < v.size) → v.read m i = .error .ub ∧ v.write m i x = .error .ub) := by
  have hp := hv.size
  have ok : 0 ≤ i ∧ i < v.size → (∃ y, v.read m i = .ok y) ∧ ∃ m', v.write m i x = .ok m' := by
    rintro ⟨h1, h2⟩
    obtain ⟨k, rfl⟩ := Int.eq_ofNat_of_zero_le h1
    have hk : k < v.size := by omega
    have hb := hv.bound (k := k + 1) hk
    rw [Nat.add_mul] at hb
    unfold View.read View.write
    rw [ptrAdd_nat (by omega)]
    simp only [bind, Except.bind]
    rw [if_pos (by omega), if_pos (by omega)]
    exact ⟨⟨_, rfl⟩, ⟨_, rfl⟩⟩
  have bad : ¬ (0 ≤ i ∧ i < v.size) → v.read m i = .error .ub ∧ v.write m i x = .error .ub := by
    intro h
    unfold View.read View.write ptrAdd
    simp only [h0]
    by_cases hi : i < 0
    · have hneg : i * (v.sz : Int) < 0 := Int.mul_neg_of_neg_of_pos hi (by omega)
      rw [if_neg (by omega)]
      exact ⟨rfl, rfl⟩
    · have h1 : (v.size : Int) ≤ i := by
        by_contra h'
        exact h ⟨by omega, by omega⟩
      have h2 : (v.size : Int) * v.sz ≤ i * v.sz := Int.mul_le_mul_of_nonneg_right h1 (by omega)
      have h3 : (v.size : Int) * v.sz = m.length := by exact_mod_cast hm
      by_cases h4 : i * (v.sz : Int) ≤ m.length
      · rw [if_pos (by omega)]
        simp only [bind, Except.bind]
        rw [if_neg (by omega), if_neg (by omega)]
        exact ⟨rfl, rfl⟩
      · rw [if_neg (by omega)]
        exact ⟨rfl, rfl⟩
  refine ⟨⟨fun ⟨y, h⟩ => ?_, fun h => (ok h).1⟩, ⟨fun ⟨y, h⟩ => ?_, fun h => (ok h).2⟩, bad⟩
  · by_contra hc
    rw [(bad hc).1] at h
    cases h
  · by_contra hc
    rw [(bad hc).2] at h
    cases h

theorem take_write {m : Mem} {x : List Byte} {p q k n : Nat} (hx : x.length = n) (hp : p + n ≤ m.length) (hk : k = n)
    (hd : q + k ≤ p ∨ p + n ≤ q) :
    ((m.take p ++ x ++ m.drop (p + n)).drop q).take k = (m.drop q).take k := by
  subst hk
  apply List.ext_getElem
  · simp only [List.length_take, List.length_drop, List.length_append]; omega
  · intro i h1 h2
    have hi : i < k := by simp at h1; omega
    simp only [List.getElem_take, List.getElem_drop]
    rcases hd with hd | hd
    · rw [List.getElem_append_left (by simp; omega), List.getElem_append_left (by simp; omega), List.getElem_take]
    · rw [List.getElem_append_right (by simp; omega)]
      simp only [List.getElem_drop, List.length_append, List.length_take]
      congr 1
      omega

theorem take_write_self {m : Mem} {x : List Byte} {p n : Nat} (hx : x.length = n) (hp : p + n ≤ m.length) :
    ((m.take p ++ x ++ m.drop (p + n)).drop p).take n = x := by
  subst hx
  rw [List.append_assoc, List.drop_append_of_le_length (by simp; omega)]
  rw [List.drop_eq_nil_of_le (by simp)]
  simp

/-- C51. Writing an element through a sub-view changes exactly that element of the viewed range, and no byte outside
that element. -/
theorem view_write (checked : Bool) {v w : View} {m : Mem} (hv : Valid v m.length) {o c : Nat} (h : o + c ≤ v.size)
    (hw : v.subview checked m.length o c = .ok w) (i : Nat) (hi : i < c) (x : List Byte) (hx : x.length = v.sz) :
    ∃ m', w.write m i x = .ok m' ∧ m'.length = m.length ∧ v.elems m' = (v.elems m).set (o + i) x ∧
      ∀ k, k < v.m_view + (o + i) * v.sz ∨ v.m_view + (o + i + 1) * v.sz ≤ k → m'[k]? = m[k]? := by
  have hs := hv.size_le
  have hl := hv.len
  have e1 : v.subview checked m.length o c = .ok ⟨v.sz, none, v.m_view + o * v.sz, c⟩ := by
    unfold View.subview
    rw [wrap_of_lt (by omega), assert_true checked (by simpa using by omega), ptrAdd_nat (hv.bound (by omega))]
    rfl
  rw [e1] at hw
  cases hw
  have hb := hv.bound (k := o + i + 1) (by omega)
  have hmul : v.m_view + o * v.sz + i * v.sz = v.m_view + (o + i) * v.sz := by ring
  have hmul1 : (o + i + 1) * v.sz = (o + i) * v.sz + v.sz := by ring
  rw [hmul1] at hb
  refine ⟨m.take (v.m_view + (o + i) * v.sz) ++ x ++ m.drop (v.m_view + (o + i) * v.sz + v.sz), ?_, ?_, ?_, ?_⟩
  · unfold View.write
    simp only
    rw [ptrAdd_nat (by omega)]
    simp only [bind, Except.bind]
    rw [if_pos (by omega), hmul]
  · simp [hx]; omega
  · apply List.ext_getElem
    · simp [View.elems]
    · intro j h1 h2
      have hj : j < v.size := by simpa [View.elems] using h1
      by_cases hji : o + i = j
      · subst hji
        rw [List.getElem_set_self]
        simp only [View.elems, List.getElem_map, List.getElem_range]
        exact take_write_self hx (by omega)
      · rw [List.getElem_set_ne hji]
        simp only [View.elems, List.getElem_map, List.getElem_range]
        apply take_write hx (by omega) rfl
        rcases Nat.lt_or_gt_of_ne hji with hlt | hlt
        · right
          have := Nat.mul_le_mul_right v.sz (show o + i + 1 ≤ j from hlt)
          rw [hmul1] at this
          omega
        · left
          have := Nat.mul_le_mul_right v.sz (show j + 1 ≤ o + i from hlt)
          rw [Nat.add_mul] at this
          omega
  · intro k hk
    rw [hmul1] at hk
    rcases hk with hk | hk
    · rw [List.append_assoc, List.getElem?_append_left (by simp; omega), List.getElem?_take, if_pos hk]
    · rw [List.getElem?_append_right (by simp; omega), List.getElem?_drop]
      congr 1
      simp; omega

/-! ### Bounds checks -/

/-- C52. In checked builds `first` and `last` stop every request that does not lie inside the view. -/
theorem view_first_last_checked {v : View} {len c : Nat} (h : v.size < c) :
    v.first true c = .error .assertion ∧ v.last true len c = .error .assertion := by
  have : assert true (decide (c ≤ v.size)) = .error .assertion := by
    simp [assert]; omega
  unfold View.first View.last
  rw [this]
  exact ⟨rfl, rfl⟩

/-- C52, what holds for `subview`. The full claim is "a request that does not lie inside the view is stopped by the
assertion"; it holds if the sum of offset and count is representable. -/
theorem view_checked_partial {v : View} {len o c : Nat} (h : v.size < o + c) (hw : o + c < 2 ^ 64) :
    v.subview true len o c = .error .assertion := by
  have : assert true (decide (wrap (c + o) ≤ v.size)) = .error .assertion := by
    rw [wrap_of_lt (by omega)]
    simp [assert]; omega
  unfold View.subview
  rw [this]
  rfl

/-- C52 is false: for every view and every offset inside it other than 0 there is a count for which the sum overflows;
the assertion holds and the result is a view that reaches far outside the array. -/
theorem view_checked_wrong {v : View} {len : Nat} (hv : Valid v len) (o : Nat) (h0 : 0 < o) (ho : o ≤ v.size) :
    ∃ c < 2 ^ 64, v.size < o + c ∧ ∃ w, v.subview true len o c = .ok w ∧ w.size = c ∧ ¬ Valid w len := by
  have hs := hv.size_le
  have hl := hv.len
  refine ⟨2 ^ 64 - o, by omega, by omega, ⟨v.sz, none, v.m_view + o * v.sz, 2 ^ 64 - o⟩, ?_, rfl, ?_⟩
  · unfold View.subview
    have : wrap (2 ^ 64 - o + o) = 0 := by
      rw [Nat.sub_add_cancel (by omega)]; rfl
    rw [this, assert_true true (by simp), ptrAdd_nat (hv.bound ho)]
    rfl
  · intro hc
    have := hc.size_le
    simp only [View.size] at this
    omega

theorem checked_iff {α : Type} {b : Bool} {k : Except Fault α} (hk : k ≠ .error .assertion) :
    ((do assert true b; k) = Except.error Fault.assertion ↔ b = false) := by
  cases b
  · exact ⟨fun _ => rfl, fun _ => rfl⟩
  · exact ⟨fun h => absurd h hk, fun h => nomatch h⟩

theorem static_iff {α : Type} {b : Bool} {k : Except Fault α} (hk : k ≠ .error .illFormed) :
    ((do staticAssert b; k) = Except.error Fault.illFormed ↔ b = false) := by
  cases b
  · exact ⟨fun _ => rfl, fun _ => rfl⟩
  · exact ⟨fun h => absurd h hk, fun h => nomatch h⟩

theorem ptr_then {len sz p : Nat} {k : Int} {g : Nat → Except Fault View} (hg : ∀ q, ∃ v, g q = .ok v) {f : Fault}
    (hf : f ≠ .ub) : (do let q ← ptrAdd len sz p k; g q) ≠ Except.error f := by
  have h : ptrAdd len sz p k = .error .ub ∨ ∃ q, ptrAdd len sz p k = .ok q := by
    unfold ptrAdd
    by_cases h : 0 ≤ (p : Int) + k * sz ∧ (p : Int) + k * sz ≤ len
    · exact .inr ⟨_, if_pos h⟩
    · exact .inl (if_neg h)
  rcases h with h | ⟨q, h⟩
  · rw [h]
    intro h
    cases h
    exact hf rfl
  · obtain ⟨v, e⟩ := hg q
    rw [h]
    show g q ≠ _
    rw [e]; simp

/-- C52, exactly when each request is stopped: by the assertion, or for views of fixed size asked with template arguments by
the compiler. `first` and `last`: if the count is larger than the view. `subview`: if offset plus count, modulo 2^64, is. -/
theorem view_checked_exact (v : View) (len o c : Nat) :
    (v.first true c = .error .assertion ↔ v.size < c) ∧
    (v.last true len c = .error .assertion ↔ v.size < c) ∧
    (v.subview true len o c = .error .assertion ↔ v.size < (o + c) % 2 ^ 64) ∧
    (v.ext = none → (v.firstT true c = .error .assertion ↔ v.size < c) ∧
      (v.lastT true len c = .error .assertion ↔ v.size < c) ∧
      (v.subviewT true len o c = .error .assertion ↔ v.size < (o + c) % 2 ^ 64)) ∧
    (∀ e, v.ext = some e → (v.firstT true c = .error .illFormed ↔ e < c) ∧
      (v.lastT true len c = .error .illFormed ↔ e < c) ∧
      (v.subviewT true len o c = .error .illFormed ↔ e < (o + c) % 2 ^ 64)) := by
  have hm : ∀ q, ∃ w, make true v.sz none q c = .ok w := fun q => ⟨_, rfl⟩
  have hme : ∀ q, ∃ w, make true v.sz (extOf c) q c = .ok w := fun q => ⟨_, make_ext _ _ _ _⟩
  have ok : ∀ {e : Except Fault View} {f : Fault}, (∃ w, e = .ok w) → e ≠ .error f := by
    rintro e f ⟨w, rfl⟩; simp
  refine ⟨?_, ?_, ?_, fun h => ⟨?_, ?_, ?_⟩, fun e h => ⟨?_, ?_, ?_⟩⟩
  · unfold View.first
    rw [checked_iff (ok (hm _))]; simp
  · unfold View.last
    rw [checked_iff (ptr_then hm (by decide))]; simp
  · unfold View.subview
    rw [checked_iff (ptr_then hm (by decide))]; simp [wrap, Nat.add_comm]
  · unfold View.firstT
    simp only [h]
    rw [checked_iff (ok (hme _))]; simp
  · unfold View.lastT
    simp only [h]
    rw [checked_iff (ptr_then hme (by decide))]; simp
  · unfold View.subviewT
    simp only [h]
    rw [checked_iff (ptr_then hme (by decide))]; simp [wrap, Nat.add_comm]
  · unfold View.firstT
    simp only [h]
    rw [static_iff (ok (hme _))]; simp
  · unfold View.lastT
    simp only [h]
    rw [static_iff (ptr_then hme (by decide))]; simp
  · unfold View.subviewT
    simp only [h]
    rw [static_iff (ptr_then hme (by decide))]; simp [wrap, Nat.add_comm]

/-! ### Bytes -/

/-- C53. The byte view covers the bytes of the elements in order. -/
theorem view_as_bytes (checked : Bool) {v : View} {len : Nat} (hv : Valid v len) :
    ∃ b, v.asBytes checked = .ok b ∧ Valid b len ∧ b.sz = 1 ∧ b.size = v.size * v.sz ∧
      ∀ m : Mem, m.length = len → (b.elems m).flatten = (v.elems m).flatten ∧
        b.elems m = ((v.elems m).flatten).map fun x => [x] := by
  have hi := hv.inside
  have hl := hv.len
  have hlt : v.size * v.sz < 2 ^ 63 := by omega
  have hsb : v.sizeBytes = v.size * v.sz := wrap_of_lt (by omega)
  have hmk : ∃ b, v.asBytes checked = .ok b ∧ b.sz = 1 ∧ b.size = v.size * v.sz ∧ b.m_view = v.m_view := by
    unfold View.asBytes
    cases he : v.ext with
    | none => exact ⟨_, make_none _ _ _ _, rfl, hsb, rfl⟩
    | some e =>
      have : v.size = e := by simp [View.size, he]
      have h2 : wrap (v.sz * e) = v.sizeBytes := by
        rw [← this, Nat.mul_comm]; rfl
      simp only
      rw [h2]
      exact ⟨_, make_ext _ _ _ _, rfl, by rw [size_ext, hsb], rfl⟩
  obtain ⟨b, h1, h2, h3, h4⟩ := hmk
  have flat : ∀ m : Mem, m.length = len → ∀ n, n ≤ v.size →
      ((List.range n).map fun i => (m.drop (v.m_view + i * v.sz)).take v.sz).flatten =
        (m.drop v.m_view).take (n * v.sz) := by
    intro m hm n
    induction n with
    | zero => intro _; simp
    | succ n ih =>
      intro hn
      rw [List.range_succ, List.map_append, List.flatten_append, ih (by omega), Nat.add_mul, Nat.one_mul]
      simp only [List.map_cons, List.map_nil, List.flatten_cons, List.flatten_nil, List.append_nil]
      rw [List.take_add, List.drop_drop]
  have hb : ∀ m : Mem, m.length = len → b.elems m = ((m.drop v.m_view).take (v.size * v.sz)).map fun x => [x] := by
    intro m hm
    apply List.ext_getElem
    · simp [View.elems, h3, hm]; omega
    · intro i h5 h6
      have hi' : i < v.size * v.sz := by simpa [View.elems, h3] using h5
      simp only [View.elems, List.getElem_map, List.getElem_range, List.getElem_take, List.getElem_drop, h2, h4,
        Nat.mul_one]
      rw [List.drop_eq_getElem_cons (by omega)]
      rfl
  refine ⟨b, h1, ⟨by rw [h2, h3, h4]; omega, by rw [h2]; omega, hl⟩, h2, h3, fun m hm => ?_⟩
  have e1 : (v.elems m).flatten = (m.drop v.m_view).take (v.size * v.sz) := flat m hm v.size (le_refl _)
  rw [e1, hb m hm]
  refine ⟨?_, rfl⟩
  generalize (m.drop v.m_view).take (v.size * v.sz) = l
  induction l with
  | nil => rfl
  | cons x l ih => simpa using ih

/-- C53. Writing byte number `j` of the byte view changes exactly byte `j % sizeof(T)` of element `j / sizeof(T)`. -/
theorem view_write_byte (checked : Bool) {v b : View} {m : Mem} (hv : Valid v m.length)
    (hb : v.asBytes checked = .ok b) (j : Nat) (hj : j < v.size * v.sz) (x : Byte) :
    ∃ m', b.write m j [x] = .ok m' ∧ m'.length = m.length ∧
      (∀ k, k ≠ v.m_view + j → m'[k]? = m[k]?) ∧
      v.elems m' = (v.elems m).modify (j / v.sz) fun e => e.set (j % v.sz) x := by
  have hmk : b.sz = 1 ∧ b.m_view = v.m_view := by
    unfold View.asBytes at hb
    exact make_fields hb
  obtain ⟨h1, h2⟩ := hmk
  have hi := hv.inside
  have hwr : m.take (v.m_view + j) ++ [x] ++ m.drop (v.m_view + j + 1) = m.set (v.m_view + j) x := by
    rw [List.set_eq_take_append_cons_drop, if_pos (by omega)]
    simp
  refine ⟨m.set (v.m_view + j) x, ?_, by simp, ?_, ?_⟩
  · unfold View.write
    rw [h1, h2, ptrAdd_nat (by omega)]
    simp only [bind, Except.bind, Nat.mul_one]
    rw [if_pos (by omega), hwr]
  · intro k hk
    rw [List.getElem?_set_ne (Ne.symm hk)]
  · have hq := Nat.div_add_mod j v.sz
    have hr := Nat.mod_lt j hv.size
    have hdiv : j / v.sz < v.size := by
      rw [Nat.div_lt_iff_lt_mul hv.size]; exact hj
    apply List.ext_getElem
    · simp [View.elems]
    · intro i h3 h4
      have hi' : i < v.size := by simpa [View.elems] using h3
      have hb1 := hv.bound (k := i + 1) hi'
      rw [Nat.add_mul] at hb1
      rw [List.getElem_modify]
      simp only [View.elems, List.getElem_map, List.getElem_range]
      rw [Nat.mul_comm] at hq
      by_cases hij : j / v.sz = i
      · subst hij
        rw [if_pos rfl]
        apply List.ext_getElem
        · simp
        · intro k h5 h6
          have hk : k < v.sz := by simp at h5; omega
          simp only [List.getElem_take, List.getElem_drop, List.getElem_set]
          by_cases hkj : j % v.sz = k
          · rw [if_pos hkj, if_pos (by omega)]
          · rw [if_neg hkj, if_neg (by omega)]
      · rw [if_neg hij]
        apply List.ext_getElem
        · simp
        · intro k h5 h6
          have hk : k < v.sz := by simp at h5; omega
          simp only [List.getElem_take, List.getElem_drop, List.getElem_set]
          rw [if_neg]
          intro e
          apply hij
          have : j = k + v.sz * i := by rw [Nat.mul_comm]; omega
          rw [this, Nat.add_mul_div_left _ _ hv.size, Nat.div_eq_of_lt hk, Nat.zero_add]

/-! ### Cases -/

section Examples

/-- Six two-byte elements, viewed from the second on. -/
def demo : View := ⟨2, none, 2, 5⟩
def bytes : Mem := [0, 1, 2, 3, 4, 5, 6, 7, 8, 9, 10, 11]

example : Valid demo bytes.length := ⟨by decide, by decide, by decide⟩
example : (demo.subview true 12 1 3).map (·.elems bytes) = .ok [[4, 5], [6, 7], [8, 9]] := by decide
example : (demo.asBytes true).map (·.size) = .ok 10 := by decide
example : (do let w ← demo.subview true 12 1 3; w.write bytes 1 [70, 71]).map (demo.elems ·) =
    .ok [[2, 3], [4, 5], [70, 71], [8, 9], [10, 11]] := by decide
/-- A view of a whole array: the third of two elements cannot be read, nor the one before the first. -/
example : Valid ⟨2, none, 0, 2⟩ 4 ∧ (View.read ⟨2, none, 0, 2⟩ [1, 2, 3, 4] 1) = .ok [3, 4] ∧
    (View.read ⟨2, none, 0, 2⟩ [1, 2, 3, 4] 2) = .error .ub ∧ (View.read ⟨2, none, 0, 2⟩ [1, 2, 3, 4] (-1)) = .error .ub :=
  ⟨⟨by decide, by decide, by decide⟩, by decide, by decide, by decide⟩
/-- `subview(1, -1)`, meant as "everything from 1 on", passes the assertion. -/
example : (demo.subview true 12 1 (2 ^ 64 - 1)).map (·.size) = .ok (2 ^ 64 - 1) := by decide

end Examples

end Verif.AV
