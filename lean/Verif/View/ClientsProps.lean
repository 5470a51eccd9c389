import Verif.View.Clients
import Verif.View.Props
import Verif.Sorting
import Mathlib.Data.List.Perm.Basic

/-! # Programs that take a view apart: C170 -/

set_option autoImplicit false

namespace Verif.AV

open Verif.Sorting

/-! ### Specification -/

/-- Nothing changes outside the view. -/
def Frame (v : View) (m m' : Mem) : Prop :=
  m'.length = m.length ∧ ∀ k, k < v.m_view ∨ v.m_view + v.size * v.sz ≤ k → m'[k]? = m[k]?

/-! ### Lemmas -/

theorem elems_length (v : View) (m : Mem) : (v.elems m).length = v.size := by simp [View.elems]

theorem Frame.refl (v : View) (m : Mem) : Frame v m m := ⟨rfl, fun _ _ => rfl⟩

theorem Frame.trans {v : View} {m m' m'' : Mem} (h : Frame v m m') (h' : Frame v m' m'') : Frame v m m'' :=
  ⟨h'.1.trans h.1, fun k hk => (h'.2 k hk).trans (h.2 k hk)⟩

theorem elem_width {v : View} {m : Mem} (hv : Valid v m.length) {x : List Byte} (hx : x ∈ v.elems m) : x.length = v.sz := by
  obtain ⟨i, hi, rfl⟩ := List.mem_map.1 hx
  have hb := hv.bound (k := i + 1) (List.mem_range.1 hi)
  rw [Nat.add_mul] at hb
  simp; omega

theorem first_eq (checked : Bool) {v : View} {c : Nat} (h : c ≤ v.size) :
    v.first checked c = .ok ⟨v.sz, none, v.m_view, c⟩ := by
  unfold View.first
  rw [assert_true checked (by simpa using h)]; rfl

theorem last_eq (checked : Bool) {v : View} {len c : Nat} (hv : Valid v len) (h : c ≤ v.size) :
    v.last checked len c = .ok ⟨v.sz, none, v.m_view + (v.size - c) * v.sz, c⟩ := by
  have hs := hv.size_le
  have hl := hv.len
  unfold View.last
  rw [assert_true checked (by simpa using h), sizeSub_of_le h (by omega), ptrAdd_nat (hv.bound (by omega))]; rfl

theorem subview_eq (checked : Bool) {v : View} {len o c : Nat} (hv : Valid v len) (h : o + c ≤ v.size) :
    v.subview checked len o c = .ok ⟨v.sz, none, v.m_view + o * v.sz, c⟩ := by
  have hs := hv.size_le
  have hl := hv.len
  unfold View.subview
  rw [wrap_of_lt (by omega), assert_true checked (by simpa using by omega), ptrAdd_nat (hv.bound (by omega))]; rfl

theorem first_part (v : View) (c : Nat) : Part v ⟨v.sz, none, v.m_view, c⟩ 0 c := ⟨rfl, rfl, by simp⟩
theorem sub_part (v : View) (o c : Nat) : Part v ⟨v.sz, none, v.m_view + o * v.sz, c⟩ o c := ⟨rfl, rfl, rfl⟩

theorem write_own {v : View} {m : Mem} (hv : Valid v m.length) (i : Nat) (hi : i < v.size) (x : List Byte)
    (hx : x.length = v.sz) : ∃ m', v.write m i x = .ok m' ∧ v.elems m' = (v.elems m).set i x ∧ Frame v m m' := by
  obtain ⟨m', h1, h2, h3, h4⟩ := view_write false hv (o := 0) (c := v.size) (by omega) (subview_eq false hv (by omega)) i hi x hx
  have e : View.write ⟨v.sz, none, v.m_view + 0 * v.sz, v.size⟩ m i x = v.write m i x := by
    simp only [View.write, Nat.zero_mul, Nat.add_zero]
  rw [e] at h1
  rw [Nat.zero_add] at h3
  refine ⟨m', h1, h3, h2, fun k hk => h4 k ?_⟩
  have := Nat.mul_le_mul_right v.sz (show 0 + i + 1 ≤ v.size by omega)
  omega

/-- What is changed through a part of a view is changed in the view, and nothing else. -/
theorem Part.changed {v w : View} {o c : Nat} (h : Part v w o c) (hoc : o + c ≤ v.size) {m m' : Mem}
    (hf : Frame w m m') :
    v.elems m' = (v.elems m).take o ++ w.elems m' ++ (v.elems m).drop (o + c) ∧ Frame v m m' := by
  obtain ⟨hl, hk⟩ := hf
  rw [h.sz, h.size, h.m_view] at hk
  have hsum : (o + c) * v.sz = o * v.sz + c * v.sz := Nat.add_mul _ _ _
  have same : ∀ j, j < v.size → j < o ∨ o + c ≤ j →
      (m'.drop (v.m_view + j * v.sz)).take v.sz = (m.drop (v.m_view + j * v.sz)).take v.sz := by
    intro j hj hd
    apply List.ext_getElem?
    intro q
    rw [List.getElem?_take, List.getElem?_take]
    split
    · rename_i hq
      rw [List.getElem?_drop, List.getElem?_drop]
      refine hk _ ?_
      rcases hd with hd | hd
      · left
        have := Nat.mul_le_mul_right v.sz (show j + 1 ≤ o from hd)
        rw [Nat.add_mul] at this
        omega
      · right
        have := Nat.mul_le_mul_right v.sz hd
        omega
    · rfl
  have hw := h.elems hoc m'
  refine ⟨?_, hl, fun k hk' => hk k ?_⟩
  · have e : v.elems m' = (v.elems m').take o ++ ((v.elems m').drop o).take c ++ (v.elems m').drop (o + c) := by
      rw [List.append_assoc, ← List.drop_drop, List.take_append_drop, List.take_append_drop]
    rw [e, ← hw]
    congr 1
    · congr 1
      apply List.ext_getElem
      · simp [elems_length]
      · intro i h1 h2
        simp only [List.getElem_take, View.elems, List.getElem_map, List.getElem_range]
        simp [elems_length] at h1
        exact same i (by omega) (by omega)
    · apply List.ext_getElem
      · simp [elems_length]
      · intro i h1 h2
        simp only [List.getElem_drop, View.elems, List.getElem_map, List.getElem_range]
        simp [elems_length] at h1
        exact same _ (by omega) (by omega)
  · have := Nat.mul_le_mul_right v.sz hoc
    omega

theorem swap_eq {v : View} {m : Mem} (hv : Valid v m.length) (i j : Nat) (hi : i < v.size) (hj : j < v.size) :
    ∃ m', swapAt v m i j = .ok m' ∧ Frame v m m' ∧
      v.elems m' = ((v.elems m).set i ((v.elems m)[j]'(by rwa [elems_length]))).set j ((v.elems m)[i]'(by rwa [elems_length])) := by
  obtain ⟨m1, h1, h2, h3⟩ := write_own hv i hi ((v.elems m)[j]'(by rwa [elems_length])) (elem_width hv (List.getElem_mem _))
  have hv1 : Valid v m1.length := by rw [h3.1]; exact hv
  obtain ⟨m2, g1, g2, g3⟩ := write_own hv1 j hj ((v.elems m)[i]'(by rwa [elems_length])) (elem_width hv (List.getElem_mem _))
  refine ⟨m2, ?_, h3.trans g3, by rw [g2, h2]⟩
  unfold swapAt
  rw [view_read hv i hi, view_read hv j hj]
  simp only [bind, Except.bind]
  rw [h1]; exact g1

/-! ### Bisection -/

/-- C170. Bisection by sub-views finds the first position whose element is not less than `x`, in as many rounds as the size has
binary digits; nothing outside is read and no assertion fails. -/
theorem bisect_result (checked : Bool) {m : Mem} {lt : List Byte → List Byte → Bool} (hw : Weak lt) (x : List Byte) (fuel : Nat)
    (v : View) (base : Nat) (hv : Valid v m.length) (hs : InOrder lt (v.elems m)) (hf : v.size < 2 ^ fuel) :
    ∃ k, k ≤ v.size ∧ bisect checked m lt x fuel v base = .ok (base + k) ∧
      (∀ y ∈ (v.elems m).take k, lt y x = true) ∧ ∀ y ∈ (v.elems m).drop k, lt y x = false := by
  induction fuel generalizing v base with
  | zero =>
    have h0 : v.size = 0 := by simpa using hf
    have he : v.elems m = [] := List.length_eq_zero_iff.1 ((elems_length v m).trans h0)
    exact ⟨0, Nat.zero_le _, rfl, by simp [he], by simp [he]⟩
  | succ fuel ih =>
    by_cases h0 : v.size = 0
    · have he : v.elems m = [] := List.length_eq_zero_iff.1 ((elems_length v m).trans h0)
      exact ⟨0, Nat.zero_le _, by simp [bisect, h0], by simp [he], by simp [he]⟩
    have hmid : v.size / 2 < v.size := by omega
    have hL := elems_length v m
    rw [Nat.pow_succ] at hf
    have hpw := List.pairwise_iff_getElem.1 hs
    unfold bisect
    rw [if_neg h0]
    simp only
    rw [view_read hv _ hmid]
    simp only [bind, Except.bind]
    by_cases hlt : lt ((v.elems m)[v.size / 2]'(by omega)) x = true
    · rw [if_pos hlt, last_eq checked hv (by omega)]
      simp only
      have hp := sub_part v (v.size - (v.size - v.size / 2 - 1)) (v.size - v.size / 2 - 1)
      have ho : v.size - (v.size - v.size / 2 - 1) = v.size / 2 + 1 := by omega
      have he := hp.elems (by omega) m
      rw [ho, List.take_of_length_le (by rw [List.length_drop, hL]; omega)] at he
      rw [ho] at hp ⊢
      obtain ⟨k, hk, h1, h2, h3⟩ := ih _ (base + v.size / 2 + 1) (hp.valid (by omega) hv)
        (by rw [he]; exact hs.sublist (List.drop_sublist _ _)) (by rw [hp.size]; omega)
      rw [hp.size] at hk
      rw [he] at h2 h3
      refine ⟨v.size / 2 + 1 + k, by omega, by rw [h1]; congr 1; omega, ?_, ?_⟩
      · intro y hy
        rw [List.take_add, List.mem_append] at hy
        rcases hy with hy | hy
        · obtain ⟨i, hi, rfl⟩ := List.mem_take_iff_getElem.1 hy
          rcases Nat.lt_or_ge i (v.size / 2) with hi' | hi'
          · by_contra hc
            have := hw.trans x ((v.elems m)[i]'(by omega)) ((v.elems m)[v.size / 2]'(by omega)) (by simpa using hc)
              (hpw i (v.size / 2) (by omega) (by omega) hi')
            rw [hlt] at this; cases this
          · have : i = v.size / 2 := by omega
            subst this; exact hlt
        · exact h2 y hy
      · intro y hy
        rw [← List.drop_drop] at hy
        exact h3 y hy
    · rw [if_neg hlt, first_eq checked hmid.le]
      simp only
      have hp := first_part v (v.size / 2)
      have he := hp.elems (by omega) m
      rw [List.drop_zero] at he
      obtain ⟨k, hk, h1, h2, h3⟩ := ih _ base (hp.valid (by omega) hv)
        (by rw [he]; exact hs.sublist (List.take_sublist _ _)) (by rw [hp.size]; omega)
      rw [hp.size] at hk
      rw [he] at h2 h3
      refine ⟨k, by omega, h1, ?_, ?_⟩
      · intro y hy
        rw [List.take_take, Nat.min_eq_left hk] at h2
        exact h2 y hy
      · intro y hy
        obtain ⟨i, hi, rfl⟩ := List.mem_drop_iff_getElem.1 hy
        rcases Nat.lt_or_ge (k + i) (v.size / 2) with hi' | hi'
        · refine h3 _ ?_
          rw [List.mem_drop_iff_getElem]
          exact ⟨i, by rw [List.length_take]; omega, by simp⟩
        · rcases Nat.eq_or_lt_of_le hi' with he' | he'
          · have hx : (v.elems m)[k + i] = (v.elems m)[v.size / 2]'(by omega) := by simp only [he']
            rw [hx]; simpa using hlt
          · exact hw.trans _ _ _ (by simpa using hlt) (hpw (v.size / 2) (k + i) _ _ he')

/-! ### Quicksort -/

/-- While the loop of the partition is at `i` and `j`. -/
structure Parted (lt : List Byte → List Byte → Bool) (p : List Byte) (n i j : Nat) (L : List (List Byte)) : Prop where
  len : L.length = n
  le : i ≤ j
  lt_n : j < n
  pivot : L[n - 1]'(by omega) = p
  low : ∀ k (h : k < L.length), k < i → lt L[k] p = true
  high : ∀ k (h : k < L.length), i ≤ k → k < j → lt L[k] p = false

theorem partition_result {v : View} {lt : List Byte → List Byte → Bool} {p : List Byte} (r i j : Nat) (m : Mem)
    (hv : Valid v m.length) (hj : j + r + 1 = v.size) (h : Parted lt p v.size i j (v.elems m)) :
    ∃ i' m', partitionLoop v lt p r i j m = .ok (i', m') ∧ Parted lt p v.size i' (v.size - 1) (v.elems m') ∧
      (v.elems m').Perm (v.elems m) ∧ Frame v m m' := by
  induction r generalizing i j m with
  | zero =>
    refine ⟨i, m, rfl, ?_, .refl _, Frame.refl v m⟩
    have : v.size - 1 = j := by omega
    rw [this]; exact h
  | succ r ih =>
    obtain ⟨h1, h2, h3, h4, h5, h6⟩ := h
    unfold partitionLoop
    rw [view_read hv j h3]
    simp only [bind, Except.bind]
    by_cases hlt : lt ((v.elems m)[j]'(by omega)) p = true
    · rw [if_pos hlt]
      obtain ⟨m1, e1, e2, e3⟩ := swap_eq hv i j (by omega) h3
      rw [e1]
      have hv1 : Valid v m1.length := by rw [e2.1]; exact hv
      have hperm : (v.elems m1).Perm (v.elems m) := by rw [e3]; exact List.set_set_perm _ _
      obtain ⟨i', m', g1, g2, g3, g4⟩ := ih (i + 1) (j + 1) m1 hv1 (by omega) (by
        refine ⟨elems_length v m1, by omega, by omega, ?_, ?_, ?_⟩
        · simp only [e3]
          rw [List.getElem_set_ne (by omega), List.getElem_set_ne (by omega)]; exact h4
        · intro k hk hki
          simp only [e3]
          rw [List.getElem_set, List.getElem_set]
          split
          · rename_i hjk
            by_cases hij : i = j
            · subst hij; exact hlt
            · omega
          · split
            · exact hlt
            · exact h5 k (by rw [h1]; rw [elems_length] at hk; exact hk) (by omega)
        · intro k hk hki hkj
          simp only [e3]
          rw [List.getElem_set, List.getElem_set]
          split
          · exact h6 i (by omega) le_rfl (by omega)
          · split
            · omega
            · exact h6 k (by rw [h1]; rw [elems_length] at hk; exact hk) (by omega) (by omega))
      exact ⟨i', m', g1, g2, g3.trans hperm, e2.trans g4⟩
    · rw [if_neg hlt]
      refine ih i (j + 1) m hv (by omega) ⟨h1, by omega, by omega, h4, h5, ?_⟩
      intro k hk hki hkj
      rcases Nat.eq_or_lt_of_le (Nat.le_of_lt_succ hkj) with he | he
      · subst he; simpa using hlt
      · exact h6 k hk hki he

/-- C170. Quicksort by sub-views: the elements of the view are sorted, they are the same elements, and no byte outside the view
changes; nothing outside is accessed and no assertion fails. -/
theorem quickSort_result (checked : Bool) {lt : List Byte → List Byte → Bool} (hw : Weak lt) (fuel : Nat) (v : View) (m : Mem)
    (hv : Valid v m.length) (hf : v.size ≤ fuel) :
    ∃ m', quickSort checked lt fuel v m = .ok m' ∧ InOrder lt (v.elems m') ∧ (v.elems m').Perm (v.elems m) ∧
      Frame v m m' := by
  have short : ∀ (v : View) (m : Mem), v.size ≤ 1 → InOrder lt (v.elems m) := by
    intro v m hs
    have hL := elems_length v m
    match he : v.elems m with
    | [] => exact List.Pairwise.nil
    | [x] => exact List.pairwise_singleton _ _
    | x :: y :: l => rw [he] at hL; simp at hL; omega
  induction fuel generalizing v m with
  | zero => exact ⟨m, rfl, short v m (by omega), .refl _, Frame.refl v m⟩
  | succ fuel ih =>
    unfold quickSort
    by_cases h1 : v.size ≤ 1
    · rw [if_pos h1]; exact ⟨m, rfl, short v m h1, .refl _, Frame.refl v m⟩
    rw [if_neg h1]
    simp only
    have hL := elems_length v m
    rw [view_read hv (v.size - 1) (by omega)]
    simp only [bind, Except.bind]
    obtain ⟨i, m1, e1, e2, e3, e4⟩ := partition_result (v := v) (lt := lt) (p := (v.elems m)[v.size - 1]'(by omega)) (v.size - 1) 0 0 m hv
      (by omega) ⟨hL, le_rfl, by omega, rfl, fun _ _ h => absurd h (by omega), fun _ _ _ h => absurd h (by omega)⟩
    rw [e1]
    simp only
    obtain ⟨p1, p2, p3, p4, p5, p6⟩ := e2
    have hv1 : Valid v m1.length := by rw [e4.1]; exact hv
    obtain ⟨m2, s1, s2, s3⟩ := swap_eq hv1 i (v.size - 1) (by omega) (by omega)
    have hv2 : Valid v m2.length := by rw [s2.1]; exact hv1
    have hperm2 : (v.elems m2).Perm (v.elems m1) := by rw [s3]; exact List.set_set_perm _ _
    have hL2 := elems_length v m2
    generalize hpiv : (v.elems m)[v.size - 1]'(by omega) = pivot at *
    -- the elements after the last exchange
    have q1 : (v.elems m2)[i]'(by omega) = pivot := by
      simp only [s3]
      rw [List.getElem_set, List.getElem_set_self]
      split
      · rename_i h; subst h; exact p4
      · exact p4
    have q2 : ∀ y ∈ (v.elems m2).take i, lt y pivot = true := by
      intro y hy
      obtain ⟨k, hk, rfl⟩ := List.mem_take_iff_getElem.1 hy
      simp only [s3]
      rw [List.getElem_set_ne (by omega), List.getElem_set_ne (by omega)]
      exact p5 k (by omega) (by omega)
    have q3 : ∀ y ∈ (v.elems m2).drop (i + 1), lt y pivot = false := by
      intro y hy
      obtain ⟨k, hk, rfl⟩ := List.mem_drop_iff_getElem.1 hy
      simp only [s3]
      rw [List.getElem_set]
      split
      · exact p6 i (by omega) le_rfl (by omega)
      · rw [List.getElem_set_ne (by omega)]
        exact p6 _ (by omega) (by omega) (by omega)
    rw [s1]
    simp only
    rw [first_eq checked (by omega)]
    simp only
    -- the left part
    have ha := first_part v i
    obtain ⟨m3, a1, a2, a3, a4⟩ := ih _ m2 (ha.valid (by omega) hv2) (by rw [ha.size]; omega)
    rw [a1]
    simp only
    obtain ⟨c1, c2⟩ := ha.changed (by omega) a4
    have hv3 : Valid v m3.length := by rw [c2.1]; exact hv2
    have hL3 := elems_length v m3
    rw [ha.elems (by omega) m2, List.drop_zero] at a3
    have hlen : (View.elems ⟨v.sz, none, v.m_view, i⟩ m3).length = i := elems_length _ _
    rw [List.take_zero, List.nil_append, Nat.zero_add, List.drop_eq_getElem_cons (by omega), q1] at c1
    generalize (View.elems ⟨v.sz, none, v.m_view, i⟩ m3) = A at *
    -- the right part
    rw [last_eq checked hv3 (by omega)]
    simp only
    have ho : v.size - (v.size - 1 - i) = i + 1 := by omega
    rw [ho]
    have hb := sub_part v (i + 1) (v.size - 1 - i)
    obtain ⟨m4, b1, b2, b3, b4⟩ := ih _ m3 (hb.valid (by omega) hv3) (by rw [hb.size]; omega)
    rw [b1]
    obtain ⟨d1, d2⟩ := hb.changed (by omega) b4
    rw [hb.elems (by omega) m3, List.take_of_length_le (by rw [List.length_drop]; omega)] at b3
    have t1 : (v.elems m3).take (i + 1) = A ++ [pivot] := by
      rw [c1, ← hlen]; simp [List.take_append]
    have t2 : (v.elems m3).drop (i + 1) = (v.elems m2).drop (i + 1) := by
      rw [c1, ← hlen]; simp [List.drop_append]
    rw [t1, List.drop_eq_nil_of_le (by omega), List.append_nil] at d1
    rw [t2] at b3
    generalize (View.elems ⟨v.sz, none, v.m_view + (i + 1) * v.sz, v.size - 1 - i⟩ m4) = B at *
    refine ⟨m4, rfl, ?_, ?_, ((e4.trans s2).trans c2).trans d2⟩
    · rw [d1]
      have hA : ∀ y ∈ A, lt y pivot = true := fun y hy => q2 y (a3.mem_iff.1 hy)
      have hB : ∀ y ∈ B, lt y pivot = false := fun y hy => q3 y (b3.mem_iff.1 hy)
      rw [List.append_assoc]
      refine List.pairwise_append.2 ⟨a2, List.pairwise_cons.2 ⟨hB, b2⟩, fun a ha b hb => ?_⟩
      have hpa := hw.asymm _ _ (hA a ha)
      rcases List.mem_cons.1 hb with rfl | hb
      · exact hpa
      · exact hw.trans _ _ _ hpa (hB b hb)
    · have e : v.elems m2 = (v.elems m2).take i ++ [pivot] ++ (v.elems m2).drop (i + 1) := by
        conv_lhs => rw [← List.take_append_drop i (v.elems m2), List.drop_eq_getElem_cons (by omega), q1]
        simp
      refine List.Perm.trans ?_ (hperm2.trans e3)
      rw [d1, e]
      exact ((a3.append_right _).append b3)

/-! ### Reversal -/

theorem flip_list {L L1 : List (List Byte)} {n : Nat} (hL : L.length = n) (h2 : 2 ≤ n)
    (h : L1 = (L.set 0 (L[n - 1]'(by omega))).set (n - 1) (L[0]'(by omega))) :
    L1.take 1 ++ ((L1.drop 1).take (n - 2)).reverse ++ L1.drop (n - 1) = L.reverse := by
  obtain ⟨x, T, rfl⟩ : ∃ x T, L = x :: T := by
    cases L with
    | nil => simp at hL; omega
    | cons x T => exact ⟨x, T, rfl⟩
  obtain ⟨M, y, rfl⟩ : ∃ M y, T = M ++ [y] := by
    rcases List.eq_nil_or_concat T with h | ⟨M, y, h⟩
    · subst h; simp at hL; omega
    · exact ⟨M, y, by rw [h, List.concat_eq_append]⟩
  have hM : n = M.length + 2 := by simp at hL; omega
  subst hM
  have hL1 : L1 = y :: M ++ [x] := by
    rw [h]; simp
  rw [hL1]
  simp

/-- C170. Exchanging the ends and going on with what is between them reverses the elements of the view and changes no other
byte. -/
theorem flip_result (checked : Bool) (fuel : Nat) (v : View) (m : Mem) (hv : Valid v m.length) (hf : v.size ≤ 2 * fuel + 1) :
    ∃ m', flip checked fuel v m = .ok m' ∧ v.elems m' = (v.elems m).reverse ∧ Frame v m m' := by
  have short : ∀ (v : View) (m : Mem), v.size < 2 → v.elems m = (v.elems m).reverse := by
    intro v m hs
    have hL := elems_length v m
    match he : v.elems m with
    | [] => rfl
    | [x] => rfl
    | x :: y :: l => rw [he] at hL; simp at hL; omega
  induction fuel generalizing v m with
  | zero => exact ⟨m, rfl, short v m (by omega), Frame.refl v m⟩
  | succ fuel ih =>
    unfold flip
    by_cases h2 : v.size < 2
    · rw [if_pos h2]; exact ⟨m, rfl, short v m h2, Frame.refl v m⟩
    rw [if_neg h2]
    have hL := elems_length v m
    obtain ⟨m1, s1, s2, s3⟩ := swap_eq hv 0 (v.size - 1) (by omega) (by omega)
    have hv1 : Valid v m1.length := by rw [s2.1]; exact hv
    have hL1 := elems_length v m1
    simp only [bind, Except.bind]
    rw [s1]
    simp only
    rw [subview_eq checked hv1 (by omega)]
    simp only
    have hp := sub_part v 1 (v.size - 2)
    obtain ⟨m2, a1, a2, a3⟩ := ih _ m1 (hp.valid (by omega) hv1) (by rw [hp.size]; omega)
    obtain ⟨c1, c2⟩ := hp.changed (by omega) a3
    refine ⟨m2, a1, ?_, s2.trans c2⟩
    rw [hp.elems (by omega) m1] at a2
    rw [c1, a2]
    have e : 1 + (v.size - 2) = v.size - 1 := by omega
    rw [e]
    exact flip_list hL (by omega) s3

/-! ### Blocks -/

/-- C170. Processing in blocks of `n`: the blocks, one after the other, are the elements of the view, each once; every block but the
last has `n` elements; they do not overlap, lie inside the view, and cutting them accesses nothing. -/
theorem blocks_result (checked : Bool) (len n : Nat) (hn : 0 < n) (fuel : Nat) (v : View) (hv : Valid v len) (hf : v.size ≤ fuel) :
    ∃ ws, blocks checked len n fuel v = .ok ws ∧ (∀ m : Mem, (ws.map fun w => w.elems m).flatten = v.elems m) ∧
      (∀ w ∈ ws, Valid w len ∧ 0 < w.size ∧ w.size ≤ n ∧ w.sz = v.sz ∧ v.m_view ≤ w.m_view ∧
        w.m_view + w.size * w.sz ≤ v.m_view + v.size * v.sz) ∧
      (∀ w ∈ ws.dropLast, w.size = n) ∧ ws.Pairwise (fun a b => a.m_view + a.size * a.sz ≤ b.m_view) := by
  have none : ∀ v : View, v.size = 0 → ∀ m : Mem, ([] : List (List Byte)) = v.elems m := fun v h m =>
    (List.length_eq_zero_iff.1 ((elems_length v m).trans h)).symm
  induction fuel generalizing v with
  | zero => exact ⟨[], rfl, none v (by omega), by simp, by simp, List.Pairwise.nil⟩
  | succ fuel ih =>
    unfold blocks
    by_cases h0 : v.size = 0
    · rw [if_pos h0]; exact ⟨[], rfl, none v h0, by simp, by simp, List.Pairwise.nil⟩
    rw [if_neg h0]
    simp only
    rw [first_eq checked (by omega), last_eq checked hv (by omega)]
    simp only [bind, Except.bind]
    have hk : min n v.size ≤ v.size := by omega
    have hk0 : 0 < min n v.size := by omega
    generalize hkk : min n v.size = k at *
    have ho : v.size - (v.size - k) = k := by omega
    rw [ho]
    have hp := first_part v k
    have hq := sub_part v k (v.size - k)
    obtain ⟨ws, b1, b2, b3, b4, b5⟩ := ih _ (hq.valid (by omega) hv) (by rw [hq.size]; omega)
    rw [b1]
    have hmul : v.size * v.sz = k * v.sz + (v.size - k) * v.sz := by rw [← Nat.add_mul]; congr 1; omega
    simp only [hq.size] at b3
    refine ⟨_, rfl, ?_, ?_, ?_, ?_⟩
    · intro m
      rw [List.map_cons, List.flatten_cons, b2 m, hp.elems (by omega), hq.elems (by omega), List.drop_zero,
        List.take_of_length_le (l := List.drop k _) (by rw [List.length_drop, elems_length]), List.take_append_drop]
    · intro w hw
      rcases List.mem_cons.1 hw with rfl | hw
      · refine ⟨hp.valid (by omega) hv, by rw [hp.size]; exact hk0, by rw [hp.size]; omega, rfl, le_rfl, ?_⟩
        rw [hp.size]; simp only; omega
      · obtain ⟨c1, c2, c3, c4, c5, c6⟩ := b3 w hw
        exact ⟨c1, c2, c3, c4, by omega, by omega⟩
    · intro w hw
      cases ws with
      | nil => simp at hw
      | cons u us =>
        rw [List.dropLast_cons_of_ne_nil (by simp)] at hw
        rcases List.mem_cons.1 hw with rfl | hw
        · rw [hp.size]
          have hu := b3 u List.mem_cons_self
          by_contra hc
          have hkv : v.size = k := by omega
          have hpos : 0 < u.size * u.sz := Nat.mul_pos hu.2.1 hu.1.size
          rw [hkv, Nat.sub_self, Nat.zero_mul] at hu
          omega
        · exact b4 w hw
    · exact List.pairwise_cons.2 ⟨fun b hb => by rw [hp.size]; exact (b3 b hb).2.2.2.2.1, b5⟩

/-! ### Cases -/

/-- Elements of two bytes by their first byte. -/
def byFirst (x y : List Byte) : Bool := decide (x.headD 0 < y.headD 0)

theorem byFirst_weak : Weak byFirst := by
  constructor
  · intro a b h; simp only [byFirst, decide_eq_true_eq, decide_eq_false_iff_not, not_lt] at *; exact h.le
  · intro a b c h1 h2; simp only [byFirst, decide_eq_false_iff_not, not_lt] at *; exact h1.trans h2

/-- Five elements of two bytes behind three bytes and before one. -/
def five : View := ⟨2, none, 3, 5⟩

example : Valid five 14 ∧ quickSort true byFirst 5 five [9, 9, 9, 4, 0, 2, 0, 5, 0, 2, 1, 1, 0, 9] =
    .ok [9, 9, 9, 1, 0, 2, 1, 2, 0, 4, 0, 5, 0, 9] := ⟨⟨by decide, by decide, by decide⟩, by decide +kernel⟩

example : flip true 2 five [9, 9, 9, 4, 0, 2, 0, 5, 0, 2, 1, 1, 0, 9] = .ok [9, 9, 9, 1, 0, 2, 1, 5, 0, 2, 0, 4, 0, 9] := by
  decide +kernel

example : InOrder byFirst (five.elems [9, 9, 9, 1, 0, 2, 0, 2, 1, 4, 0, 5, 0, 9]) ∧
    bisect true [9, 9, 9, 1, 0, 2, 0, 2, 1, 4, 0, 5, 0, 9] byFirst [2, 7] 3 five 0 = .ok 1 := by
  refine ⟨?_, by decide +kernel⟩
  unfold InOrder; decide

example : (blocks true 14 2 5 five).toOption.map (·.map View.size) = some [2, 2, 1] := by decide +kernel

end Verif.AV
