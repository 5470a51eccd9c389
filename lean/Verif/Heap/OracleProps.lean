import Verif.Heap.Oracle
import Verif.Heap.Props
import Mathlib.Data.Nat.Log

/-! # C105, C106: heaps with any comparator, and exceptions -/

set_option autoImplicit false

namespace Verif.HeapX

variable {α σ β : Type} {u : User α σ}

/-- The comparator or the swap throws, sometime. -/
def CanThrow (u : User α σ) : Prop :=
  (∃ e x y, (u.cmp e x y).1 = none) ∨ ∃ e x y, (u.swapThrows e x y).1 = true

/-- Nothing is lost, the counters grow by at most so much, and an exception is counted if and only if there was one. -/
def Fine (u : User α σ) (s : St α σ) (kc ks : Nat) : Res α σ β → Prop
  | .ok _ s' => s'.arr.toList.Perm s.arr.toList ∧ s'.cmps ≤ s.cmps + kc ∧ s'.swaps ≤ s.swaps + ks ∧ s'.thrown = s.thrown
  | .threw s' => s'.arr.toList.Perm s.arr.toList ∧ s'.cmps ≤ s.cmps + kc ∧ s'.swaps ≤ s.swaps + ks ∧ s'.thrown = s.thrown + 1 ∧ CanThrow u
  | .terminated s' => s'.thrown = s.thrown + 1 ∧ CanThrow u
  | .ub => False
  | .hang => False

theorem fine_noexcept {u : User α σ} {s : St α σ} {kc ks : Nat} {f : M α σ β} (h : Fine u s kc ks (f s)) :
    Fine u s kc ks (noexcept f s) ∧ ∀ s', noexcept f s ≠ .threw s' := by
  unfold noexcept
  cases e : f s with
  | ok b s' => rw [e] at h; exact ⟨h, by simp⟩
  | threw s' => rw [e] at h; exact ⟨h.2.2.2, by simp⟩
  | terminated s' => rw [e] at h; exact ⟨h, by simp⟩
  | ub => rw [e] at h; exact ⟨h, by simp⟩
  | hang => rw [e] at h; exact ⟨h, by simp⟩

theorem fine_bind {γ : Type} {s : St α σ} {k1 k2 l1 l2 : Nat} {f : M α σ β} {g : β → M α σ γ} (h : Fine u s k1 l1 (f s))
    (hg : ∀ b s', f s = .ok b s' → Fine u s' k2 l2 (g b s')) : Fine u s (k1 + k2) (l1 + l2) ((f >>= g) s) := by
  show Fine u s _ _ (M.bind f g s)
  unfold M.bind
  cases e : f s with
  | ok b s' =>
    rw [e] at h
    have h2 := hg b s' e
    obtain ⟨a1, a2, a3, a4⟩ := h
    show Fine u s _ _ (g b s')
    cases e2 : g b s' with
    | ok c s2 => rw [e2] at h2; exact ⟨h2.1.trans a1, by have := h2.2.1; omega, by have := h2.2.2.1; omega, by rw [h2.2.2.2, a4]⟩
    | threw s2 => rw [e2] at h2; exact ⟨h2.1.trans a1, by have := h2.2.1; omega, by have := h2.2.2.1; omega, by rw [h2.2.2.2.1, a4], h2.2.2.2.2⟩
    | terminated s2 => rw [e2] at h2; exact ⟨h2.1.trans (by rw [a4]), h2.2⟩
    | ub => rw [e2] at h2; exact h2
    | hang => rw [e2] at h2; exact h2
  | threw s' => rw [e] at h; exact ⟨h.1, by have := h.2.1; omega, by have := h.2.2.1; omega, h.2.2.2⟩
  | terminated s' => rw [e] at h; exact h
  | ub => rw [e] at h; exact h
  | hang => rw [e] at h; exact h

theorem fine_mono {s : St α σ} {kc ks kc' ks' : Nat} {r : Res α σ β} (h : Fine u s kc ks r) (h1 : kc ≤ kc') (h2 : ks ≤ ks') :
    Fine u s kc' ks' r := by
  cases r with
  | ok b s' => exact ⟨h.1, by have := h.2.1; omega, by have := h.2.2.1; omega, h.2.2.2⟩
  | threw s' => exact ⟨h.1, by have := h.2.1; omega, by have := h.2.2.1; omega, h.2.2.2⟩
  | terminated s' => exact h
  | ub => exact h
  | hang => exact h

theorem fine_pure (u : User α σ) (s : St α σ) (b : β) : Fine u s 0 0 ((pure b : M α σ β) s) := ⟨List.Perm.refl _, by simp, by simp, rfl⟩

theorem Fine.size {s s' : St α σ} {b : β} {kc ks : Nat} (h : Fine u s kc ks (.ok b s')) : s'.arr.size = s.arr.size := by
  have := h.1.length_eq; simpa using this

theorem fine_compareAt (u : User α σ) {s : St α σ} {i j : Nat} (hi : i < s.arr.size) (hj : j < s.arr.size) :
    Fine u s 1 0 (compareAt u i j s) := by
  show Fine u s 1 0 (M.bind (get i) (fun x => M.bind (get j) (fun y => compare u x y)) s)
  have e1 : get (i : Int) s = .ok s.arr[i] s := dif_pos ⟨by omega, by simpa using hi⟩
  have e2 : get (j : Int) s = .ok s.arr[j] s := dif_pos ⟨by omega, by simpa using hj⟩
  simp only [M.bind, e1, e2, compare]
  rcases h : u.cmp s.ext s.arr[i] s.arr[j] with ⟨_ | b, e⟩
  · exact ⟨List.Perm.refl _, by simp, by simp, rfl, .inl ⟨_, _, _, by rw [h]⟩⟩
  · exact ⟨List.Perm.refl _, by simp, by simp, rfl⟩

theorem fine_swapAt (u : User α σ) {s : St α σ} {i j : Nat} (hi : i < s.arr.size) (hj : j < s.arr.size) :
    Fine u s 0 1 (swapAt u i j s) := by
  have h : (0 ≤ (i : Int) ∧ (i : Int).toNat < s.arr.size) ∧ (0 ≤ (j : Int) ∧ (j : Int).toNat < s.arr.size) :=
    ⟨⟨by omega, by simpa using hi⟩, ⟨by omega, by simpa using hj⟩⟩
  have e : swapAt u i j s = (match u.swapThrows s.ext (s.arr[(i : Int).toNat]'h.1.2) (s.arr[(j : Int).toNat]'h.2.2) with
    | (true, e) => .threw { s with ext := e, thrown := s.thrown + 1 }
    | (false, e) => .ok () { s with arr := s.arr.swap (i : Int).toNat (j : Int).toNat h.1.2 h.2.2, ext := e, swaps := s.swaps + 1 }) :=
    dif_pos h
  rw [e]
  rcases hw : u.swapThrows s.ext (s.arr[(i : Int).toNat]'h.1.2) (s.arr[(j : Int).toNat]'h.2.2) with ⟨_ | _, e⟩
  · exact ⟨(Array.perm_iff_toList_perm.mp (Array.swap_perm h.1.2 h.2.2)), by simp, by simp, rfl⟩
  · exact ⟨List.Perm.refl _, by simp, by simp, rfl, .inr ⟨_, _, _, by rw [hw]⟩⟩

theorem log_half {n : Nat} (h : 2 ≤ n) : Nat.log 2 (n / 2) + 1 = Nat.log 2 n := by
  have := Nat.log_div_base 2 n
  have h2 : 1 ≤ Nat.log 2 n := Nat.log_pos (by omega) h
  omega

theorem fine_upLoop (u : User α σ) (fuel : Nat) : ∀ (index : Nat) (s : St α σ), index < s.arr.size → index < fuel →
    Fine u s (Nat.log 2 (index + 1)) (Nat.log 2 (index + 1)) (upLoop u fuel index (Heap.parent index) s) := by
  induction fuel with
  | zero => intro index s _ h; omega
  | succ fuel ih =>
    intro index s hi hf
    unfold upLoop
    by_cases h0 : index = 0
    · subst h0; simpa using fine_pure u s ()
    · have hp : Heap.parent (index : Int) = (((index - 1) / 2 : Nat) : Int) := by
        unfold Heap.parent
        rw [Int.tdiv_eq_ediv_of_nonneg (by omega)]
        omega
      have hlog := log_half (n := index + 1) (by omega)
      have hpl : (index - 1) / 2 + 1 = (index + 1) / 2 := by omega
      have hne : (index : Int) ≠ 0 := by omega
      rw [if_pos hne, hp]
      have hf1 := fine_compareAt u (s := s) (i := (index - 1) / 2) (j := index) (by omega) hi
      have key := fine_bind (k2 := Nat.log 2 ((index - 1) / 2 + 1)) (l2 := 1 + Nat.log 2 ((index - 1) / 2 + 1)) hf1
        (g := fun b => if !b then pure () else do
          swapAt u (((index - 1) / 2 : Nat) : Int) index
          upLoop u fuel (((index - 1) / 2 : Nat) : Int) (Heap.parent (((index - 1) / 2 : Nat) : Int))) ?_
      · exact fine_mono key (by rw [hpl]; omega) (by rw [hpl]; omega)
      · intro b s' e
        rw [e] at hf1
        have hsz := hf1.size
        cases b with
        | false => exact fine_mono (fine_pure u s' ()) (by omega) (by omega)
        | true =>
          have hf2 := fine_swapAt u (s := s') (i := (index - 1) / 2) (j := index) (by omega) (by omega)
          have := fine_bind (k2 := Nat.log 2 ((index - 1) / 2 + 1)) (l2 := Nat.log 2 ((index - 1) / 2 + 1)) hf2
            (g := fun _ => upLoop u fuel (((index - 1) / 2 : Nat) : Int) (Heap.parent (((index - 1) / 2 : Nat) : Int))) ?_
          · exact fine_mono this (by omega) (by omega)
          · intro _ s2 e2
            rw [e2] at hf2
            exact ih _ s2 (by have := hf2.size; omega) (by omega)

theorem fine_pick (u : User α σ) {s : St α σ} {i c : Nat} (hi : i < s.arr.size) :
    Fine u s (if c < s.arr.size then 1 else 0) 0 (pick u i c s) ∧ ∀ k s', pick u i c s = .ok k s' → k = i ∨ k = c ∧ c < s.arr.size := by
  have e : pick u i c s = (if c < s.arr.size then M.bind (compareAt u i c) (fun b => if b then pure c else pure i) else pure i) s := rfl
  rw [e]
  by_cases hc : c < s.arr.size
  · rw [if_pos hc, if_pos hc]
    have h1 := fine_compareAt u hi hc
    refine ⟨fine_bind (k2 := 0) (l2 := 0) h1 ?_, ?_⟩
    · intro b s' _
      cases b <;> exact fine_pure u s' _
    · intro k s' h
      unfold M.bind at h
      cases e2 : compareAt u (i : Int) (c : Int) s with
      | ok b s2 =>
        rw [e2] at h
        cases b with
        | true => cases h; exact .inr ⟨rfl, hc⟩
        | false => cases h; exact .inl rfl
      | threw _ => rw [e2] at h; cases h
      | terminated _ => rw [e2] at h; cases h
      | ub => rw [e2] at h; cases h
      | hang => rw [e2] at h; cases h
  · rw [if_neg hc, if_neg hc]
    refine ⟨fine_pure u s i, ?_⟩
    intro k s' h; cases h; exact .inl rfl

theorem fine_heapfyDown (u : User α σ) (fuel : Nat) : ∀ (index : Nat) (s : St α σ), index < s.arr.size →
    s.arr.size ≤ index + fuel →
    Fine u s (2 * Nat.log 2 (s.arr.size / (index + 1))) (Nat.log 2 (s.arr.size / (index + 1))) (heapfyDown u fuel index s) := by
  induction fuel with
  | zero => intro index s _ h; omega
  | succ fuel ih =>
    intro index s hi hf
    unfold heapfyDown
    refine (fine_noexcept ?_).1
    obtain ⟨p1, q1⟩ := fine_pick u (c := Heap.leftChild index) hi
    by_cases hl : Heap.leftChild index < s.arr.size
    · have hlog : 1 ≤ Nat.log 2 (s.arr.size / (index + 1)) := by
        refine Nat.log_pos (by omega) ?_
        rw [Nat.le_div_iff_mul_le (by omega)]; unfold Heap.leftChild at hl; omega
      have hchild : ∀ c, (c = Heap.leftChild index ∨ c = Heap.rightChild index) →
          Nat.log 2 (s.arr.size / (c + 1)) + 1 ≤ Nat.log 2 (s.arr.size / (index + 1)) := by
        intro c hc
        have h2 : 2 ≤ s.arr.size / (index + 1) := by
          rw [Nat.le_div_iff_mul_le (by omega)]; unfold Heap.leftChild at hl; omega
        rw [← log_half h2, Nat.div_div_eq_div_mul]
        have : s.arr.size / (c + 1) ≤ s.arr.size / ((index + 1) * 2) :=
          Nat.div_le_div_left (by unfold Heap.leftChild Heap.rightChild at hc; omega) (by omega)
        have := Nat.log_mono_right (b := 2) this
        omega
      rw [if_pos hl] at p1
      refine fine_mono (fine_bind (k2 := 1 + 2 * (Nat.log 2 (s.arr.size / (index + 1)) - 1))
        (l2 := Nat.log 2 (s.arr.size / (index + 1))) p1 ?_) (by omega) (by omega)
      intro i1 s1 e1
      rw [e1] at p1
      have hs1 := p1.size
      have hi1 := q1 i1 s1 e1
      have hi1' : i1 < s1.arr.size := by rcases hi1 with rfl | ⟨rfl, _⟩ <;> omega
      obtain ⟨p2, q2⟩ := fine_pick u (c := Heap.rightChild index) hi1'
      refine fine_mono (fine_bind (k2 := 2 * (Nat.log 2 (s.arr.size / (index + 1)) - 1))
        (l2 := Nat.log 2 (s.arr.size / (index + 1))) (fine_mono p2 (kc' := 1) (ks' := 0) (by split <;> omega) (by omega)) ?_) (by omega) (by omega)
      intro i2 s2 e2
      rw [e2] at p2
      have hs2 := p2.size
      have hi2 := q2 i2 s2 e2
      by_cases hne : i2 ≠ index
      · rw [if_pos hne]
        have hc : (i2 = Heap.leftChild index ∨ i2 = Heap.rightChild index) ∧ i2 < s.arr.size := by
          rcases hi2 with rfl | ⟨rfl, h⟩
          · rcases hi1 with h | ⟨rfl, h⟩
            · exact absurd h hne
            · exact ⟨.inl rfl, h⟩
          · exact ⟨.inr rfl, by omega⟩
        have hf3 := fine_swapAt u (s := s2) (i := index) (j := i2) (by omega) (by omega)
        have hch := hchild i2 hc.1
        refine fine_mono (fine_bind (k2 := 2 * Nat.log 2 (s.arr.size / (i2 + 1)))
          (l2 := Nat.log 2 (s.arr.size / (i2 + 1))) hf3 ?_) (by omega) (by omega)
        intro _ s3 e3
        rw [e3] at hf3
        have hs3 := hf3.size
        have := ih i2 s3 (by omega) (by
          have : index < i2 := by rcases hc.1 with h | h <;> rw [h] <;> simp only [Heap.leftChild, Heap.rightChild] <;> omega
          omega)
        rwa [show s3.arr.size = s.arr.size by omega] at this
      · rw [if_neg hne]
        exact fine_mono (fine_pure u s2 ()) (by omega) (by omega)
    · have hr : ¬ Heap.rightChild index < s.arr.size := by unfold Heap.leftChild at hl; unfold Heap.rightChild; omega
      rw [if_neg hl] at p1
      have e1 : pick u index (Heap.leftChild index) s = .ok index s := by
        show (if Heap.leftChild index < s.arr.size then _ else pure index : M α σ Nat) s = _
        rw [if_neg hl]; rfl
      have e2 : pick u index (Heap.rightChild index) s = .ok index s := by
        show (if Heap.rightChild index < s.arr.size then _ else pure index : M α σ Nat) s = _
        rw [if_neg hr]; rfl
      show Fine u s _ _ (M.bind (pick u index (Heap.leftChild index)) _ s)
      simp only [M.bind, e1]
      show Fine u s _ _ (M.bind (pick u index (Heap.rightChild index)) _ s)
      simp only [M.bind, e2]
      rw [if_neg (by simp)]
      exact fine_mono (fine_pure u s ()) (by omega) (by omega)

theorem runs_of_fine {F : Nat → M α σ β} {s : St α σ} {n : Nat} (hm : ∀ fuel, n ≤ fuel → F fuel s = F n s) :
    Runs F s (F n s) := ⟨n, hm⟩

/-- More fuel does not change a result. -/
def Mono (F : Nat → M α σ β) : Prop := ∀ n m s, n ≤ m → F n s ≠ .hang → F m s = F n s

theorem mono_upLoop (u : User α σ) : ∀ (n m : Nat) (i p : Int) (s : St α σ), n ≤ m → upLoop u n i p s ≠ .hang →
    upLoop u m i p s = upLoop u n i p s := by
  intro n
  induction n with
  | zero => intro m i p s _ h; exact absurd rfl h
  | succ n ih =>
    intro m i p s hm h
    obtain ⟨m, rfl⟩ : ∃ k, m = k + 1 := ⟨m - 1, by omega⟩
    unfold upLoop at h ⊢
    by_cases h0 : i ≠ 0
    · rw [if_pos h0] at h ⊢
      rw [if_pos h0]
      show M.bind _ _ s = M.bind _ _ s
      change M.bind _ _ s ≠ _ at h
      unfold M.bind at h ⊢
      cases e : compareAt u p i s with
      | ok b s1 =>
        rw [e] at h
        cases b with
        | false => rfl
        | true =>
          show M.bind _ _ s1 = M.bind _ _ s1
          change M.bind _ _ s1 ≠ _ at h
          unfold M.bind at h ⊢
          cases e2 : swapAt u p i s1 with
          | ok b s2 => rw [e2] at h; exact ih m _ _ s2 (by omega) h
          | threw _ => rfl
          | terminated _ => rfl
          | ub => rfl
          | hang => rfl
      | threw _ => rfl
      | terminated _ => rfl
      | ub => rfl
      | hang => rfl
    · rw [if_neg h0, if_neg h0]

theorem noexcept_hang {f : M α σ β} {s : St α σ} (h : noexcept f s ≠ .hang) : f s ≠ .hang := by
  intro e; apply h; unfold noexcept; rw [e]

theorem noexcept_congr {f g : M α σ β} {s : St α σ} (h : f s = g s) : noexcept f s = noexcept g s := by
  unfold noexcept; rw [h]

theorem noexcept_threw {f : M α σ β} {s s' : St α σ} (h : f s = .threw s') : noexcept f s = .terminated s' := by
  unfold noexcept; rw [h]

theorem noexcept_congr2 {f g : M α σ β} {s s' : St α σ} (h : f s = g s') : noexcept f s = noexcept g s' := by
  unfold noexcept; rw [h]

theorem mono_heapfyDown (u : User α σ) : ∀ (n m : Nat) (i : Nat) (s : St α σ), n ≤ m → heapfyDown u n i s ≠ .hang →
    heapfyDown u m i s = heapfyDown u n i s := by
  intro n
  induction n with
  | zero => intro m i s _ h; exact absurd rfl h
  | succ n ih =>
    intro m i s hm h
    obtain ⟨m, rfl⟩ : ∃ k, m = k + 1 := ⟨m - 1, by omega⟩
    unfold heapfyDown at h ⊢
    apply noexcept_congr
    have h := noexcept_hang h
    show M.bind _ _ s = M.bind _ _ s
    change M.bind _ _ s ≠ _ at h
    unfold M.bind at h ⊢
    cases e : pick u i (Heap.leftChild i) s with
    | ok i1 s1 =>
      rw [e] at h
      show M.bind _ _ s1 = M.bind _ _ s1
      change M.bind _ _ s1 ≠ _ at h
      unfold M.bind at h ⊢
      cases e1 : pick u i1 (Heap.rightChild i) s1 with
      | ok i2 s2 =>
        rw [e1] at h
        dsimp only at h ⊢
        by_cases h0 : i2 ≠ i
        · rw [if_pos h0] at h
          rw [if_pos h0, if_pos h0]
          show M.bind _ _ s2 = M.bind _ _ s2
          change M.bind _ _ s2 ≠ _ at h
          unfold M.bind at h ⊢
          cases e2 : swapAt u (i : Int) (i2 : Int) s2 with
          | ok b s3 => rw [e2] at h; exact ih m _ s3 (by omega) h
          | threw _ => rfl
          | terminated _ => rfl
          | ub => rfl
          | hang => rfl
        · rw [if_neg h0, if_neg h0]
      | threw _ => rfl
      | terminated _ => rfl
      | ub => rfl
      | hang => rfl
    | threw _ => rfl
    | terminated _ => rfl
    | ub => rfl
    | hang => rfl

theorem Fine.notHang {s : St α σ} {kc ks : Nat} {r : Res α σ β} (h : Fine u s kc ks r) : r ≠ .hang := by
  rintro rfl; exact h

theorem fine_heapfyUp (u : User α σ) {s : St α σ} {index : Nat} (hi : index < s.arr.size) :
    ∃ r, Runs (fun f => heapfyUp u f index) s r ∧ Fine u s (Nat.log 2 (index + 1)) (Nat.log 2 (index + 1)) r ∧ ∀ s', r ≠ .threw s' := by
  have h := fine_upLoop u (index + 1) index s hi (by omega)
  obtain ⟨h1, h2⟩ := fine_noexcept h
  refine ⟨_, ⟨index + 1, fun fuel hf => ?_⟩, h1, h2⟩
  exact noexcept_congr (mono_upLoop u _ _ _ _ s hf h.notHang)

/-- The meaning of `push`: what can happen. -/
theorem push_fine (u : User α σ) (s : St α σ) (v : α) : ∃ r, Runs (fun f => push u f v) s r ∧
    ((∃ s', r = .ok () s' ∧ s'.arr.toList.Perm (v :: s.arr.toList) ∧ s'.thrown = s.thrown ∧
        s'.cmps ≤ s.cmps + Nat.log 2 (s.arr.size + 1) ∧ s'.swaps ≤ s.swaps + Nat.log 2 (s.arr.size + 1)) ∨
     (∃ s', r = .threw s' ∧ s'.arr = s.arr ∧ s'.thrown = s.thrown + 1 ∧ (u.pushThrows s.ext v).1 = true) ∨
     (∃ s', r = .terminated s' ∧ s'.thrown = s.thrown + 1 ∧ CanThrow u ∧ (u.pushThrows s.ext v).1 = false)) := by
  rcases e : u.pushThrows s.ext v with ⟨_ | _, e'⟩
  · let s1 : St α σ := { s with arr := s.arr.push v, ext := e' }
    have e1 : pushBack u v s = .ok () s1 := by unfold pushBack; rw [e]
    obtain ⟨r, ⟨n, h1⟩, h2, h3⟩ := fine_heapfyUp u (s := s1) (index := s1.arr.size - 1) (by simp [s1])
    refine ⟨r, ⟨n, fun fuel hf => ?_⟩, ?_⟩
    · rw [← h1 fuel hf]
      show M.bind _ _ s = _
      unfold M.bind; rw [e1]; rfl
    · have hsz : s1.arr.size - 1 + 1 = s.arr.size + 1 := by simp [s1]
      rw [hsz] at h2
      cases r with
      | ok _ s' =>
        refine .inl ⟨s', rfl, h2.1.trans ?_, h2.2.2.2, h2.2.1, h2.2.2.1⟩
        simp only [s1, Array.toList_push]
        exact List.perm_append_singleton v s.arr.toList
      | threw s' => exact absurd rfl (h3 s')
      | terminated s' => exact .inr (.inr ⟨s', rfl, h2.1, h2.2, rfl⟩)
      | ub => exact h2.elim
      | hang => exact h2.elim
  · refine ⟨.threw { s with ext := e', thrown := s.thrown + 1 }, ⟨0, fun fuel _ => ?_⟩, .inr (.inl ⟨_, rfl, rfl, rfl, rfl⟩)⟩
    show M.bind _ _ s = _
    unfold M.bind pushBack; rw [e]

theorem pop_fine (u : User α σ) (s : St α σ) (hn : 0 < s.arr.size) : ∃ r, Runs (pop u) s r ∧
    ((∃ s', r = .ok () s' ∧ s.arr.toList.Perm (s.arr[0] :: s'.arr.toList) ∧ s'.thrown = s.thrown ∧
        s'.cmps ≤ s.cmps + 2 * Nat.log 2 (s.arr.size - 1) ∧ s'.swaps ≤ s.swaps + 1 + Nat.log 2 (s.arr.size - 1)) ∨
     (∃ s', r = .terminated s' ∧ s'.thrown = s.thrown + 1 ∧ CanThrow u)) := by
  have hcast : ((s.arr.size : Int) - 1) = ((s.arr.size - 1 : Nat) : Int) := by omega
  have h : (0 ≤ (0 : Int) ∧ (0 : Int).toNat < s.arr.size) ∧
      (0 ≤ ((s.arr.size : Int) - 1) ∧ ((s.arr.size : Int) - 1).toNat < s.arr.size) :=
    ⟨⟨by omega, by simpa using hn⟩, ⟨by omega, by omega⟩⟩
  have e : swapAt u 0 ((s.arr.size : Int) - 1) s = (match u.swapThrows s.ext (s.arr[(0 : Int).toNat]'h.1.2) (s.arr[((s.arr.size : Int) - 1).toNat]'h.2.2) with
    | (true, e) => .threw { s with ext := e, thrown := s.thrown + 1 }
    | (false, e) => .ok () { s with arr := s.arr.swap (0 : Int).toNat ((s.arr.size : Int) - 1).toNat h.1.2 h.2.2, ext := e, swaps := s.swaps + 1 }) :=
    dif_pos h
  rcases es : u.swapThrows s.ext (s.arr[(0 : Int).toNat]'h.1.2) (s.arr[((s.arr.size : Int) - 1).toNat]'h.2.2) with ⟨_ | _, e'⟩
  · rw [es] at e
    dsimp only at e
    generalize hs1 : ({ s with arr := s.arr.swap (0 : Int).toNat ((s.arr.size : Int) - 1).toNat h.1.2 h.2.2, ext := e', swaps := s.swaps + 1 } : St α σ) = s1 at e
    have hsz1 : s1.arr.size = s.arr.size := by rw [← hs1]; simp
    have hback : s1.arr.back? = some s.arr[0] := by
      rw [← hs1]
      rw [Array.back?_eq_getElem?]
      rw [Array.size_swap]
      rw [Array.getElem?_eq_getElem (by simp; omega)]
      congr 1
      rw [Array.getElem_swap]
      by_cases h1 : s.arr.size - 1 = 0
      · simp [h1]
      · simp [h1]
    have hperm : s.arr.toList.Perm (s.arr[0] :: s1.arr.pop.toList) := by
      have h1 : s1.arr.toList.Perm s.arr.toList := by
        rw [← hs1]; exact Array.perm_iff_toList_perm.mp (Array.swap_perm h.1.2 h.2.2)
      refine h1.symm.trans ?_
      have h2 : s1.arr.toList = s1.arr.pop.toList ++ [s.arr[0]] := by
        rw [Array.toList_pop]
        have hne : s1.arr.toList ≠ [] := by intro hc; have := congrArg List.length hc; simp at this; rw [this] at hsz1; simp at hsz1; omega
        have := List.dropLast_concat_getLast hne
        rw [← this]
        have h3 : s1.arr.toList.getLast? = some s.arr[0] := by
          rw [Array.getLast?_toList]; exact hback
        rw [List.getLast?_eq_some_getLast hne] at h3
        rw [List.dropLast_concat, Option.some.inj h3]
      rw [h2]
      exact List.perm_append_singleton _ _
    let s2 : St α σ := { s1 with arr := s1.arr.pop }
    have hsz2 : s2.arr.size = s.arr.size - 1 := by simp [s2, hsz1]
    have e2 : popBack s1 = .ok () s2 := by unfold popBack; rw [if_neg (by omega)]
    have hrun : ∀ fuel, pop u fuel s = noexcept (heapfyDown u fuel 0) s2 := by
      intro fuel
      refine noexcept_congr2 ?_
      show (M.bind size fun n => M.bind (swapAt u 0 ((n : Int) - 1)) fun _ => M.bind popBack fun _ => heapfyDown u fuel 0) s = _
      simp only [M.bind, size, e, e2]
    have hc : s1.cmps = s.cmps ∧ s1.swaps = s.swaps + 1 ∧ s1.thrown = s.thrown := by rw [← hs1]; exact ⟨rfl, rfl, rfl⟩
    obtain ⟨N, hN, hfine⟩ : ∃ N, (∀ fuel, N ≤ fuel → heapfyDown u fuel 0 s2 = heapfyDown u N 0 s2) ∧
        Fine u s2 (2 * Nat.log 2 (s.arr.size - 1)) (Nat.log 2 (s.arr.size - 1)) (heapfyDown u N 0 s2) := by
      by_cases h0 : 0 < s2.arr.size
      · have := fine_heapfyDown u s2.arr.size 0 s2 h0 (by omega)
        refine ⟨s2.arr.size, fun fuel hf => mono_heapfyDown u _ _ _ _ hf this.notHang, ?_⟩
        rw [← hsz2]; simpa using this
      · have hz : s2.arr.size = 0 := by omega
        have hd : heapfyDown u 1 0 s2 = .ok () s2 := by
          unfold heapfyDown
          have p1 : pick u 0 (Heap.leftChild 0) s2 = .ok 0 s2 := by
            show (if Heap.leftChild 0 < s2.arr.size then _ else pure 0 : M α σ Nat) s2 = _
            rw [if_neg (by omega)]; rfl
          have p2 : pick u 0 (Heap.rightChild 0) s2 = .ok 0 s2 := by
            show (if Heap.rightChild 0 < s2.arr.size then _ else pure 0 : M α σ Nat) s2 = _
            rw [if_neg (by omega)]; rfl
          have : (M.bind (pick u 0 (Heap.leftChild 0)) fun i1 => M.bind (pick u i1 (Heap.rightChild 0)) fun i2 =>
              if i2 ≠ 0 then (do swapAt u ((0 : Nat) : Int) i2; heapfyDown u 0 i2) else pure ()) s2 = .ok () s2 := by
            simp only [M.bind, p1, p2]; rfl
          exact noexcept_congr2 (s' := s2) (g := pure ()) this
        refine ⟨1, fun fuel hf => mono_heapfyDown u _ _ _ _ hf (by rw [hd]; simp), ?_⟩
        rw [hd]; exact ⟨List.Perm.refl _, by omega, by omega, rfl⟩
    obtain ⟨h1, h2⟩ := fine_noexcept (f := heapfyDown u N 0) hfine
    refine ⟨noexcept (heapfyDown u N 0) s2, ⟨N, fun fuel hf => ?_⟩, ?_⟩
    · rw [hrun]; exact noexcept_congr (hN fuel hf)
    · cases er : noexcept (heapfyDown u N 0) s2 with
      | ok b s' =>
        rw [er] at h1
        obtain ⟨a1, a2, a3, a4⟩ := h1
        refine .inl ⟨s', rfl, hperm.trans (List.Perm.cons _ a1.symm), a4.trans hc.2.2, ?_, ?_⟩
        · have : s2.cmps = s.cmps := hc.1
          omega
        · have : s2.swaps = s.swaps + 1 := hc.2.1
          omega
      | threw s' => exact absurd er (h2 s')
      | terminated s' => rw [er] at h1; exact .inr ⟨s', rfl, h1.1.trans (by show s1.thrown + 1 = _; rw [hc.2.2]), h1.2⟩
      | ub => rw [er] at h1; exact h1.elim
      | hang => rw [er] at h1; exact h1.elim
  · rw [es] at e
    dsimp only at e
    refine ⟨.terminated { s with ext := e', thrown := s.thrown + 1 }, ⟨0, fun fuel _ => ?_⟩, .inr ⟨_, rfl, rfl, .inr ⟨_, _, _, by rw [es]⟩⟩⟩
    show noexcept (M.bind size fun n => M.bind (swapAt u 0 ((n : Int) - 1)) fun _ => M.bind popBack fun _ => heapfyDown u fuel 0) s = _
    unfold noexcept
    simp only [M.bind, size, e]

theorem Runs.unique {F : Nat → M α σ β} {s : St α σ} {r r' : Res α σ β} (h1 : Runs F s r) (h2 : Runs F s r') : r = r' := by
  obtain ⟨n, h1⟩ := h1
  obtain ⟨m, h2⟩ := h2
  rw [← h1 (max n m) (by omega), h2 (max n m) (by omega)]

theorem pushAll_fine (u : User α σ) (xs : List α) : ∀ s : St α σ, ∃ r, Runs (fun f => pushAll u f xs) s r ∧
    ((∃ s', r = .ok () s' ∧ s'.arr.toList.Perm (xs ++ s.arr.toList) ∧ s'.thrown = s.thrown) ∨
     (∃ s', r = .threw s' ∧ s'.thrown = s.thrown + 1 ∧ ∃ e x, (u.pushThrows e x).1 = true) ∨
     (∃ s', r = .terminated s' ∧ s'.thrown = s.thrown + 1 ∧ CanThrow u)) := by
  induction xs with
  | nil => exact fun s => ⟨_, ⟨0, fun _ _ => rfl⟩, .inl ⟨s, rfl, List.Perm.refl _, rfl⟩⟩
  | cons x xs ih =>
    intro s
    obtain ⟨r, ⟨n, h1⟩, ⟨s', rfl, h2, h3, -, -⟩ | ⟨s', rfl, h2, h3, h4⟩ | ⟨s', rfl, h3, h4, -⟩⟩ := push_fine u s x
    · obtain ⟨r, ⟨m, g1⟩, g2⟩ := ih s'
      refine ⟨r, ⟨max n m, fun fuel hf => ?_⟩, ?_⟩
      · show M.bind (push u fuel x) _ s = _
        unfold M.bind
        rw [show push u fuel x s = _ from h1 fuel (by omega)]
        exact g1 fuel (by omega)
      · rw [h3] at g2
        rcases g2 with ⟨s2, e, p, q⟩ | h | h
        · refine .inl ⟨s2, e, p.trans ?_, q⟩
          exact (List.Perm.append_left xs h2).trans List.perm_middle
        · exact .inr (.inl h)
        · exact .inr (.inr h)
    · refine ⟨.threw s', ⟨n, fun fuel hf => ?_⟩, .inr (.inl ⟨s', rfl, h3, _, _, h4⟩)⟩
      show M.bind (push u fuel x) _ s = _
      unfold M.bind
      rw [show push u fuel x s = _ from h1 fuel (by omega)]
    · refine ⟨.terminated s', ⟨n, fun fuel hf => ?_⟩, .inr (.inr ⟨s', rfl, h3, h4⟩)⟩
      show M.bind (push u fuel x) _ s = _
      unfold M.bind
      rw [show push u fuel x s = _ from h1 fuel (by omega)]

/-! ### C105 -/

/-- The user's code throws nothing. -/
def Quiet (u : User α σ) : Prop :=
  (∀ e x y, (u.cmp e x y).1 ≠ none) ∧ (∀ e x y, (u.swapThrows e x y).1 = false) ∧ ∀ e x, (u.pushThrows e x).1 = false

/-- C105. Whatever the comparator answers, and however it changes its mind, as long as nothing throws: `push`, `pop`
and construction from a range end, access only elements that exist, lose and double no element, and `push` and `pop`
make at most logarithmically many comparisons and swaps. -/
theorem heap_any_comparator (hq : Quiet u) (s : St α σ) :
    (∀ v, ∃ s', Runs (fun f => push u f v) s (.ok () s') ∧ s'.arr.toList.Perm (v :: s.arr.toList) ∧
      s'.cmps ≤ s.cmps + Nat.log 2 (s.arr.size + 1) ∧ s'.swaps ≤ s.swaps + Nat.log 2 (s.arr.size + 1)) ∧
    (∀ h : 0 < s.arr.size, ∃ s', Runs (pop u) s (.ok () s') ∧ s.arr.toList.Perm (s.arr[0] :: s'.arr.toList) ∧
      s'.cmps ≤ s.cmps + 2 * Nat.log 2 (s.arr.size - 1) ∧ s'.swaps ≤ s.swaps + 1 + Nat.log 2 (s.arr.size - 1)) ∧
    (∀ xs, ∃ s', Runs (fun f => pushAll u f xs) s (.ok () s') ∧ s'.arr.toList.Perm (xs ++ s.arr.toList)) := by
  obtain ⟨q1, q2, q3⟩ := hq
  have hct : ¬ CanThrow u := by
    rintro (⟨e, x, y, h⟩ | ⟨e, x, y, h⟩)
    · exact q1 e x y h
    · rw [q2] at h; cases h
  refine ⟨fun v => ?_, fun hn => ?_, fun xs => ?_⟩
  · obtain ⟨r, h1, ⟨s', rfl, h2, h3, h4, h5⟩ | ⟨s', rfl, h2, h3, h4⟩ | ⟨s', rfl, h3, h4, -⟩⟩ := push_fine u s v
    · exact ⟨s', h1, h2, h4, h5⟩
    · rw [q3] at h4; cases h4
    · exact absurd h4 hct
  · obtain ⟨r, h1, ⟨s', rfl, h2, h3, h4, h5⟩ | ⟨s', rfl, h3, h4⟩⟩ := pop_fine u s hn
    · exact ⟨s', h1, h2, h4, h5⟩
    · exact absurd h4 hct
  · obtain ⟨r, h1, ⟨s', rfl, h2, h3⟩ | ⟨s', rfl, h2, e, x, h4⟩ | ⟨s', rfl, h3, h4⟩⟩ := pushAll_fine u xs s
    · exact ⟨s', h1, h2⟩
    · rw [q3] at h4; cases h4
    · exact absurd h4 hct

/-! ### C106 -/

theorem swapAt_eq (u : User α σ) {s : St α σ} {i j : Nat} (hi : i < s.arr.size) (hj : j < s.arr.size) {b : Bool} {e : σ}
    (h : u.swapThrows s.ext s.arr[i] s.arr[j] = (b, e)) :
    swapAt u i j s = if b then .threw { s with ext := e, thrown := s.thrown + 1 }
      else .ok () { s with arr := s.arr.swap i j hi hj, ext := e, swaps := s.swaps + 1 } := by
  have h' : (0 ≤ (i : Int) ∧ (i : Int).toNat < s.arr.size) ∧ (0 ≤ (j : Int) ∧ (j : Int).toNat < s.arr.size) :=
    ⟨⟨by omega, by simpa using hi⟩, ⟨by omega, by simpa using hj⟩⟩
  refine (dif_pos h').trans ?_
  simp only [Int.toNat_natCast]
  rw [h]
  cases b <;> rfl

theorem pop_swap_threw {s : St α σ} {fuel : Nat} (hn : 0 < s.arr.size) {e : σ}
    (h : u.swapThrows s.ext s.arr[0] (s.arr[s.arr.size - 1]'(by omega)) = (true, e)) :
    pop u fuel s = .terminated { s with ext := e, thrown := s.thrown + 1 } := by
  have h1 := swapAt_eq u (s := s) (i := 0) (j := s.arr.size - 1) hn (by omega) h
  rw [show (((s.arr.size - 1 : Nat)) : Int) = (s.arr.size : Int) - 1 by omega] at h1
  show noexcept (M.bind size fun n => M.bind (swapAt u 0 ((n : Int) - 1)) fun _ => M.bind popBack fun _ => heapfyDown u fuel 0) s = _
  unfold noexcept
  simp only [M.bind, size]
  rw [show swapAt u 0 ((s.arr.size : Int) - 1) s = _ from h1]
  rfl

theorem pop_cmp_threw {s : St α σ} {fuel : Nat} (hn : 2 < s.arr.size) {e e' : σ}
    (h : u.swapThrows s.ext s.arr[0] (s.arr[s.arr.size - 1]'(by omega)) = (false, e))
    (hc : u.cmp e (s.arr[s.arr.size - 1]'(by omega)) s.arr[1] = (none, e')) :
    ∃ s', pop u (fuel + 1) s = .terminated s' := by
  have h1 := swapAt_eq u (s := s) (i := 0) (j := s.arr.size - 1) (by omega) (by omega) h
  rw [show (((s.arr.size - 1 : Nat)) : Int) = (s.arr.size : Int) - 1 by omega] at h1
  let s1 : St α σ := { s with arr := s.arr.swap 0 (s.arr.size - 1) (by omega) (by omega), ext := e, swaps := s.swaps + 1 }
  let s2 : St α σ := { s1 with arr := s1.arr.pop }
  have hs1 : s1.arr.size = s.arr.size := by simp [s1]
  have e2 : popBack s1 = .ok () s2 := by unfold popBack; rw [if_neg (by omega)]
  have hsz : s2.arr.size = s.arr.size - 1 := by simp [s2, s1]
  have g0 : get ((0 : Nat) : Int) s2 = .ok (s.arr[s.arr.size - 1]'(by omega)) s2 := by
    refine (dif_pos ⟨by omega, by simp [hsz]; omega⟩).trans ?_
    simp [s2, s1]
  have g1 : get ((1 : Nat) : Int) s2 = .ok s.arr[1] s2 := by
    refine (dif_pos ⟨by omega, by simp [hsz]; omega⟩).trans ?_
    have : ¬ (1 = s.arr.size - 1) := by omega
    simp [s2, s1, this]
  have hcmp : compareAt u ((0 : Nat) : Int) ((Heap.leftChild 0 : Nat) : Int) s2 =
      .threw { s2 with ext := e', cmps := s2.cmps + 1, thrown := s2.thrown + 1 } := by
    show M.bind _ (fun x => M.bind (get ((1 : Nat) : Int)) (fun y => compare u x y)) _ = _
    simp only [M.bind, g0, g1, compare]
    rw [show u.cmp s2.ext _ _ = _ from hc]
  have hp : pick u 0 (Heap.leftChild 0) s2 = .threw { s2 with ext := e', cmps := s2.cmps + 1, thrown := s2.thrown + 1 } := by
    show (if Heap.leftChild 0 < s2.arr.size then M.bind (compareAt u ((0 : Nat) : Int) ((Heap.leftChild 0 : Nat) : Int))
      (fun b => if b then pure (Heap.leftChild 0) else pure 0) else pure 0 : M α σ Nat) s2 = _
    rw [if_pos (by unfold Heap.leftChild; omega)]
    unfold M.bind; rw [hcmp]
  have hd : heapfyDown u (fuel + 1) 0 s2 = .terminated { s2 with ext := e', cmps := s2.cmps + 1, thrown := s2.thrown + 1 } := by
    unfold heapfyDown
    refine noexcept_threw ?_
    show M.bind (pick u 0 (Heap.leftChild 0)) _ s2 = _
    unfold M.bind
    rw [hp]
  refine ⟨{ s2 with ext := e', cmps := s2.cmps + 1, thrown := s2.thrown + 1 }, ?_⟩
  show noexcept (M.bind size fun n => M.bind (swapAt u 0 ((n : Int) - 1)) fun _ => M.bind popBack fun _ => heapfyDown u (fuel + 1) 0) s = _
  unfold noexcept
  simp only [M.bind, size]
  rw [show swapAt u 0 ((s.arr.size : Int) - 1) s = .ok () s1 from h1]
  simp only [e2, hd]

/-- C106, what holds. The full claim is "an exception of the comparator, of the swap or of the insertion reaches the
caller, and the heap keeps its elements". It holds for exceptions of the insertion: `push` then throws and leaves the
heap as it was. Nothing else makes `push` throw, and `pop` never throws. -/
theorem heap_exceptions_partial (s : St α σ) :
    (∀ v, (u.pushThrows s.ext v).1 = true →
      ∃ s', Runs (fun f => push u f v) s (.threw s') ∧ s'.arr = s.arr ∧ s'.thrown = s.thrown + 1) ∧
    (∀ v s', Runs (fun f => push u f v) s (.threw s') → (u.pushThrows s.ext v).1 = true) ∧
    (∀ s', ¬ Runs (pop u) s (.threw s')) := by
  refine ⟨fun v h => ?_, fun v s' h => ?_, fun s' h => ?_⟩
  · obtain ⟨r, h1, ⟨s', rfl, h2, h3, h4, h5⟩ | ⟨s', rfl, h2, h3, h4⟩ | ⟨s', rfl, h3, h4, h5⟩⟩ := push_fine u s v
    · obtain ⟨n, h1⟩ := h1
      have := h1 n (Nat.le_refl _)
      rcases e : u.pushThrows s.ext v with ⟨_ | _, e'⟩
      · rw [e] at h; cases h
      · change M.bind (pushBack u v) _ s = _ at this
        unfold M.bind pushBack at this
        rw [e] at this; cases this
    · exact ⟨s', h1, h2, h3⟩
    · rw [h] at h5; cases h5
  · obtain ⟨r, h1, ⟨s2, rfl, h2, h3, h4, h5⟩ | ⟨s2, rfl, h2, h3, h4⟩ | ⟨s2, rfl, h3, h4, h5⟩⟩ := push_fine u s v
    · cases h1.unique h
    · exact h4
    · cases h1.unique h
  · obtain ⟨n, h⟩ := h
    have := h n (Nat.le_refl _)
    unfold pop noexcept at this
    split at this
    · cases this
    · rename_i hne
      exact hne _ this

/-- C106 is false for the comparator: if it throws in the first comparison that `push` makes, or the first that `pop`
makes, the program ends, in every state that is large enough for a comparison. The same goes for the swap of `pop`. -/
theorem heap_exceptions_wrong (s : St α σ) :
    (∀ v e, u.pushThrows s.ext v = (false, e) → (h : 0 < s.arr.size) →
      (u.cmp e (s.arr[(s.arr.size - 1) / 2]'(by omega)) v).1 = none →
      ∃ s', Runs (fun f => push u f v) s (.terminated s')) ∧
    (∀ (h : 0 < s.arr.size), (u.swapThrows s.ext s.arr[0] (s.arr[s.arr.size - 1]'(by omega))).1 = true →
      ∃ s', Runs (pop u) s (.terminated s')) ∧
    (∀ (h : 2 < s.arr.size) (e : σ), u.swapThrows s.ext s.arr[0] (s.arr[s.arr.size - 1]'(by omega)) = (false, e) →
      (u.cmp e (s.arr[s.arr.size - 1]'(by omega)) s.arr[1]).1 = none →
      ∃ s', Runs (pop u) s (.terminated s')) := by
  refine ⟨fun v e he hs hc => ?_, fun hs hsw => ?_, fun hs e hsw hc => ?_⟩
  · rcases hce : u.cmp e (s.arr[(s.arr.size - 1) / 2]'(by omega)) v with ⟨_ | _, e'⟩
    · refine ⟨{ s with arr := s.arr.push v, ext := e', cmps := s.cmps + 1, thrown := s.thrown + 1 }, 1, fun fuel hf => ?_⟩
      obtain ⟨fuel, rfl⟩ : ∃ k, fuel = k + 1 := ⟨fuel - 1, by omega⟩
      have e1 : pushBack u v s = .ok () { s with arr := s.arr.push v, ext := e } := by unfold pushBack; rw [he]
      change M.bind (pushBack u v) _ s = _
      unfold M.bind
      rw [e1]
      change noexcept (upLoop u (fuel + 1) (((s.arr.push v).size - 1 : Nat) : Int) (Heap.parent (((s.arr.push v).size - 1 : Nat) : Int)))
        { s with arr := s.arr.push v, ext := e } = _
      have hidx : (((s.arr.push v).size - 1 : Nat) : Int) = (s.arr.size : Int) := by simp
      have hp : Heap.parent (s.arr.size : Int) = (((s.arr.size - 1) / 2 : Nat) : Int) := by
        unfold Heap.parent
        rw [Int.tdiv_eq_ediv_of_nonneg (by omega)]
        omega
      rw [hidx, hp]
      have hcmp : compareAt u (((s.arr.size - 1) / 2 : Nat) : Int) (s.arr.size : Int) { s with arr := s.arr.push v, ext := e } =
          .threw { s with arr := s.arr.push v, ext := e', cmps := s.cmps + 1, thrown := s.thrown + 1 } := by
        have g1 : get (((s.arr.size - 1) / 2 : Nat) : Int) { s with arr := s.arr.push v, ext := e } =
            .ok (s.arr[(s.arr.size - 1) / 2]'(by omega)) { s with arr := s.arr.push v, ext := e } := by
          refine (dif_pos ⟨by omega, by simp; omega⟩).trans ?_
          simp only [Int.toNat_natCast]
          rw [Array.getElem_push_lt]
        have g2 : get (s.arr.size : Int) { s with arr := s.arr.push v, ext := e } =
            .ok v { s with arr := s.arr.push v, ext := e } := by
          refine (dif_pos ⟨by omega, by simp⟩).trans ?_
          simp only [Int.toNat_natCast]
          rw [Array.getElem_push_eq]
        show M.bind _ (fun x => M.bind _ (fun y => compare u x y)) _ = _
        simp only [M.bind, g1, g2, compare, hce]
      have hup : upLoop u (fuel + 1) (s.arr.size : Int) (((s.arr.size - 1) / 2 : Nat) : Int) { s with arr := s.arr.push v, ext := e } =
          .threw { s with arr := s.arr.push v, ext := e', cmps := s.cmps + 1, thrown := s.thrown + 1 } := by
        unfold upLoop
        rw [if_pos (by omega)]
        show M.bind _ _ _ = _
        unfold M.bind
        rw [hcmp]
      unfold noexcept
      rw [hup]
    · rw [hce] at hc; cases hc
  · obtain ⟨r, h1, ⟨s', rfl, h2, h3, h4, h5⟩ | ⟨s', rfl, h3, h4⟩⟩ := pop_fine u s hs
    · exfalso
      obtain ⟨n, h1⟩ := h1
      have := h1 n (Nat.le_refl _)
      rcases hse : u.swapThrows s.ext s.arr[0] (s.arr[s.arr.size - 1]'(by omega)) with ⟨_ | _, e⟩
      · rw [hse] at hsw; cases hsw
      · rw [pop_swap_threw hs hse] at this; cases this
    · exact ⟨s', h1⟩
  · obtain ⟨r, h1, ⟨s', rfl, h2, h3, h4, h5⟩ | ⟨s', rfl, h3, h4⟩⟩ := pop_fine u s (by omega)
    · exfalso
      obtain ⟨n, h1⟩ := h1
      have := h1 (n + 1) (by omega)
      rcases hce : u.cmp e (s.arr[s.arr.size - 1]'(by omega)) s.arr[1] with ⟨_ | _, e'⟩
      · obtain ⟨s2, h6⟩ := pop_cmp_threw (fuel := n) hs hsw hce
        rw [h6] at this; cases this
      · rw [hce] at hc; cases hc
    · exact ⟨s', h1⟩

/-! ### The two models agree -/

/-- A comparator that is a function, and nothing throws. -/
def pureUser (lt : α → α → Bool) : User α Unit :=
  ⟨fun _ x y => (some (lt x y), ()), fun _ _ _ => (false, ()), fun _ _ => (false, ())⟩

/-- A state of `Model.lean` as a state here. -/
def lift (s : Heap.St α) : St α Unit := ⟨s.arr, (), s.cmps, s.swaps, 0⟩

/-- A result of `Model.lean` as a result here. -/
def liftRes : Heap.Res (Heap.St α) β → Res α Unit β
  | .ok b s => .ok b (lift s)
  | .ub => .ub
  | .hang => .hang

theorem liftRes_noexcept {f : M α Unit β} {g : Heap.M α β} {s : Heap.St α} (h : f (lift s) = liftRes (g s)) :
    noexcept f (lift s) = liftRes (g s) := by
  unfold noexcept; rw [h]; cases g s <;> rfl

theorem liftRes_bind {γ : Type} {f : M α Unit β} {g : Heap.M α β} {f' : β → M α Unit γ} {g' : β → Heap.M α γ}
    {s : Heap.St α} (h : f (lift s) = liftRes (g s)) (h' : ∀ b s', f' b (lift s') = liftRes (g' b s')) :
    (f >>= f') (lift s) = liftRes ((g >>= g') s) := by
  show M.bind f f' (lift s) = liftRes (Heap.M.bind g g' s)
  unfold M.bind Heap.M.bind
  rw [h]
  cases g s with
  | ok b s' => exact h' b s'
  | ub => rfl
  | hang => rfl

theorem agree_get (i : Int) (s : Heap.St α) : get i (lift s) = liftRes (Heap.get i s) := by
  by_cases h : 0 ≤ i ∧ i.toNat < s.arr.size
  · have e1 : get i (lift s) = .ok (s.arr[i.toNat]'h.2) (lift s) := dif_pos h
    have e2 : Heap.get i s = .ok (s.arr[i.toNat]'h.2) s := dif_pos h
    rw [e1, e2]; rfl
  · have e1 : get i (lift s) = .ub := dif_neg h
    have e2 : Heap.get i s = .ub := dif_neg h
    rw [e1, e2]; rfl

variable (lt : α → α → Bool)

theorem agree_compareAt (i j : Int) (s : Heap.St α) : compareAt (pureUser lt) i j (lift s) = liftRes (Heap.compareAt lt i j s) :=
  liftRes_bind (agree_get i s) fun _ s' => liftRes_bind (agree_get j s') fun _ _ => rfl

theorem agree_swapAt (i j : Int) (s : Heap.St α) : swapAt (pureUser lt) i j (lift s) = liftRes (Heap.swapAt i j s) := by
  by_cases h : (0 ≤ i ∧ i.toNat < s.arr.size) ∧ (0 ≤ j ∧ j.toNat < s.arr.size)
  · have e1 : swapAt (pureUser lt) i j (lift s) =
        .ok () (lift { s with arr := s.arr.swap i.toNat j.toNat h.1.2 h.2.2, swaps := s.swaps + 1 }) := dif_pos h
    have e2 : Heap.swapAt i j s = .ok () { s with arr := s.arr.swap i.toNat j.toNat h.1.2 h.2.2, swaps := s.swaps + 1 } := dif_pos h
    rw [e1, e2]; rfl
  · have e1 : swapAt (pureUser lt) i j (lift s) = .ub := dif_neg h
    have e2 : Heap.swapAt i j s = .ub := dif_neg h
    rw [e1, e2]; rfl

theorem agree_upLoop (fuel : Nat) : ∀ (i p : Int) (s : Heap.St α),
    upLoop (pureUser lt) fuel i p (lift s) = liftRes (Heap.upLoop lt fuel i p s) := by
  induction fuel with
  | zero => intro i p s; rfl
  | succ fuel ih =>
    intro i p s
    unfold upLoop Heap.upLoop
    by_cases h0 : i ≠ 0
    · rw [if_pos h0, if_pos h0]
      refine liftRes_bind (agree_compareAt lt p i s) fun b s' => ?_
      cases b with
      | false => rfl
      | true => exact liftRes_bind (agree_swapAt lt p i s') fun _ s2 => ih _ _ s2
    · rw [if_neg h0, if_neg h0]; rfl

theorem agree_pick (i c : Nat) (s : Heap.St α) : pick (pureUser lt) i c (lift s) = liftRes (Heap.pick lt i c s) := by
  refine liftRes_bind (f := size) (g := Heap.M.size) rfl fun n s' => ?_
  by_cases h : c < n
  · rw [if_pos h, if_pos h]
    refine liftRes_bind (agree_compareAt lt i c s') fun b s2 => ?_
    cases b <;> rfl
  · rw [if_neg h, if_neg h]; rfl

theorem agree_heapfyDown (fuel : Nat) : ∀ (i : Nat) (s : Heap.St α),
    heapfyDown (pureUser lt) fuel i (lift s) = liftRes (Heap.heapfyDown lt fuel i s) := by
  induction fuel with
  | zero => intro i s; rfl
  | succ fuel ih =>
    intro i s
    unfold heapfyDown Heap.heapfyDown
    refine liftRes_noexcept ?_
    refine liftRes_bind (agree_pick lt _ _ s) fun i1 s1 => liftRes_bind (agree_pick lt _ _ s1) fun i2 s2 => ?_
    by_cases h : i2 ≠ i
    · rw [if_pos h, if_pos h]
      exact liftRes_bind (agree_swapAt lt _ _ s2) fun _ s3 => ih _ s3
    · rw [if_neg h, if_neg h]; rfl

/-- With a comparator that is a function and user code that does not throw, this model and the one of C32-C36 are the
same, step for step. -/
theorem heap_models_agree (fuel : Nat) (s : Heap.St α) :
    (∀ v, push (pureUser lt) fuel v (lift s) = liftRes (Heap.push lt fuel v s)) ∧
    pop (pureUser lt) fuel (lift s) = liftRes (Heap.pop lt fuel s) := by
  refine ⟨fun v => ?_, ?_⟩
  · refine liftRes_bind (f := pushBack (pureUser lt) v) (g := Heap.pushBack v) rfl fun _ s1 => ?_
    refine liftRes_bind (f := size) (g := Heap.M.size) rfl fun n s2 => ?_
    exact liftRes_noexcept (agree_upLoop lt fuel _ _ s2)
  · refine liftRes_noexcept ?_
    refine liftRes_bind (f := size) (g := Heap.M.size) rfl fun n s2 => ?_
    refine liftRes_bind (agree_swapAt lt _ _ s2) fun _ s3 => ?_
    refine liftRes_bind (f := popBack) (g := Heap.popBack) ?_ fun _ s4 => agree_heapfyDown lt fuel 0 s4
    by_cases h : s3.arr.size = 0
    · have e1 : popBack (lift s3) = .ub := if_pos h
      have e2 : Heap.popBack s3 = .ub := if_pos h
      rw [e1, e2]; rfl
    · have e1 : popBack (lift s3) = .ok () (lift { s3 with arr := s3.arr.pop }) := if_neg h
      have e2 : Heap.popBack s3 = .ok () { s3 with arr := s3.arr.pop } := if_neg h
      rw [e1, e2]; rfl

/-! ### The hypotheses can be met -/

/-- A comparator that answers `true` every second time, whatever it is asked. -/
def alternating : User Nat Bool := ⟨fun e _ _ => (some e, !e), fun e _ _ => (false, e), fun e _ => (false, e)⟩

example : Quiet alternating := ⟨by simp [alternating], fun _ _ _ => rfl, fun _ _ => rfl⟩

/-- A comparator that throws when it is given a zero on the right. -/
def throwing : User Nat Unit := ⟨fun _ x y => (if y = 0 then none else some (x < y), ()), fun _ _ _ => (false, ()), fun _ _ => (false, ())⟩

def arrOf {β σ : Type} (r : Res Nat σ β) : Option (List Nat) :=
  match r with
  | .ok _ s => some s.arr.toList
  | _ => none

def ended {β σ : Type} (r : Res Nat σ β) : Bool :=
  match r with
  | .terminated _ => true
  | _ => false

example : arrOf (pushAll alternating 9 [1, 2, 3, 4, 5] ⟨#[], true, 0, 0, 0⟩) = some [2, 5, 3, 1, 4] := by decide +kernel
example : arrOf (pop alternating 9 ⟨#[2, 4, 3, 1, 5], true, 0, 0, 0⟩) = some [4, 1, 3, 5] := by decide +kernel
example : ended (push throwing 9 0 ⟨#[5, 3], (), 0, 0, 0⟩) = true := by decide +kernel
example : ended (pop throwing 9 ⟨#[5, 0, 3], (), 0, 0, 0⟩) = true := by decide +kernel

end Verif.HeapX
