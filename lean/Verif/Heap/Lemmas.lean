import Verif.Heap.Spec
import Mathlib.Data.Nat.Log
import Mathlib.Tactic.Common

set_option autoImplicit false

namespace Verif.Heap

variable {α β γ : Type}

variable {lt : α → α → Bool}

theorem StrictWeakOrder.asymm (h : StrictWeakOrder lt) {a b : α} (hab : lt a b = true) : lt b a = false := by
  by_contra hc
  have := h.trans a b a hab (by simpa using hc)
  rw [h.irrefl] at this; cases this

/-- "not less" is transitive -/
theorem StrictWeakOrder.ge_trans (h : StrictWeakOrder lt) {a b c : α} (h1 : lt a b = false) (h2 : lt b c = false) :
    lt a c = false := by
  by_contra hc
  have hac : lt a c = true := by simpa using hc
  cases hba : lt b a with
  | true => have := h.trans b a c hba hac; rw [h2] at this; cases this
  | false =>
    cases hcb : lt c b with
    | true => have := h.trans a c b hac hcb; rw [h1] at this; cases this
    | false => have := (h.incomp a b c h1 hba h2 hcb).1; rw [hac] at this; cases this

/-! ### Programs -/

/-- `f` in `s` returns `b` in state `s'`. -/
theorem bind_ok {f : M α β} {g : β → M α γ} {s s' : St α} {b : β} (h : f s = .ok b s') :
    (f >>= g) s = g b s' := by
  show M.bind f g s = _
  unfold M.bind; rw [h]

theorem get_ok {s : St α} {i : Nat} (h : i < s.arr.size) : get (i : Int) s = .ok s.arr[i] s := by
  unfold get
  rw [dif_pos ⟨by omega, by simpa using h⟩]
  simp

theorem compareAt_ok (lt : α → α → Bool) {s : St α} {i j : Nat} (hi : i < s.arr.size) (hj : j < s.arr.size) :
    compareAt lt (i : Int) (j : Int) s = .ok (lt s.arr[i] s.arr[j]) { s with cmps := s.cmps + 1 } := by
  unfold compareAt
  rw [bind_ok (get_ok hi), bind_ok (get_ok hj)]
  rfl

theorem swapAt_ok {s : St α} {i j : Nat} (hi : i < s.arr.size) (hj : j < s.arr.size) :
    swapAt (i : Int) (j : Int) s =
      .ok () { s with arr := s.arr.swap i j hi hj, swaps := s.swaps + 1 } := by
  unfold swapAt
  rw [dif_pos ⟨⟨by omega, by simpa using hi⟩, ⟨by omega, by simpa using hj⟩⟩]
  simp

theorem parent_eq (i : Nat) : parent (i : Int) = (((i - 1) / 2 : Nat) : Int) := by
  unfold parent
  rcases Nat.eq_zero_or_pos i with rfl | h
  · rfl
  · have : ((i : Int) - 1) = ((i - 1 : Nat) : Int) := by omega
    rw [this]
    rfl

/-! ### Heap order -/

/-- Heap order except between `i` and its parent. -/
def UpInv (lt : α → α → Bool) (a : Array α) (i : Nat) : Prop :=
  (∀ p j (hp : p < a.size) (hj : j < a.size), j ≠ i → (j = 2 * p + 1 ∨ j = 2 * p + 2) → lt a[p] a[j] = false) ∧
  (∀ p c (hp : p < a.size) (hc : c < a.size), (i = 2 * p + 1 ∨ i = 2 * p + 2) →
    (c = 2 * i + 1 ∨ c = 2 * i + 2) → lt a[p] a[c] = false)

/-- Heap order except between `i` and its children. -/
def DownInv (lt : α → α → Bool) (a : Array α) (i : Nat) : Prop :=
  (∀ p j (hp : p < a.size) (hj : j < a.size), p ≠ i → (j = 2 * p + 1 ∨ j = 2 * p + 2) → lt a[p] a[j] = false) ∧
  (∀ p c (hp : p < a.size) (hc : c < a.size), (i = 2 * p + 1 ∨ i = 2 * p + 2) →
    (c = 2 * i + 1 ∨ c = 2 * i + 2) → lt a[p] a[c] = false)

theorem up_done (a : Array α) {i : Nat} (h : UpInv lt a i)
    (hi : ∀ p (hp : p < a.size) (hi : i < a.size), (i = 2 * p + 1 ∨ i = 2 * p + 2) → lt a[p] a[i] = false) :
    Ordered lt a := by
  intro p j hp hj hc
  by_cases e : j = i
  · subst e; exact hi p hp hj hc
  · exact h.1 p j hp hj e hc

theorem up_swap (hw : StrictWeakOrder lt) (a : Array α) {p i : Nat} (hp : p < a.size) (hi : i < a.size)
    (h : UpInv lt a i) (hc : i = 2 * p + 1 ∨ i = 2 * p + 2) (hlt : lt a[p] a[i] = true) :
    UpInv lt (a.swap p i hp hi) p := by
  have has := hw.asymm hlt
  have hpi : p ≠ i := by omega
  constructor
  · intro q j hq' hj' hjp hqj
    have hq : q < a.size := by simpa using hq'
    have hj : j < a.size := by simpa using hj'
    simp only [Array.getElem_swap]
    have h1 := h.1 q j hq hj
    by_cases e1 : q = p
    · subst e1
      rw [if_pos rfl]
      by_cases e2 : j = i
      · subst e2; rw [if_neg (by omega), if_pos rfl]; exact has
      · rw [if_neg hjp, if_neg e2]
        exact hw.ge_trans has (h1 e2 hqj)
    · rw [if_neg e1]
      by_cases e2 : q = i
      · subst e2
        rw [if_pos rfl, if_neg hjp, if_neg (by omega)]
        exact h.2 p j hp hj hc hqj
      · rw [if_neg e2]
        rw [if_neg hjp]
        rw [if_neg (by omega)]
        exact h1 (by omega) hqj
  · intro q c hq' hcs' hqp hpc
    have hq : q < a.size := by simpa using hq'
    have hcs : c < a.size := by simpa using hcs'
    simp only [Array.getElem_swap]
    rw [if_neg (by omega), if_neg (by omega), if_neg (by omega)]
    have h1 := h.1 q p hq hp (by omega) hqp
    by_cases e : c = i
    · subst e; rw [if_pos rfl]; exact h1
    · rw [if_neg e]
      exact hw.ge_trans h1 (h.1 p c hp hcs e hpc)

theorem down_swap (hw : StrictWeakOrder lt) (a : Array α) {p i : Nat} (hp : p < a.size) (hi : i < a.size)
    (h : DownInv lt a p) (hc : i = 2 * p + 1 ∨ i = 2 * p + 2) (hlt : lt a[p] a[i] = true)
    (hmax : ∀ c (hcs : c < a.size), (c = 2 * p + 1 ∨ c = 2 * p + 2) → lt a[i] a[c] = false) :
    DownInv lt (a.swap p i hp hi) i := by
  have has := hw.asymm hlt
  constructor
  · intro q j hq' hj' hqi hqj
    have hq : q < a.size := by simpa using hq'
    have hj : j < a.size := by simpa using hj'
    simp only [Array.getElem_swap]
    by_cases e1 : q = p
    · subst e1
      rw [if_pos rfl, if_neg (by omega)]
      by_cases e2 : j = i
      · subst e2; rw [if_pos rfl]; exact has
      · rw [if_neg e2]; exact hmax j hj hqj
    · rw [if_neg e1, if_neg hqi]
      by_cases e2 : j = p
      · subst e2; rw [if_pos rfl]
        exact h.2 q i hq hi hqj hc
      · rw [if_neg e2, if_neg (by omega)]
        exact h.1 q j hq hj e1 hqj
  · intro q c hq' hcs' hqi hic
    have hcs : c < a.size := by simpa using hcs'
    have : q = p := by omega
    subst this
    simp only [Array.getElem_swap]
    rw [if_pos trivial, if_neg (by omega), if_neg (by omega)]
    exact h.1 i c hi hcs (by omega) hic

/-! ### `heapfy_up` -/

theorem upLoop_spec (hw : StrictWeakOrder lt) (fuel : Nat) (s : St α) (i : Nat) (hi : i < s.arr.size ∨ i = 0)
    (hf : i < fuel) (h : UpInv lt s.arr i) :
    ∃ s', upLoop lt fuel (i : Int) (parent i) s = .ok () s' ∧ Ordered lt s'.arr ∧ s'.arr.Perm s.arr ∧
      s'.cmps ≤ s.cmps + Nat.log 2 (i + 1) ∧ s'.swaps + s.cmps ≤ s.swaps + s'.cmps := by
  induction fuel generalizing s i with
  | zero => omega
  | succ fuel ih =>
    rw [upLoop]
    by_cases h0 : i = 0
    · subst h0
      rw [if_neg (by simp)]
      refine ⟨s, rfl, up_done _ h ?_, Array.Perm.refl _, by simp, by omega⟩
      intro p _ _ hp; omega
    · rw [if_pos (by omega)]
      have hi : i < s.arr.size := by omega
      have hp : (i - 1) / 2 < s.arr.size := by omega
      have hc : i = 2 * ((i - 1) / 2) + 1 ∨ i = 2 * ((i - 1) / 2) + 2 := by omega
      rw [parent_eq]
      rw [bind_ok (compareAt_ok lt hp hi)]
      have hlog : Nat.log 2 (i + 1) = Nat.log 2 ((i - 1) / 2 + 1) + 1 := by
        rw [Nat.log_of_one_lt_of_le (by omega) (by omega)]
        congr 2; omega
      cases hlt : lt s.arr[(i - 1) / 2] s.arr[i] with
      | false =>
        simp only [Bool.not_false, if_true]
        refine ⟨_, rfl, up_done _ h ?_, Array.Perm.refl _, ?_, ?_⟩
        · intro p hp' hi' hpc
          have : p = (i - 1) / 2 := by omega
          subst this; exact hlt
        · show s.cmps + 1 ≤ _; omega
        · show s.swaps + s.cmps ≤ s.swaps + (s.cmps + 1); omega
      | true =>
        simp only [Bool.not_true, Bool.false_eq_true, if_false]
        rw [bind_ok (swapAt_ok (s := { s with cmps := s.cmps + 1 }) hp hi)]
        obtain ⟨s', e, h1, h2, h3, h4⟩ := ih
          { s with arr := s.arr.swap ((i - 1) / 2) i hp hi, cmps := s.cmps + 1, swaps := s.swaps + 1 }
          ((i - 1) / 2) (.inl (by simpa using hp)) (by omega) (up_swap hw _ hp hi h hc hlt)
        refine ⟨s', e, h1, h2.trans (Array.swap_perm hp hi), ?_, ?_⟩
        · simp only at h3; omega
        · simp only at h4; omega

/-! ### `heapfy_down` -/

/-- The result of one of the two `if`s of `heapfy_down`. -/
theorem pick_spec (lt : α → α → Bool) (s : St α) (k c : Nat) (hk : k < s.arr.size ∨ s.arr.size ≤ c) :
    ∃ r s', pick lt k c s = .ok r s' ∧ s'.arr = s.arr ∧ s'.swaps = s.swaps ∧
      ((s.arr.size ≤ c ∧ r = k ∧ s'.cmps = s.cmps) ∨
       (∃ (hk : k < s.arr.size) (hc : c < s.arr.size), s'.cmps = s.cmps + 1 ∧
        ((lt s.arr[k] s.arr[c] = true ∧ r = c) ∨ (lt s.arr[k] s.arr[c] = false ∧ r = k)))) := by
  unfold pick
  have hn : (M.size : M α Nat) s = .ok s.arr.size s := rfl
  rw [bind_ok hn]
  by_cases hc : c < s.arr.size
  · rw [if_pos hc]
    have hk : k < s.arr.size := by omega
    rw [bind_ok (compareAt_ok lt hk hc)]
    cases hlt : lt s.arr[k] s.arr[c] with
    | true => exact ⟨c, _, rfl, rfl, rfl, .inr ⟨hk, hc, rfl, .inl ⟨hlt, rfl⟩⟩⟩
    | false => exact ⟨k, _, rfl, rfl, rfl, .inr ⟨hk, hc, rfl, .inr ⟨hlt, rfl⟩⟩⟩
  · rw [if_neg hc]
    exact ⟨k, s, rfl, rfl, rfl, .inl ⟨by omega, rfl, rfl⟩⟩

/-- The two `if`s together select the greatest of the element and its children. -/
theorem pick_pick (hw : StrictWeakOrder lt) (s : St α) (i : Nat) (hi : i < s.arr.size ∨ s.arr.size ≤ 2 * i + 1) :
    ∃ r1 r s1 s', pick lt i (leftChild i) s = .ok r1 s1 ∧ pick lt r1 (rightChild i) s1 = .ok r s' ∧
      s'.arr = s.arr ∧ s'.swaps = s.swaps ∧ s'.cmps ≤ s.cmps + 2 ∧
      (2 * i + 1 < s.arr.size ∨ s'.cmps = s.cmps) ∧
      ((r = i ∧ ∀ c (hi : i < s.arr.size) (hcs : c < s.arr.size), (c = 2 * i + 1 ∨ c = 2 * i + 2) →
          lt s.arr[i] s.arr[c] = false) ∨
       (∃ (hi : i < s.arr.size) (hr : r < s.arr.size), (r = 2 * i + 1 ∨ r = 2 * i + 2) ∧
        lt s.arr[i] s.arr[r] = true ∧ s'.cmps ≤ s.cmps + 2 ∧
        ∀ c (hcs : c < s.arr.size), (c = 2 * i + 1 ∨ c = 2 * i + 2) → lt s.arr[r] s.arr[c] = false)) := by
  have el : leftChild i = 2 * i + 1 := by unfold leftChild; omega
  have er : rightChild i = 2 * i + 2 := by unfold rightChild; omega
  rw [el, er]
  obtain ⟨r1, s1, e1, a1, w1, h1⟩ := pick_spec lt s i (2 * i + 1) hi
  have hr1 : r1 < s1.arr.size ∨ s1.arr.size ≤ 2 * i + 2 := by
    rw [a1]
    rcases h1 with ⟨h, rfl, -⟩ | ⟨hk, hc, -, ⟨-, rfl⟩ | ⟨-, rfl⟩⟩
    · omega
    · exact .inl hc
    · exact .inl hk
  obtain ⟨r, s', e2, a2, w2, h2⟩ := pick_spec lt s1 r1 (2 * i + 2) hr1
  simp only [a1] at h2
  refine ⟨r1, r, s1, s', e1, e2, a2.trans a1, w2.trans w1, ?_, ?_, ?_⟩
  · rcases h1 with ⟨-, -, h⟩ | ⟨-, -, h, -⟩ <;> rcases h2 with ⟨-, -, h'⟩ | ⟨-, -, h', -⟩ <;> omega
  · rcases h1 with ⟨h0, -, h⟩ | ⟨-, h0, h, -⟩
    · rcases h2 with ⟨-, -, h'⟩ | ⟨-, h0', h', -⟩ <;> omega
    · exact .inl h0
  · have hcm : s'.cmps ≤ s.cmps + 2 := by
      rcases h1 with ⟨-, -, h⟩ | ⟨-, -, h, -⟩ <;> rcases h2 with ⟨-, -, h'⟩ | ⟨-, -, h', -⟩ <;> omega
    rcases h1 with ⟨h0, rfl, -⟩ | ⟨hk, hc, -, ⟨hlt, rfl⟩ | ⟨hlt, rfl⟩⟩
    · rcases h2 with ⟨-, rfl, -⟩ | ⟨-, h0', -⟩
      · exact .inl ⟨rfl, fun c _ hcs hcc => by omega⟩
      · omega
    · rcases h2 with ⟨h0, rfl, -⟩ | ⟨hk', hc', -, ⟨hlt', rfl⟩ | ⟨hlt', rfl⟩⟩
      · refine .inr ⟨hk, hc, .inl rfl, hlt, hcm, fun c hcs hcc => ?_⟩
        have : c = 2 * i + 1 := by omega
        subst this; exact hw.irrefl _
      · refine .inr ⟨hk, hc', .inr rfl, hw.trans _ _ _ hlt hlt', hcm, fun c hcs hcc => ?_⟩
        rcases hcc with rfl | rfl
        · exact hw.asymm hlt'
        · exact hw.irrefl _
      · refine .inr ⟨hk, hc, .inl rfl, hlt, hcm, fun c hcs hcc => ?_⟩
        rcases hcc with rfl | rfl
        · exact hw.irrefl _
        · exact hlt'
    · rcases h2 with ⟨h0, rfl, -⟩ | ⟨hk', hc', -, ⟨hlt', rfl⟩ | ⟨hlt', rfl⟩⟩
      · refine .inl ⟨rfl, fun c _ hcs hcc => ?_⟩
        have : c = 2 * r + 1 := by omega
        subst this; exact hlt
      · refine .inr ⟨hk, hc', .inr rfl, hlt', hcm, fun c hcs hcc => ?_⟩
        rcases hcc with rfl | rfl
        · exact hw.ge_trans (hw.asymm hlt') hlt
        · exact hw.irrefl _
      · refine .inl ⟨rfl, fun c _ hcs hcc => ?_⟩
        rcases hcc with rfl | rfl
        · exact hlt
        · exact hlt'

theorem down_done (a : Array α) {i : Nat} (h : DownInv lt a i)
    (hm : ∀ c (hi : i < a.size) (hcs : c < a.size), (c = 2 * i + 1 ∨ c = 2 * i + 2) → lt a[i] a[c] = false) :
    Ordered lt a := by
  intro p j hp hj hc
  by_cases e : p = i
  · subst e; exact hm j hp hj hc
  · exact h.1 p j hp hj e hc

theorem heapfyDown_spec (hw : StrictWeakOrder lt) (fuel : Nat) (s : St α) (i : Nat)
    (hi : i < s.arr.size ∨ s.arr.size ≤ 2 * i + 1) (hf : s.arr.size < fuel + i) (hf0 : 0 < fuel)
    (h : DownInv lt s.arr i) :
    ∃ s', heapfyDown lt fuel i s = .ok () s' ∧ Ordered lt s'.arr ∧ s'.arr.Perm s.arr ∧
      s'.cmps + 2 * Nat.log 2 (i + 1) ≤ s.cmps + 2 * max (Nat.log 2 s.arr.size) (Nat.log 2 (i + 1)) ∧
      s'.swaps + Nat.log 2 (i + 1) ≤ s.swaps + max (Nat.log 2 s.arr.size) (Nat.log 2 (i + 1)) := by
  induction fuel generalizing s i with
  | zero => omega
  | succ fuel ih =>
    obtain ⟨r1, r, s1, s2, e1, e2, ha, hsw, hcm, hcm', hr⟩ := pick_pick hw s i hi
    rw [heapfyDown, bind_ok e1, bind_ok e2]
    have hlog2 : 2 * i + 1 < s.arr.size → Nat.log 2 (i + 1) + 1 ≤ Nat.log 2 s.arr.size := by
      intro hlt
      have : Nat.log 2 (2 * (i + 1)) = Nat.log 2 (i + 1) + 1 := by
        rw [Nat.mul_comm, Nat.log_mul_base (by omega) (by omega)]
      rw [← this]
      exact Nat.log_mono_right (by omega)
    rcases hr with ⟨rfl, hm⟩ | ⟨hi, hr, hc, hlt, -, hmax⟩
    · rw [if_neg (by simp)]
      refine ⟨s2, rfl, ?_, by rw [ha], ?_, ?_⟩
      · rw [ha]; exact down_done _ h hm
      · rcases hcm' with h1 | h1
        · have := hlog2 h1; omega
        · omega
      · omega
    · rw [if_pos (by omega)]
      have hi2 : i < s2.arr.size := by rw [ha]; exact hi
      have hr2 : r < s2.arr.size := by rw [ha]; exact hr
      rw [bind_ok (swapAt_ok hi2 hr2)]
      have hinv : DownInv lt (s2.arr.swap i r hi2 hr2) r := by
        have := down_swap hw s.arr hi hr h hc hlt hmax
        simpa only [ha] using this
      obtain ⟨s', e, h1, h2, h3, h4⟩ := ih
        { s2 with arr := s2.arr.swap i r hi2 hr2, swaps := s2.swaps + 1 } r
        (.inl (by simpa using hr2)) (by simp [ha]; omega) (by omega) hinv
      have hl : Nat.log 2 (r + 1) = Nat.log 2 (i + 1) + 1 := by
        rw [Nat.log_of_one_lt_of_le (by omega) (by omega)]
        congr 2; omega
      have hl2 : Nat.log 2 (r + 1) ≤ Nat.log 2 s.arr.size := Nat.log_mono_right (by omega)
      refine ⟨s', e, h1, (h2.trans (Array.swap_perm hi2 hr2)).trans (by rw [ha]), ?_, ?_⟩
      · simp only [Array.size_swap, ha] at h3; omega
      · simp only [Array.size_swap, ha, hsw] at h4; omega

/-! ### Fuel -/

def Mono (F : Nat → M α β) : Prop := ∀ f s, F f s ≠ .hang → F (f + 1) s = F f s

theorem Mono.const (f : M α β) : Mono fun _ => f := fun _ _ _ => rfl

theorem Mono.bind {F : Nat → M α β} {G : Nat → β → M α γ} (hF : Mono F) (hG : ∀ b, Mono fun f => G f b) :
    Mono fun f => F f >>= G f := by
  intro f s h
  show M.bind _ _ _ = M.bind _ _ _
  have h' : M.bind (F f) (G f) s ≠ .hang := h
  have e : F (f + 1) s = F f s := by
    refine hF f s fun e => h' ?_
    unfold M.bind; rw [e]
  unfold M.bind at h' ⊢
  rw [e]
  cases hf : F f s with
  | ok b s' => rw [hf] at h'; exact hG b f s' h'
  | _ => rfl

theorem bind_congr_fuel {F : M α β} {G G' : β → M α γ} {s : St α}
    (hG : ∀ b s', G b s' ≠ .hang → G' b s' = G b s') (h : (F >>= G) s ≠ .hang) :
    (F >>= G') s = (F >>= G) s := by
  have h' : M.bind F G s ≠ .hang := h
  show M.bind _ _ _ = M.bind _ _ _
  unfold M.bind at h' ⊢
  cases hf : F s with
  | ok b s' => rw [hf] at h'; exact hG b s' h'
  | _ => rfl

theorem upLoop_mono (lt : α → α → Bool) : ∀ f i p s, upLoop lt f i p s ≠ .hang →
    upLoop lt (f + 1) i p s = upLoop lt f i p s := by
  intro f
  induction f with
  | zero => intro i p s h; exact absurd rfl h
  | succ f ih =>
    intro i p s h
    rw [upLoop] at h
    conv_lhs => rw [upLoop]
    conv_rhs => rw [upLoop]
    split
    · rename_i hm
      rw [if_pos hm] at h
      refine bind_congr_fuel (fun b s1 h1 => ?_) h
      cases b with
      | false => rfl
      | true => exact bind_congr_fuel (fun _ s2 => ih _ _ s2) h1
    · rfl

theorem heapfyDown_mono (lt : α → α → Bool) : ∀ f i s, heapfyDown lt f i s ≠ .hang →
    heapfyDown lt (f + 1) i s = heapfyDown lt f i s := by
  intro f
  induction f with
  | zero => intro i s h; exact absurd rfl h
  | succ f ih =>
    intro i s h
    rw [heapfyDown] at h
    conv_lhs => rw [heapfyDown]
    conv_rhs => rw [heapfyDown]
    refine bind_congr_fuel (fun i1 s1 => bind_congr_fuel fun i2 s2 h2 => ?_) h
    split
    · rename_i hm
      rw [if_pos hm] at h2
      exact bind_congr_fuel (fun _ s3 => ih _ s3) h2
    · rfl

theorem push_mono (lt : α → α → Bool) (v : α) : Mono fun f => push lt f v := by
  unfold push heapfyUp
  exact (Mono.const _).bind fun _ => (Mono.const _).bind fun _ f s => upLoop_mono lt f _ _ s

theorem pop_mono (lt : α → α → Bool) : Mono (pop lt) := by
  unfold pop
  exact (Mono.const _).bind fun _ => (Mono.const _).bind fun _ => (Mono.const _).bind fun _ f s =>
    heapfyDown_mono lt f _ s

theorem pushAll_mono (lt : α → α → Bool) (xs : List α) : Mono fun f => pushAll lt f xs := by
  induction xs with
  | nil => exact Mono.const _
  | cons x xs ih => exact (push_mono lt x).bind fun _ => ih

theorem Mono.le {F : Nat → M α β} (h : Mono F) {f f' : Nat} (hf : f ≤ f') {s : St α} (hs : F f s ≠ .hang) :
    F f' s = F f s := by
  induction hf with
  | refl => rfl
  | step _ ih => rw [h _ s (by rw [ih]; exact hs), ih]

theorem Mono.runs {F : Nat → M α β} (h : Mono F) {f : Nat} {s : St α} {r : Res (St α) β} (e : F f s = r)
    (hr : r ≠ .hang) : Runs F s r :=
  ⟨f, fun f' hf => (h.le hf (by rw [e]; exact hr)).trans e⟩

theorem Runs.unique {F : Nat → M α β} {s : St α} {r r' : Res (St α) β} (h1 : Runs F s r) (h2 : Runs F s r') :
    r = r' := by
  obtain ⟨n, h1⟩ := h1
  obtain ⟨k, h2⟩ := h2
  exact (h1 (max n k) (by omega)).symm.trans (h2 (max n k) (by omega))

/-! ### The operations -/

/-- What `push` does. -/
structure Pushed (lt : α → α → Bool) (s : St α) (v : α) (s' : St α) : Prop where
  ordered : Ordered lt s'.arr
  perm : s'.arr.toList.Perm (v :: s.arr.toList)
  cmps : s'.cmps ≤ s.cmps + Nat.log 2 (s.arr.size + 1)
  swaps : s'.swaps ≤ s.swaps + Nat.log 2 (s.arr.size + 1)

theorem push_spec (hw : StrictWeakOrder lt) {s : St α} (h : Ordered lt s.arr) (v : α) :
    ∃ s', Runs (fun f => push lt f v) s (.ok () s') ∧ Pushed lt s v s' := by
  have h1 : (pushBack v : M α Unit) s = .ok () { s with arr := s.arr.push v } := rfl
  have hu : UpInv lt (s.arr.push v) s.arr.size := by
    constructor
    · intro p j hp hj hne hc
      have hj' : j < s.arr.size := by simp at hj; omega
      have hp' : p < s.arr.size := by omega
      rw [Array.getElem_push_lt hj', Array.getElem_push_lt hp']
      exact h p j hp' hj' hc
    · intro p c hp hc h1 h2
      simp at hc; omega
  obtain ⟨s', e, h2, h3, h4, h5⟩ := upLoop_spec hw (s.arr.size + 1) { s with arr := s.arr.push v } s.arr.size
    (.inl (by simp)) (by omega) hu
  have hrun : push lt (s.arr.size + 1) v s = .ok () s' := by
    unfold push
    rw [bind_ok h1]
    have hn : (M.size : M α Nat) { s with arr := s.arr.push v } = .ok (s.arr.size + 1) { s with arr := s.arr.push v } := by
      unfold M.size; simp
    rw [bind_ok hn]
    unfold heapfyUp
    exact e
  refine ⟨s', (push_mono lt v).runs (f := s.arr.size + 1) hrun (by simp), h2, ?_, h4, ?_⟩
  · have := Array.perm_iff_toList_perm.1 h3
    rw [Array.toList_push] at this
    exact this.trans (List.perm_append_singleton v _)
  · simp only at h4 h5; omega

/-- What `pop` does. -/
structure Popped (lt : α → α → Bool) (s : St α) (s' : St α) : Prop where
  ordered : Ordered lt s'.arr
  size : s.arr.size = s'.arr.size + 1
  perm : ∃ x, front s = .ok x s ∧ s.arr.toList.Perm (x :: s'.arr.toList)
  cmps : s'.cmps ≤ s.cmps + 2 * Nat.log 2 s.arr.size
  swaps : s'.swaps ≤ s.swaps + 1 + Nat.log 2 s.arr.size

theorem pop_spec (hw : StrictWeakOrder lt) {s : St α} (h : Ordered lt s.arr) (hn : 0 < s.arr.size) :
    ∃ s', Runs (pop lt) s (.ok () s') ∧ Popped lt s s' := by
  have hl : s.arr.size - 1 < s.arr.size := by omega
  have hs : (M.size : M α Nat) s = .ok s.arr.size s := rfl
  have hsw : (swapAt 0 ((s.arr.size : Int) - 1) : M α Unit) s = .ok ()
      { s with arr := s.arr.swap 0 (s.arr.size - 1) hn hl, swaps := s.swaps + 1 } := by
    have := swapAt_ok (s := s) hn hl
    rw [show ((s.arr.size : Int) - 1) = ((s.arr.size - 1 : Nat) : Int) by omega]
    exact this
  let t : St α := { s with arr := (s.arr.swap 0 (s.arr.size - 1) hn hl).pop, swaps := s.swaps + 1 }
  have hpb : (popBack : M α Unit) { s with arr := s.arr.swap 0 (s.arr.size - 1) hn hl, swaps := s.swaps + 1 }
      = .ok () t := by
    unfold popBack
    rw [if_neg (by simp only [Array.size_swap]; omega)]
  have hts : t.arr.size = s.arr.size - 1 := by simp [t]
  have htget : ∀ k (hk : k < t.arr.size) (hk' : k < s.arr.size), k ≠ 0 → t.arr[k] = s.arr[k] := by
    intro k hk hk' h0
    simp only [t, Array.getElem_pop, Array.getElem_swap]
    rw [if_neg h0, if_neg (by omega)]
  have hd : DownInv lt t.arr 0 := by
    constructor
    · intro p j hp hj hne hc
      rw [htget p hp (by omega) hne, htget j hj (by omega) (by omega)]
      exact h p j _ _ hc
    · intro p c _ _ h0; omega
  obtain ⟨s', e, h1, h2, h3, h4⟩ := heapfyDown_spec hw (s.arr.size + 1) t 0 (by omega) (by omega) (by omega) hd
  have hrun : pop lt (s.arr.size + 1) s = .ok () s' := by
    unfold pop
    rw [bind_ok hs, bind_ok hsw, bind_ok hpb]
    exact e
  have hlog : Nat.log 2 t.arr.size ≤ Nat.log 2 s.arr.size := Nat.log_mono_right (by omega)
  have hsz : s'.arr.size = t.arr.size := h2.size_eq
  refine ⟨s', (pop_mono lt).runs (f := s.arr.size + 1) hrun (by simp), h1, by omega, ⟨s.arr[0], get_ok hn, ?_⟩, ?_, ?_⟩
  · have e1 := Array.perm_iff_toList_perm.1 h2
    have e2 : (s.arr.swap 0 (s.arr.size - 1) hn hl).toList = t.arr.toList ++ [s.arr[0]] := by
      have : s.arr.swap 0 (s.arr.size - 1) hn hl = t.arr.push s.arr[0] := by
        apply Array.ext
        · simp [hts]; omega
        · intro k hk1 hk2
          rw [Array.getElem_push]
          split
          · simp [t]
          · simp only [Array.getElem_swap]
            simp at hk1
            by_cases e0 : k = 0
            · rw [if_pos e0]; congr 1; omega
            · rw [if_neg e0, if_pos (by omega)]
      rw [this, Array.toList_push]
    have e3 := Array.perm_iff_toList_perm.1 (Array.swap_perm (xs := s.arr) hn hl)
    rw [e2] at e3
    refine e3.symm.trans ((List.perm_append_singleton _ _).trans ?_)
    exact (e1.symm).cons _
  · simp [t] at h3; simp [t] at hlog; omega
  · simp [t] at h4; simp [t] at hlog; omega

theorem pop_empty (lt : α → α → Bool) {s : St α} (h : s.arr.size = 0) : Runs (pop lt) s .ub := by
  refine ⟨0, fun fuel _ => ?_⟩
  have hs : (M.size : M α Nat) s = .ok s.arr.size s := rfl
  unfold pop
  rw [bind_ok hs]
  show M.bind _ _ _ = _
  unfold M.bind swapAt
  rw [dif_neg (by rw [h]; simp)]

theorem pushAll_spec (hw : StrictWeakOrder lt) (xs : List α) {s : St α} (h : Ordered lt s.arr) :
    ∃ s', Runs (fun f => pushAll lt f xs) s (.ok () s') ∧ Ordered lt s'.arr ∧
      s'.arr.toList.Perm (xs ++ s.arr.toList) := by
  induction xs generalizing s with
  | nil => exact ⟨s, ⟨0, fun _ _ => rfl⟩, h, List.Perm.refl _⟩
  | cons x xs ih =>
    obtain ⟨s1, ⟨n1, h1⟩, h2⟩ := push_spec hw h x
    obtain ⟨s2, ⟨n2, h3⟩, h4, h5⟩ := ih h2.ordered
    refine ⟨s2, ⟨max n1 n2, fun fuel hf => ?_⟩, h4, ?_⟩
    · show (push lt fuel x >>= fun _ => pushAll lt fuel xs) s = _
      rw [bind_ok (h1 fuel (by omega))]
      exact h3 fuel (by omega)
    · refine h5.trans ((List.Perm.append_left xs h2.perm).trans ?_)
      exact List.perm_middle

theorem ordered_empty (lt : α → α → Bool) : Ordered lt (empty : St α).arr := by
  intro i j hi; simp [empty] at hi

theorem reach_ordered (hw : StrictWeakOrder lt) {s : St α} (h : Reach lt s) : Ordered lt s.arr := by
  induction h with
  | empty => exact ordered_empty lt
  | @range xs s hr =>
    obtain ⟨s', h1, h2, -⟩ := pushAll_spec hw xs (ordered_empty lt)
    have := h1.unique hr; cases this; exact h2
  | @push s v s' _ hr ih =>
    obtain ⟨s2, h1, h2⟩ := push_spec hw ih v
    have := h1.unique hr; cases this; exact h2.ordered
  | @pop s s' _ hr ih =>
    by_cases hn : 0 < s.arr.size
    · obtain ⟨s2, h1, h2⟩ := pop_spec hw ih hn
      have := h1.unique hr; cases this; exact h2.ordered
    · have := (pop_empty lt (by omega)).unique hr; cases this

/-- The root of an ordered heap is greatest. -/
theorem root_max (hw : StrictWeakOrder lt) {a : Array α} (h : Ordered lt a) (k : Nat) (hk : k < a.size) :
    lt (a[0]'(by omega)) a[k] = false := by
  induction k using Nat.strongRecOn with
  | ind k ih =>
    rcases Nat.eq_zero_or_pos k with rfl | h0
    · exact hw.irrefl _
    · exact hw.ge_trans (ih ((k - 1) / 2) (by omega) (by omega)) (h _ k (by omega) hk (by omega))

theorem drain_spec (hw : StrictWeakOrder lt) (n : Nat) {s : St α} (h : Ordered lt s.arr) (hn : s.arr.size < n) :
    ∃ xs s', Runs (fun f => drain lt f n) s (.ok xs s') ∧ xs.Perm s.arr.toList ∧
      xs.Pairwise (fun x y => lt x y = false) ∧ s'.arr = #[] := by
  induction n generalizing s with
  | zero => omega
  | succ n ih =>
    have hs : (M.size : M α Nat) s = .ok s.arr.size s := rfl
    by_cases h0 : s.arr.size = 0
    · refine ⟨[], s, ⟨0, fun fuel _ => ?_⟩, ?_, List.Pairwise.nil, Array.eq_empty_of_size_eq_zero h0⟩
      · simp only [drain]
        rw [bind_ok hs, if_pos h0]; rfl
      · rw [Array.eq_empty_of_size_eq_zero h0]
    · obtain ⟨s1, ⟨n1, h1⟩, h2⟩ := pop_spec hw h (by omega)
      obtain ⟨x, hx, hp⟩ := h2.perm
      obtain ⟨xs, s2, ⟨n2, h3⟩, h4, h5, h6⟩ := ih h2.ordered (by have := h2.size; omega)
      refine ⟨x :: xs, s2, ⟨max n1 n2, fun fuel hf => ?_⟩, ?_, ?_, h6⟩
      · simp only [drain]
        rw [bind_ok hs, if_neg h0, bind_ok hx, bind_ok (h1 fuel (by omega)), bind_ok (h3 fuel (by omega))]
        rfl
      · exact (h4.cons x).trans hp.symm
      · refine List.pairwise_cons.2 ⟨fun y hy => ?_, h5⟩
        have hy' : y ∈ s.arr.toList := hp.mem_iff.2 (List.mem_cons_of_mem _ (h4.mem_iff.1 hy))
        obtain ⟨k, hk, rfl⟩ := List.mem_iff_getElem.1 hy'
        have hx0 : x = s.arr[0] := by
          have := (get_ok (s := s) (i := 0) (by omega)).symm.trans hx
          cases this; rfl
        rw [hx0]
        exact root_max hw h k (by simpa using hk)

end Verif.Heap
