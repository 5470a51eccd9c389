import Verif.Array.Clients
import Verif.Array.IteratorProps
import Verif.Sorting
import Mathlib.Data.List.Perm.Basic

/-!
# Properties of programs around an `Array` (C168)

The programs of `Clients.lean`, started in any state that a client can reach, with arrays of trivially copyable
elements (for other elements see C12), while nothing throws.
-/

set_option autoImplicit false

namespace Verif.Arr

open Verif.Sorting

variable {α β γ : Type} {cfg : Elem α} {w : World α} {a : Nat}

/-! ## Single calls -/

/-- `f` returns, with `Q`. -/
def Does (f : M (World α) β) (w : World α) (Q : β → World α → Prop) : Prop := ∃ b w', f w = .ok b w' ∧ Q b w'

theorem Does.bind {f : M (World α) β} {g : β → M (World α) γ} {Q : γ → World α → Prop}
    (h : Does f w fun b w' => Does (g b) w' Q) : Does (f >>= g) w Q := by
  obtain ⟨b, w1, h1, c, w2, h2, h3⟩ := h
  refine ⟨c, w2, ?_, h3⟩
  show M.bind f g w = _
  unfold M.bind
  rw [h1]
  exact h2

theorem Does.pure {b : β} {Q : β → World α → Prop} (h : Q b w) : Does (pure b : M (World α) β) w Q :=
  ⟨b, w, rfl, h⟩

theorem Does.mono {f : M (World α) β} {Q Q' : β → World α → Prop} (h : Does f w Q) (hq : ∀ b w', Q b w' → Q' b w') :
    Does f w Q' := by
  obtain ⟨b, w1, h1, h2⟩ := h
  exact ⟨b, w1, h1, hq _ _ h2⟩

/-- The state can be reached, and its arrays are `A`. -/
def S (cfg : Elem α) (w : World α) (A : AWorld α) : Prop := Reached cfg w ∧ observe w = A

theorem put_same {δ : Type} (f : Nat → δ) (i : Nat) (x : δ) : put f i x i = x := by simp [put]

theorem put_put {δ : Type} (f : Nat → δ) (i : Nat) (x y : δ) : put (put f i x) i y = put f i y := by
  funext j; unfold put; split <;> rfl

variable {A : AWorld α} {xs : List α} {c : Nat}

theorem S.call (hs : S cfg w A) (ht : cfg.triv = true) {op : Op α} {A' : AWorld α} {r : Nat}
    (h : specStep A op = some (A', r)) : Does (call cfg op) w fun r' w' => r' = r ∧ S cfg w' A' := by
  obtain ⟨h1, rfl⟩ := hs
  obtain ⟨w', g1, g2, g3⟩ := h1.step cfg h (.inl ht)
  exact ⟨r, w', g1, rfl, g3, g2⟩

theorem S.size (hs : S cfg w A) (ha : A a = some (xs, c)) {Q : Int → World α → Prop} (h : Q xs.length w) :
    Does (ask (sizeOf' · a)) w Q := by
  obtain ⟨h1, rfl⟩ := hs
  refine ⟨_, w, ?_, h⟩
  unfold ask
  simp only [(array_accessors cfg h1 ha).1]

theorem S.empty (hs : S cfg w A) (ha : A a = some (xs, c)) {Q : Bool → World α → Prop} (h : Q xs.isEmpty w) :
    Does (ask (emptyOf · a)) w Q := by
  obtain ⟨h1, rfl⟩ := hs
  refine ⟨_, w, ?_, h⟩
  unfold ask
  simp only [(array_accessors cfg h1 ha).2.1]

theorem S.index (hs : S cfg w A) (ha : A a = some (xs, c)) {i : Nat} {x : α} (hx : xs[i]? = some x)
    {Q : α → World α → Prop} (h : Q x w) : Does (ask (indexOf · a (i : Int))) w Q := by
  obtain ⟨h1, rfl⟩ := hs
  obtain ⟨hi, rfl⟩ := List.getElem?_eq_some_iff.1 hx
  refine ⟨_, w, ?_, h⟩
  unfold ask
  simp only [(array_accessors cfg h1 ha).2.2.1 i hi]

theorem S.back (hs : S cfg w A) {x : α} (ha : A a = some (xs ++ [x], c)) {Q : α → World α → Prop} (h : Q x w) :
    Does (ask (backOf · a)) w Q := by
  obtain ⟨h1, rfl⟩ := hs
  refine ⟨x, w, ?_, h⟩
  unfold ask
  have := ((array_accessors cfg h1 ha).2.2.2.2.1 (by simp)).2
  simp only [this, List.getLast_append_singleton]

theorem S.erase (hs : S cfg w A) (ht : cfg.triv = true) {pre post : List α} {x : α}
    (ha : A a = some (pre ++ x :: post, c)) :
    Does (Arr.call cfg (.erase a pre.length)) w fun r w' => r = pre.length ∧ S cfg w' (put A a (some (pre ++ post, c))) := by
  refine hs.call ht ?_
  simp [specStep, Op.target, ha, member, List.eraseIdx_append_of_length_le]

theorem S.write (hs : S cfg w A) (ht : cfg.triv = true) {pre post : List α} {x : α}
    (ha : A a = some (pre ++ x :: post, c)) (v : α) :
    Does (Arr.call cfg (.writeAt a pre.length v)) w fun _ w' => S cfg w' (put A a (some (pre ++ v :: post, c))) := by
  refine (hs.call ht (A' := put A a (some (pre ++ v :: post, c))) (r := 0) ?_).mono fun _ _ h => h.2
  simp [specStep, Op.target, ha, member]

theorem S.pop (hs : S cfg w A) (ht : cfg.triv = true) {x : α} (ha : A a = some (xs ++ [x], c)) :
    Does (Arr.call cfg (.popBack a)) w fun _ w' => S cfg w' (put A a (some (xs, c))) := by
  refine (hs.call ht (A' := put A a (some (xs, c))) (r := 0) ?_).mono fun _ _ h => h.2
  simp [specStep, Op.target, ha, member]

theorem S.push (hs : S cfg w A) (ht : cfg.triv = true) (ha : A a = some (xs, c)) (x : α) :
    Does (Arr.call cfg (.pushBack a (.val x))) w fun _ w' => ∃ c', S cfg w' (put A a (some (xs ++ [x], c'))) := by
  refine (hs.call ht (A' := put A a (some (xs ++ [x], grown xs.length c))) (r := 0) ?_).mono fun _ _ h => ⟨_, h.2⟩
  simp [specStep, Op.target, ha, member, argVal, ownArg]

theorem S.same (hs : S cfg w A) {ys : List α} (ha : A a = some (xs, c)) (e : xs = ys) :
    S cfg w (put A a (some (ys, c))) := by
  subst e; rw [put_self A a _ ha]; exact hs

/-! ## The loops -/

theorem eraseIf_spec (ht : cfg.triv = true) (bad : α → Bool) (post : List α) : ∀ (fuel : Nat) (pre : List α)
    (w : World α) (A : AWorld α), S cfg w A → A a = some (pre ++ post, c) → post.length < fuel →
    Does (eraseIf cfg a bad fuel pre.length) w fun _ w' =>
      S cfg w' (put A a (some (pre ++ post.filter (fun x => !bad x), c))) := by
  induction post with
  | nil =>
    intro fuel pre w A hs ha hf
    obtain ⟨fuel, rfl⟩ : ∃ k, fuel = k + 1 := ⟨fuel - 1, by simp at hf; omega⟩
    unfold eraseIf
    refine Does.bind (hs.size ha ?_)
    rw [if_pos (by simp)]
    exact Does.pure (hs.same ha (by simp))
  | cons x post ih =>
    intro fuel pre w A hs ha hf
    obtain ⟨fuel, rfl⟩ : ∃ k, fuel = k + 1 := ⟨fuel - 1, by simp at hf; omega⟩
    have hf' : post.length < fuel := by simp at hf; omega
    unfold eraseIf
    refine Does.bind (hs.size ha ?_)
    rw [if_neg (by simp; omega)]
    refine Does.bind (hs.index ha (x := x) (by simp) ?_)
    split
    · rename_i hb
      refine Does.bind ((hs.erase ht ha).mono ?_)
      rintro _ w1 ⟨rfl, h1⟩
      have := ih fuel pre w1 _ h1 (put_same ..) hf'
      rw [put_put] at this
      simpa [List.filter_cons, hb] using this
    · rename_i hb
      have := ih fuel (pre ++ [x]) w A hs (by simpa using ha) hf'
      simpa [List.filter_cons, hb] using this

theorem removeFast_spec (ht : cfg.triv = true) (bad : α → Bool) : ∀ (fuel : Nat) (pre post : List α)
    (w : World α) (A : AWorld α), S cfg w A → A a = some (pre ++ post, c) → post.length < fuel →
    Does (removeFast cfg a bad fuel pre.length) w fun _ w' => ∃ ys, ys.Perm (pre ++ post.filter (fun x => !bad x)) ∧
      S cfg w' (put A a (some (ys, c))) := by
  intro fuel
  induction fuel with
  | zero => intro pre post w A hs ha hf; simp at hf
  | succ fuel ih =>
    intro pre post w A hs ha hf
    unfold removeFast
    refine Does.bind (hs.size ha ?_)
    cases post with
    | nil =>
      rw [if_pos (by simp)]
      exact Does.pure ⟨pre, by simp, hs.same ha (by simp)⟩
    | cons x post =>
      have hf' : post.length < fuel := by simp at hf; omega
      rw [if_neg (by simp; omega)]
      refine Does.bind (hs.index ha (x := x) (by simp) ?_)
      split
      · rename_i hb
        refine Does.bind ?_
        unfold swapRemove
        rcases List.eq_nil_or_concat post with rfl | ⟨ini, l, rfl⟩
        · refine Does.bind (hs.back ha (Does.bind ((hs.write ht ha x).mono fun _ w1 h1 =>
            Does.bind ((h1.pop ht (xs := pre) (x := x) (put_same ..)).mono fun _ w2 h2 => Does.pure ?_))))
          rw [put_put] at h2
          have := ih pre [] w2 _ h2 (by rw [put_same]; simp) (by simp at hf'; omega)
          refine this.mono fun _ w3 h3 => ?_
          obtain ⟨ys, h4, h5⟩ := h3
          rw [put_put] at h5
          exact ⟨ys, by simpa [hb] using h4, h5⟩
        · have ha' : A a = some ((pre ++ x :: ini) ++ [l], c) := by rw [ha]; simp
          refine Does.bind (hs.back ha' (Does.bind ((hs.write ht ha l).mono fun _ w1 h1 =>
            Does.bind ((h1.pop ht (xs := pre ++ l :: ini) (x := l) (c := c) (by rw [put_same]; simp)).mono
              fun _ w2 h2 => Does.pure ?_))))
          rw [put_put] at h2
          have := ih pre (l :: ini) w2 _ h2 (by rw [put_same]) (by simp at hf' ⊢; omega)
          refine this.mono fun _ w3 h3 => ?_
          obtain ⟨ys, h4, h5⟩ := h3
          rw [put_put] at h5
          refine ⟨ys, h4.trans ?_, h5⟩
          rw [List.filter_cons (x := x), if_neg (by simp [hb])]
          refine List.Perm.append_left pre (List.Perm.filter _ ?_)
          simpa using (List.perm_append_singleton l ini).symm
      · rename_i hb
        have := ih (pre ++ [x]) post w A hs (by simpa using ha) hf'
        simpa [List.filter_cons, hb] using this

theorem upperBound_spec {lt : α → α → Bool} (hw : Weak lt) (v : α) (hi : InOrder lt xs) : ∀ (fuel lo hi : Nat),
    S cfg w A → A a = some (xs, c) → hi - lo < fuel → lo ≤ hi → hi ≤ xs.length →
    (∀ j (h : j < xs.length), j < lo → lt v xs[j] = false) → (∀ j (h : j < xs.length), hi ≤ j → lt v xs[j] = true) →
    Does (upperBound a lt v fuel lo hi) w fun i w' => w' = w ∧ i ≤ xs.length ∧
      (∀ j (h : j < xs.length), j < i → lt v xs[j] = false) ∧ (∀ j (h : j < xs.length), i ≤ j → lt v xs[j] = true) := by
  intro fuel
  induction fuel with
  | zero => intro lo hi _ _ hf; omega
  | succ fuel ih =>
    intro lo hi' hs ha hf h1 h2 h3 h4
    unfold upperBound
    split
    · rename_i hlt
      have hm : lo + (hi' - lo) / 2 < xs.length := by omega
      refine Does.bind (hs.index ha (List.getElem?_eq_getElem hm) ?_)
      split
      · rename_i hb
        exact ih lo _ hs ha (by omega) (by omega) (by omega) h3 (fun j hj hj2 => hi.greater hw hj2 hj hb)
      · rename_i hb
        refine ih _ hi' hs ha (by omega) (by omega) h2 (fun j hj hj2 => ?_) h4
        by_contra hc
        exact hb (hi.greater hw (i := j) (by omega) hm (by simpa using hc))
    · exact Does.pure ⟨rfl, by omega, fun j hj hj2 => h3 j hj (by omega), fun j hj hj2 => h4 j hj (by omega)⟩

theorem sink_spec (ht : cfg.triv = true) {lt : α → α → Bool} (hw : Weak lt) (v : α) (R : List α) : ∀ (n : Nat)
    (P Q : List α) (w : World α) (A : AWorld α), P.length = n → S cfg w A → A a = some (P ++ v :: (Q ++ R), c) →
    InOrder lt (P ++ Q) → (∀ q ∈ Q, lt v q = true) →
    Does (sink cfg a lt n) w fun _ w' => ∃ P' Q', P' ++ Q' = P ++ Q ∧ (∀ p ∈ P', lt v p = false) ∧
      (∀ q ∈ Q', lt v q = true) ∧ S cfg w' (put A a (some (P' ++ v :: (Q' ++ R), c))) := by
  intro n
  induction n with
  | zero =>
    intro P Q w A hn hs ha hi hq
    have : P = [] := List.length_eq_zero_iff.1 hn
    subst this
    unfold sink
    exact Does.pure ⟨[], Q, rfl, by simp, hq, hs.same ha rfl⟩
  | succ n ih =>
    intro P Q w A hn hs ha hi hq
    rcases List.eq_nil_or_concat P with rfl | ⟨P0, y, rfl⟩
    · simp at hn
    have hn0 : P0.length = n := by simpa using hn
    subst hn0
    unfold sink
    refine Does.bind (hs.index ha (x := v) (by simp) (Does.bind (hs.index ha (x := y) (by simp) ?_)))
    split
    · rename_i hb
      have ha1 : A a = some (P0 ++ y :: (v :: (Q ++ R)), c) := by rw [ha]; simp
      refine Does.bind ((hs.write ht ha1 v).mono fun _ w1 h1 => Does.bind ?_)
      have := h1.write ht (a := a) (pre := P0 ++ [v]) (x := v) (post := Q ++ R) (c := c)
        (by rw [put_same]; simp) y
      rw [List.length_append, List.length_singleton] at this
      refine this.mono fun _ w2 h2 => ?_
      rw [put_put] at h2
      have := ih P0 (y :: Q) w2 _ rfl h2 (by rw [put_same]; simp) (by simpa using hi) (by
        intro q hq'
        rcases List.mem_cons.1 hq' with rfl | h
        · exact hb
        · exact hq q h)
      refine this.mono fun _ w3 h3 => ?_
      obtain ⟨P', Q', e, h4, h5, h6⟩ := h3
      rw [put_put] at h6
      exact ⟨P', Q', by rw [e]; simp, h4, h5, h6⟩
    · rename_i hb
      refine Does.pure ⟨_, Q, rfl, fun p hp => ?_, hq, hs.same ha rfl⟩
      obtain ⟨k, hk, rfl⟩ := List.mem_iff_getElem.1 hp
      have hi0 : InOrder lt (P0 ++ [y]) := by
        have : InOrder lt (P0.concat y) := hi.sublist (List.sublist_append_left _ Q)
        rwa [List.concat_eq_append] at this
      have hk' : k < (P0 ++ [y]).length := by simpa using hk
      by_contra hc
      have := hi0.greater hw (v := v) (i := k) (j := P0.length) (by simp at hk'; omega) (by simp)
        (by simpa using hc)
      simp at this
      exact hb this

theorem sortFrom_spec (ht : cfg.triv = true) {lt : α → α → Bool} (hw : Weak lt) (R : List α) : ∀ (fuel : Nat)
    (X P : List α) (w : World α) (A : AWorld α), S cfg w A → A a = some (P ++ R, c) → R.length < fuel →
    StablySorted lt X P →
    Does (sortFrom cfg a lt fuel P.length) w fun _ w' => ∃ ys, StablySorted lt (X ++ R) ys ∧
      S cfg w' (put A a (some (ys, c))) := by
  induction R with
  | nil =>
    intro fuel X P w A hs ha hf hst
    obtain ⟨fuel, rfl⟩ : ∃ k, fuel = k + 1 := ⟨fuel - 1, by simp at hf; omega⟩
    unfold sortFrom
    refine Does.bind (hs.size ha ?_)
    rw [if_pos (by simp)]
    exact Does.pure ⟨P, by simpa using hst, hs.same ha (by simp)⟩
  | cons v R ih =>
    intro fuel X P w A hs ha hf hst
    obtain ⟨fuel, rfl⟩ : ∃ k, fuel = k + 1 := ⟨fuel - 1, by simp at hf; omega⟩
    unfold sortFrom
    refine Does.bind (hs.size ha ?_)
    rw [if_neg (by simp; omega)]
    refine Does.bind ((sink_spec ht hw v R P.length P [] w A rfl hs (by simpa using ha) (by simpa using hst.1)
      (by simp)).mono fun _ w1 h1 => ?_)
    obtain ⟨P', Q', e, h2, h3, h4⟩ := h1
    have e' : P' ++ Q' = P := by simpa using e
    have hnew := split_stable hw (by rw [e']; exact hst.1) h2 h3
    rw [e'] at hnew
    have hlen : (P' ++ v :: Q').length = P.length + 1 := by
      rw [hnew.2.1.length_eq]; simp
    have := ih fuel (X ++ [v]) (P' ++ v :: Q') w1 _ h4 (by rw [put_same]; simp) (by simp at hf; omega)
      (hst.trans hnew)
    rw [hlen] at this
    refine this.mono fun _ w2 h5 => ?_
    obtain ⟨ys, h6, h7⟩ := h5
    rw [put_put] at h7
    exact ⟨ys, by simpa using h6, h7⟩

/-- A last-in first-out stack, its top at the end of `q`: the elements taken, and what is left. -/
def lifo : List (Option α) → List α → List α × List α
  | [], q => ([], q)
  | some x :: ops, q => lifo ops (q ++ [x])
  | none :: ops, q =>
    match q.getLast? with
    | none => lifo ops q
    | some v => (v :: (lifo ops q.dropLast).1, (lifo ops q.dropLast).2)

theorem stackRun_spec (ht : cfg.triv = true) (ops : List (Option α)) : ∀ (xs : List α) (c : Nat) (w : World α)
    (A : AWorld α), S cfg w A → A a = some (xs, c) →
    Does (stackRun cfg a ops) w fun vs w' => ∃ ys c', lifo ops xs = (vs, ys) ∧ S cfg w' (put A a (some (ys, c'))) := by
  induction ops with
  | nil =>
    intro xs c w A hs ha
    unfold stackRun
    exact Does.pure ⟨xs, c, rfl, hs.same ha rfl⟩
  | cons op ops ih =>
    intro xs c w A hs ha
    cases op with
    | some x =>
      unfold stackRun
      refine Does.bind ((hs.push ht ha x).mono fun _ w1 h1 => ?_)
      obtain ⟨c1, h1⟩ := h1
      refine (ih _ _ w1 _ h1 (put_same ..)).mono fun vs w2 h2 => ?_
      obtain ⟨ys, c2, h3, h4⟩ := h2
      rw [put_put] at h4
      exact ⟨ys, c2, h3, h4⟩
    | none =>
      unfold stackRun
      refine Does.bind (hs.empty ha ?_)
      rcases List.eq_nil_or_concat xs with rfl | ⟨xs, v, rfl⟩
      · rw [if_pos (by rfl)]
        exact (ih _ _ w _ hs ha).mono fun vs w2 h2 => h2
      · rw [if_neg (by simp)]
        have ha' : A a = some (xs ++ [v], c) := by simpa using ha
        refine Does.bind (hs.back ha' (Does.bind ((hs.pop ht ha').mono fun _ w1 h1 => Does.bind ?_)))
        refine (ih _ _ w1 _ h1 (put_same ..)).mono fun vs w2 h2 => Does.pure ?_
        obtain ⟨ys, c2, h3, h4⟩ := h2
        rw [put_put] at h4
        exact ⟨ys, c2, by simp [lifo, h3], h4⟩

/-! ## C168 -/

section Results

variable (ht : cfg.triv = true) (hw : Reached cfg w) (ha : observe w a = some (xs, c))
include ht hw ha

/-- C168, erasing while iterating: continuing with the iterator `erase` returns, the loop ends with exactly the
elements that `bad` does not reject, in order, in the same storage; nothing else changes. -/
theorem eraseIf_result (bad : α → Bool) {fuel : Nat} (hf : xs.length < fuel) :
    ∃ w', eraseIf cfg a bad fuel 0 w = .ok () w' ∧ Reached cfg w' ∧
      observe w' = put (observe w) a (some (xs.filter (fun x => !bad x), c)) := by
  obtain ⟨_, w', h1, h2, h3⟩ := eraseIf_spec ht bad xs fuel [] w _ ⟨hw, rfl⟩ ha hf
  exact ⟨w', h1, h2, h3⟩

/-- C168, removal without keeping the order: the elements left are those not rejected, each as often as before. -/
theorem removeFast_result (bad : α → Bool) {fuel : Nat} (hf : xs.length < fuel) :
    ∃ w' ys, removeFast cfg a bad fuel 0 w = .ok () w' ∧ Reached cfg w' ∧ ys.Perm (xs.filter (fun x => !bad x)) ∧
      observe w' = put (observe w) a (some (ys, c)) := by
  obtain ⟨_, w', h1, ys, h2, h3, h4⟩ := removeFast_spec ht bad fuel [] xs w _ ⟨hw, rfl⟩ ha hf
  exact ⟨w', ys, h1, h3, by simpa using h2, h4⟩

/-- C168, insertion into an array in order: the position found by bisection is where the value belongs behind
equivalent ones, and it is the position returned. -/
theorem insertSorted_result {lt : α → α → Bool} (hlt : Weak lt) (hi : InOrder lt xs) (v : α) {fuel : Nat}
    (hf : xs.length < fuel) :
    ∃ w' i c', insertSorted cfg a lt v fuel w = .ok i w' ∧ Reached cfg w' ∧ i ≤ xs.length ∧
      StablySorted lt (xs ++ [v]) (xs.take i ++ v :: xs.drop i) ∧
      observe w' = put (observe w) a (some (xs.take i ++ v :: xs.drop i, c')) := by
  have hs : S cfg w (observe w) := ⟨hw, rfl⟩
  have key : Does (insertSorted cfg a lt v fuel) w fun i w' => i ≤ xs.length ∧
      StablySorted lt (xs ++ [v]) (xs.take i ++ v :: xs.drop i) ∧
      ∃ c', S cfg w' (put (observe w) a (some (xs.take i ++ v :: xs.drop i, c'))) := by
    unfold insertSorted
    refine Does.bind (hs.size ha (Does.bind ?_))
    refine (upperBound_spec hlt v hi fuel 0 xs.length hs ha (by omega) (by omega) (by omega) (by simp)
      (fun j h1 h2 => by omega)).mono ?_
    intro i w1 h0
    obtain ⟨e, h1, h2, h3⟩ := h0
    rw [e]
    have hst : StablySorted lt (xs ++ [v]) (xs.take i ++ v :: xs.drop i) := by
      have := split_stable hlt (P := xs.take i) (Q := xs.drop i) (v := v) (by simpa using hi)
        (fun p hp => by
          obtain ⟨k, hk, rfl⟩ := List.mem_iff_getElem.1 hp
          rw [List.getElem_take]
          exact h2 k _ (by simp at hk; omega))
        (fun q hq => by
          obtain ⟨k, hk, rfl⟩ := List.mem_iff_getElem.1 hq
          rw [List.getElem_drop]
          exact h3 _ _ (by omega))
      simpa using this
    refine (hs.call ht (A' := put (observe w) a (some (xs.take i ++ v :: xs.drop i, grown xs.length c))) (r := i)
      ?_).mono ?_
    · simp [specStep, Op.target, ha, member, argVal, ownArg, ownBehind, Nat.not_lt.mpr h1]
    · rintro _ w' ⟨rfl, h4⟩
      exact ⟨h1, hst, _, h4⟩
  obtain ⟨i, w', h1, h2, h3, c', h4, h5⟩ := key
  exact ⟨w', i, c', h1, h4, h2, h3, h5⟩

/-- C168, insertion sort in place sorts stably, in the same storage; nothing else changes. -/
theorem insertionSort_result {lt : α → α → Bool} (hlt : Weak lt) {fuel : Nat} (hf : xs.length < fuel) :
    ∃ w' ys, sortFrom cfg a lt fuel 0 w = .ok () w' ∧ Reached cfg w' ∧ StablySorted lt xs ys ∧
      observe w' = put (observe w) a (some (ys, c)) := by
  obtain ⟨_, w', h1, ys, h2, h3, h4⟩ := sortFrom_spec ht hlt xs fuel [] [] w _ ⟨hw, rfl⟩ ha hf
    (InOrder.stable List.Pairwise.nil)
  exact ⟨w', ys, h1, h3, h2, h4⟩

/-- C168, an array used with `push_back`, `back` and `pop_back` is a last-in first-out stack. -/
theorem stackRun_result (ops : List (Option α)) :
    ∃ vs w' ys c', stackRun cfg a ops w = .ok vs w' ∧ Reached cfg w' ∧ lifo ops xs = (vs, ys) ∧
      observe w' = put (observe w) a (some (ys, c')) := by
  obtain ⟨vs, w', h1, ys, c', h2, h3, h4⟩ := stackRun_spec ht ops xs c w _ ⟨hw, rfl⟩ ha
  exact ⟨vs, w', ys, c', h1, h3, h2, h4⟩

end Results

/-! ## Examples -/

/-- The contents of array `a` after a program. -/
def shown {β : Type} (r : Res (World Nat) β) (a : Nat) : Option (List Nat) :=
  match r with
  | .ok _ w => (observe w a).map Prod.fst
  | _ => none

/-- What a program returned. -/
def gave {β : Type} (r : Res (World Nat) β) : Option β :=
  match r with
  | .ok b _ => some b
  | _ => none

/-- A state with an array of six elements and one of two. -/
def sixOps : List (Op Nat) := [.ctorRange 0 [.val 31, .val 12, .val 35, .val 12, .val 2, .val 30], .ctorFill 1 2 7]

def six : World Nat :=
  match run natElem World.init sixOps with
  | .ok _ w => w
  | _ => World.init

theorem six_reached : Reached natElem six ∧ observe six 0 = some ([31, 12, 35, 12, 2, 30], 6) ∧
    observe six 1 = some ([7, 7], 2) := by
  obtain ⟨w, h1, h2⟩ := array_refines_sequence natElem rfl (ops := sixOps) (rs := [0, 0]) rfl
  have e : six = w := by unfold six; rw [h1]
  rw [e]
  exact ⟨⟨sixOps, _, okRun_of_spec natElem rfl (by intro hc; cases hc), h1⟩, by rw [h2]; rfl, by rw [h2]; rfl⟩

/-- The programs do something in this state. -/
example : shown (eraseIf natElem 0 (fun v => v < 13) 9 0 six) 0 = some [31, 35, 30] ∧
    shown (removeFast natElem 0 (fun v => v == 31) 9 0 six) 0 = some [30, 12, 35, 12, 2] ∧
    shown (sortFrom natElem 0 (fun v w => v / 10 < w / 10) 9 0 six) 0 = some [2, 12, 12, 31, 35, 30] ∧
    gave (insertSorted natElem 1 (fun v w => v < w) 7 9 six) = some 2 ∧
    gave (insertSorted natElem 1 (fun v w => v < w) 6 9 six) = some 0 ∧
    gave (stackRun natElem 1 [some 3, none, some 4, some 5, none, none, none] six) = some [3, 5, 4, 7] := by
  decide +kernel

end Verif.Arr
