import Verif.LinkedList.OpsB
import Verif.LinkedList.Mono
import Mathlib.Data.List.Perm.Subperm

/-! Every client operation does what `Spec` expects, in terms of the representation invariant. -/

set_option autoImplicit false

namespace Verif.LL

variable {α β ι : Type} {E : Env α} {s s' : St α} {L L' : Nat → Option (Els α)} {K : List Nat} {l m : Nat}

theorem put_eq {β : Type} (f : Nat → β) (i : Nat) (b : β) : put f i b = upd f i b := rfl

theorem values_put (I : Nat → Option (List (ι × α))) (l : Nat) (x : Option (List (ι × α))) :
    values (put I l x) = put (values I) l (x.map (·.map Prod.snd)) := by
  funext m; unfold values put; split <;> rfl

theorem values_of {I : Nat → Option (List (ι × α))} {l : Nat} {xs : List (ι × α)} (h : I l = some xs) :
    values I l = some (xs.map Prod.snd) := by
  unfold values; rw [h]; rfl

/-- The iterator-level expectations imply the value-level ones. -/
theorem afterIts_values {I I' : Nat → Option (List (ι × α))} {op : Op α} {σ' : Nat → Option (List α)}
    (h : afterIts I op I') (ha : after (values I) op = some σ') : values I' = σ' := by
  cases op <;> simp only [after, afterIts] at h ha
  case newEmpty l =>
    split at ha <;> cases ha
    subst h; simp [values_put]
  case newFill l n v =>
    split at ha <;> cases ha
    obtain ⟨ns, h1, rfl⟩ := h; simp [values_put, h1]
  case newRange l r =>
    obtain ⟨ns, h1, rfl⟩ := h
    rw [← h1] at ha
    simp only [Option.bind_some] at ha
    split at ha <;> cases ha
    simp [values_put]
  case newCopy l m =>
    obtain ⟨ns, ys, h1, h2, rfl⟩ := h
    simp only [values_of h1, Option.bind_some] at ha
    split at ha <;> cases ha
    simp [values_put, h2]
  case newMove l m =>
    obtain ⟨ys, h1, rfl⟩ := h
    simp only [values_of h1, Option.bind_some] at ha
    split at ha <;> cases ha
    simp [values_put]
  case destruct l =>
    subst h
    obtain ⟨xs, h1, h2⟩ := Option.bind_eq_some_iff.1 ha
    cases h2; simp [values_put]
  case copyAssign l m =>
    obtain ⟨xs, ys, zs, h1, h2, h3, -, rfl⟩ := h
    simp only [values_of h1, values_of h2, Option.bind_some] at ha
    cases ha; simp [values_put, h3]
  case moveAssign l m =>
    obtain ⟨ys, h1, rfl⟩ := h
    obtain ⟨xs, h2, h3⟩ := Option.bind_eq_some_iff.1 ha
    simp only [values_of h1, Option.bind_some] at h3
    split at h3 <;> cases h3
    simp [values_put]
  case assign l r =>
    obtain ⟨xs, vs, zs, h1, h2, h3, -, rfl⟩ := h
    rw [h2] at ha
    obtain ⟨xs', h4, h5⟩ := Option.bind_eq_some_iff.1 ha
    cases h5; simp [values_put, h3]
  case clear l =>
    subst h
    obtain ⟨xs', h4, h5⟩ := Option.bind_eq_some_iff.1 ha
    cases h5; simp [values_put]
  case pushFront l v =>
    obtain ⟨xs, p, h1, rfl⟩ := h
    simp only [values_of h1, Option.bind_some] at ha
    cases ha; simp [values_put]
  case popFront l =>
    obtain ⟨xs, h1, rfl⟩ := h
    simp only [values_of h1, Option.bind_some] at ha
    split at ha <;> cases ha; simp [values_put]
  case insertAfter l k v =>
    obtain ⟨xs, p, h1, rfl⟩ := h
    simp only [values_of h1, Option.bind_some] at ha
    split at ha <;> cases ha; simp [values_put, List.map_take, List.map_drop]
  case insertRange l k r =>
    obtain ⟨xs, ns, h1, h2, rfl⟩ := h
    rw [← h2] at ha
    have h1' : values I l = some (xs.map Prod.snd) := by simp [values, h1]
    rw [h1'] at ha
    simp only [Option.bind_some] at ha
    split at ha <;> cases ha
    simp [values_put, List.map_take, List.map_drop]
  case eraseAfter l k =>
    obtain ⟨xs, h1, rfl⟩ := h
    simp only [values_of h1, Option.bind_some] at ha
    split at ha <;> cases ha; simp [values_put, List.map_take, List.map_drop]
  case eraseRange l k j =>
    obtain ⟨xs, h1, rfl⟩ := h
    simp only [values_of h1, Option.bind_some] at ha
    split at ha <;> cases ha; simp [values_put, List.map_take, List.map_drop]
  case reverse l =>
    obtain ⟨xs, h1, rfl⟩ := h
    simp only [values_of h1, Option.bind_some] at ha
    cases ha; simp [values_put, List.map_reverse]

theorem values_some {I : Nat → Option (List (ι × α))} {l : Nat} {xs : List α} (h : values I l = some xs) :
    ∃ ys, I l = some ys ∧ ys.map Prod.snd = xs := by
  unfold values at h
  cases hi : I l with
  | none => rw [hi] at h; cases h
  | some ys => rw [hi] at h; exact ⟨ys, rfl, by simpa using h⟩

theorem values_none {I : Nat → Option (List (ι × α))} {l : Nat} (h : values I l = none) : I l = none := by
  unfold values at h
  cases hi : I l with
  | none => rfl
  | some ys => rw [hi] at h; cases h

/-! ### Positions and ranges -/

theorem advance_pos (h : Inv s L K) {xs : Els α} (hl : L l = some xs) {k : Nat} (hk : k ≤ xs.length) :
    advance k (beforeBegin l) s = .ok (posPtr l (xs.take k)) s := by
  have := advance_spec h (l := l) (pre := []) (mid := xs.take k) (post := xs.drop k) (by simpa using hl)
  simpa [beforeBegin, hk] using this

theorem advance_succ (k : Nat) (p : Ptr) (s : St α) :
    advance (k + 1) p s = (advance k p >>= next) s := by
  induction k generalizing p s with
  | zero =>
    show M.bind _ _ _ = M.bind _ _ _
    unfold M.bind
    cases h : next p s <;> simp [advance, pure, h]
  | succ k ih =>
    rw [advance]
    show M.bind _ _ _ = M.bind (M.bind _ _) _ _
    unfold M.bind
    cases h : next p s with
    | ok q s' => simp only; rw [ih]; rfl
    | _ => rfl

theorem advance_it (h : Inv s L K) {xs : Els α} (hl : L l = some xs) {k : Nat} (hk : k ≤ xs.length) :
    advance (k + 1) (beforeBegin l) s = .ok (ptr (xs.drop k) none) s := by
  rw [advance_succ]
  show M.bind _ _ _ = _
  unfold M.bind
  rw [advance_pos h hl hk]
  exact h.next_pos (l := l) (pre := xs.take k) (post := xs.drop k) (by simpa using hl)

/-- A client range inside a list. -/
theorem sub_split {xs : Els α} {i j : Nat} (hij : i ≤ j) :
    xs = xs.take i ++ ((xs.take j).drop i ++ xs.drop j) := by
  conv_lhs => rw [← List.take_append_drop j xs, ← List.take_append_drop i (xs.take j)]
  rw [List.take_take, Nat.min_eq_left hij, List.append_assoc]

theorem seg_sub (h : Inv s L K) {mid zs rest : Els α} (hl : L m = some (mid ++ (zs ++ rest))) :
    Seg s.nodes (ptr zs (ptr rest none)) zs (ptr rest none) ∧
      ∀ a ∈ ids zs, ptr rest none ≠ some (.node a) := by
  obtain ⟨p, h1, h2⟩ := h.seg _ _ hl
  obtain ⟨r, h3, h4⟩ := seg_append.1 h2
  obtain ⟨r', h5, h6⟩ := seg_append.1 h4
  have e := h6.ptr_eq
  subst e
  refine ⟨h5.ptr_eq ▸ h5, fun a ha e => ?_⟩
  have hn := h.nodup _ _ hl
  cases rest with
  | nil => cases e
  | cons x rest =>
    rw [ptr_cons] at e
    have e : x.1 = a := by simpa using e
    subst e
    simp only [ids_append, ids_cons] at hn
    exact (List.nodup_append.1 (List.nodup_append.1 hn).2.1).2.2 _ ha _ (by simp) rfl

/-- A client range is readable. -/
theorem range_read (h : Inv s L K) {r : Src α} {vs : List α} (hr : r.read (values L) = some vs) :
    ∃ rg, r.range s = .ok rg s ∧
      ((r = .vals vs ∧ rg = .ext vs) ∨
       ∃ m i j xs, r = .sub m i j ∧ L m = some xs ∧ i ≤ j ∧ j ≤ xs.length ∧ vs = vals ((xs.take j).drop i) ∧
        xs = xs.take i ++ ((xs.take j).drop i ++ xs.drop j) ∧
        rg = .nodes (ptr ((xs.take j).drop i) (ptr (xs.drop j) none)) (ptr (xs.drop j) none)) := by
  cases r with
  | vals xs => cases hr; exact ⟨.ext vs, rfl, .inl ⟨rfl, rfl⟩⟩
  | sub m i j =>
    obtain ⟨ys, h1, h2⟩ := Option.bind_eq_some_iff.1 hr
    obtain ⟨xs, hx, rfl⟩ := values_some h1
    simp only [List.length_map] at h2
    split at h2
    case isFalse => cases h2
    rename_i hij
    cases h2
    have hs := sub_split (xs := xs) hij.1
    refine ⟨_, ?_, .inr ⟨m, i, j, xs, rfl, hx, hij.1, hij.2, ?_, hs, rfl⟩⟩
    · show M.bind _ _ _ = _
      unfold M.bind
      rw [advance_it h hx (Nat.le_trans hij.1 hij.2)]
      show M.bind _ _ _ = _
      unfold M.bind
      rw [advance_it h hx hij.2]
      show Res.ok _ _ = _
      congr 2
      have : xs.drop i = (xs.take j).drop i ++ xs.drop j := by
        conv_lhs => rw [hs]
        rw [List.drop_left' (by simp; omega)]
      rw [this]
      cases (xs.take j).drop i <;> rfl
    · simp [vals, List.map_drop, List.map_take]

/-- The same, forgetting how. -/
theorem range_readable (h : Inv s L K) {r : Src α} {vs : List α} (hr : r.read (values L) = some vs) :
    ∃ rg F, r.range s = .ok rg s ∧ Readable s.nodes rg vs F ∧ (∀ a ∈ F, s.nodes a ≠ none) ∧
      ∀ l k xs, L l = some xs → r.avoids l k → k ≤ xs.length →
        ∀ a ∈ F, posPtr l (xs.take k) ≠ some (.node a) := by
  obtain ⟨rg, h1, ⟨rfl, rfl⟩ | ⟨m, i, j, xs, rfl, hx, hij, hj, rfl, hs, rfl⟩⟩ := range_read h hr
  · exact ⟨_, [], h1, .ext _, by simp, by simp⟩
  · obtain ⟨h2, h3⟩ := seg_sub (m := m) (mid := xs.take i) h (by rw [← hs]; exact hx)
    have sub : ∀ a ∈ ids ((xs.take j).drop i), a ∈ ids xs := by
      intro a ha; rw [hs]; simp only [ids_append]; simp [ha]
    refine ⟨_, _, h1, .nodes h2 h3, fun a ha => h.live hx a (sub a ha), ?_⟩
    intro l k ys hl hk hky a ha e
    rcases posPtr_cases l (ys.take k) with ⟨-, e'⟩ | ⟨zs, y, hz, e'⟩
    · rw [e'] at e; cases e
    · rw [e'] at e
      have e : y.1 = a := by simpa using e
      subst e
      have hy : y.1 ∈ ids ys := by
        rw [← List.take_append_drop k ys, hz]; simp [ids]
      by_cases hlm : l = m
      · subst hlm
        rw [hx] at hl; cases hl
        have hk0 : 0 < k := by
          rcases Nat.eq_zero_or_pos k with rfl | h0
          · simp at hz
          · exact h0
        -- the index of `y`
        have hyk : (ids xs)[k - 1]? = some y.1 := by
          have : (ids xs).take k = ids zs ++ [y.1] := by
            have := congrArg ids hz; simpa [ids, List.map_take] using this
          have hlen : zs.length = k - 1 := by
            have := congrArg List.length hz
            simp at this; omega
          have h4 : ((ids xs).take k)[k - 1]? = some y.1 := by
            rw [this, ← hlen, ← ids_length zs]; simp
          rw [List.getElem?_take_of_lt (by omega)] at h4
          exact h4
        obtain ⟨n, hn⟩ := List.getElem?_of_mem ha
        have hn' : n < j - i := by
          have := (List.getElem?_eq_some_iff.1 hn).1
          simp at this; omega
        have hn2 : (ids xs)[i + n]? = some y.1 := by
          have e : ids ((xs.take j).drop i) = ((ids xs).take j).drop i := by
            simp [ids, List.map_drop, List.map_take]
          rw [e, List.getElem?_drop, List.getElem?_take_of_lt (by omega)] at hn
          exact hn
        have := (List.getElem?_inj (i := k - 1) (j := i + n) (by simp; omega) (h.nodup _ _ hx)).1 (by rw [hyk, hn2])
        exact hk ⟨rfl, by omega, by omega⟩
      · exact h.disj l m ys xs hlm hl hx _ hy (sub _ ha)

/-! ### One operation -/

/-- The conclusion of the step lemma. -/
def StepOk (E : Env α) (s : St α) (L : Nat → Option (Els α)) (K : List Nat) (op : Op α) : Prop :=
  ∃ N, ∀ fuel, N ≤ fuel → wp (exec E fuel op) s (fun _ s' => ∃ L', Inv s' L' K ∧ afterIts L op L')
    (fun s' => ∃ L' K', Inv s' L' K' ∧ afterThrow (values L) op (values L') ∧ afterThrowIts L op L' ∧
      (op.isNew = false → K' = K))

theorem wp_eq_bind {f : M α β} {γ : Type} {g : β → M α γ} {s s' : St α} {b : β} (h : f s = .ok b s')
    {Q : γ → St α → Prop} {T : St α → Prop} (k : wp (g b) s' Q T) : wp (f >>= g) s Q T := by
  rw [wp_bind, wp_of_eq h]; exact k

theorem values_drop_new {l : Nat} (hl : L l = none) (x : Option (Els α)) :
    values (upd (upd L l x) l none) = values L := by
  rw [upd_upd, upd_self _ _ hl]

/-- A constructor that threw. -/
theorem dropped (hl : L l = none) {xs : Els α} (h : Inv s (upd L l (some xs)) K) :
    ∃ K', Inv { s with heads := upd s.heads l none } L K' := by
  have := h.drop (l := l) (upd_same _ _ _)
  rw [upd_upd, upd_self _ _ hl] at this
  exact ⟨_, this⟩

theorem step (E : Env α) (h : Inv s L K) {op : Op α} {σ' : Nat → Option (List α)}
    (ha : after (values L) op = some σ') : StepOk E s L K op := by
  cases op <;> simp only [after] at ha <;> unfold StepOk <;> simp only [exec]
  case newEmpty l =>
    split at ha
    case isFalse => cases ha
    rename_i hl
    refine ⟨0, fun fuel _ => ?_⟩
    refine construct_spec h (values_none hl) fun s1 _ h1 => ?_
    exact ⟨_, h1, rfl⟩
  case newFill l n v =>
    split at ha
    case isFalse => cases ha
    rename_i hl
    have hl := values_none hl
    refine ⟨0, fun fuel _ => ?_⟩
    refine construct_spec h hl fun s1 _ h1 => ?_
    refine fillLoop_spec (l := l) (xs := []) h1 (upd_same _ _ _) v n ?_ ?_
    · intro ns s2 e h2
      rw [upd_upd] at h2
      exact ⟨_, h2, ns, e, rfl⟩
    · intro ns s2 _ h2
      rw [upd_upd] at h2
      obtain ⟨K', h3⟩ := dropped hl h2
      exact ⟨L, K', h3, rfl, rfl, by simp [Op.isNew]⟩
  case newRange l r =>
    obtain ⟨vs, hr, ha⟩ := Option.bind_eq_some_iff.1 ha
    split at ha
    case isFalse => cases ha
    rename_i hl
    have hl := values_none hl
    refine ⟨vs.length + 1, fun fuel hf => ?_⟩
    obtain ⟨rg, F, h1, h2, h3, -⟩ := range_readable h hr
    refine wp_eq_bind h1 (construct_spec h hl fun s1 e1 h4 => ?_)
    refine initLoop_spec (l := l) (xs := []) (F := F) h4 (upd_same _ _ _) (by rw [e1]; exact h2) (by simp)
      (by rw [e1]; exact h3) (by omega) ?_ ?_
    · intro ns s2 e h2
      rw [upd_upd] at h2
      exact ⟨_, h2, ns, by rw [hr, ← e]; rfl, rfl⟩
    · intro ns s2 _ _ _ h2
      rw [upd_upd] at h2
      obtain ⟨K', h3⟩ := dropped hl h2
      exact ⟨L, K', h3, rfl, rfl, by simp [Op.isNew]⟩
  case newCopy l m =>
    obtain ⟨ys', hmv, ha⟩ := Option.bind_eq_some_iff.1 ha
    obtain ⟨ys, hm, rfl⟩ := values_some hmv
    split at ha
    case isFalse => cases ha
    rename_i hl
    have hl := values_none hl
    have hlm : m ≠ l := by rintro rfl; rw [hl] at hm; cases hm
    refine ⟨ys.length + 1, fun fuel hf => ?_⟩
    refine construct_spec h hl fun s1 e1 h4 => ?_
    have hm' : upd L l (some []) m = some ys := by rw [upd_other _ _ hlm]; exact hm
    obtain ⟨p, hp1, hp2⟩ := h4.seg m ys hm'
    refine wp_eq_bind (h4.next_head hm') ?_
    have e := hp2.ptr_eq
    refine initLoop_spec (l := l) (xs := []) (F := ids ys) (vs := vals ys) h4 (upd_same _ _ _)
      (.nodes (e ▸ hp2) (by simp [«end»])) (by simp) (h4.live hm') (by simp; omega) ?_ ?_
    · intro ns s2 e h2
      rw [upd_upd] at h2
      exact ⟨_, h2, ns, ys, hm, e, rfl⟩
    · intro ns s2 _ _ _ h2
      rw [upd_upd] at h2
      obtain ⟨K', h3⟩ := dropped hl h2
      exact ⟨L, K', h3, rfl, rfl, by simp [Op.isNew]⟩
  case newMove l m =>
    obtain ⟨ys', hmv, ha⟩ := Option.bind_eq_some_iff.1 ha
    obtain ⟨ys, hm, rfl⟩ := values_some hmv
    split at ha
    case isFalse => cases ha
    rename_i hl
    exact ⟨0, fun fuel _ => newMove_spec h (values_none hl) hm fun s1 _ h1 => ⟨_, h1, ys, hm, rfl⟩⟩
  case destruct l =>
    obtain ⟨xs', hlv, ha⟩ := Option.bind_eq_some_iff.1 ha
    obtain ⟨xs, hl, rfl⟩ := values_some hlv
    exact ⟨xs.length + 1, fun fuel hf => destruct_spec h hl (by omega) fun s1 h1 => ⟨_, h1, rfl⟩⟩
  case copyAssign l m =>
    obtain ⟨xs', hlv, ha⟩ := Option.bind_eq_some_iff.1 ha
    obtain ⟨xs, hl, rfl⟩ := values_some hlv
    obtain ⟨ys', hmv, ha⟩ := Option.bind_eq_some_iff.1 ha
    obtain ⟨ys, hm, rfl⟩ := values_some hmv
    refine ⟨xs.length + ys.length + 1, fun fuel hf => ?_⟩
    refine wp_eq_bind (h.next_head hm) ?_
    by_cases hlm : l = m
    · subst hlm
      rw [hl] at hm; cases hm
      refine assign_own (mid := []) (zs := xs) (rest := []) h (by simpa using hl) (by simp; omega) ?_ ?_
      · intro xs' s1 e1 e2 h1
        refine ⟨_, h1, xs, xs, xs', hl, hl, e1, ?_, rfl⟩
        have e2 : ids xs' = ids xs := by
          rw [e2]; simp [List.take_of_length_le]
        show (ids xs').take _ = (ids xs).take _
        rw [e2]
      · intro n xs' s1 hn e1 h1
        refine ⟨_, K, h1, ⟨vals xs, vals xs, n, values_of hl, values_of hl, by simpa using hn, ?_⟩, trivial, fun _ => rfl⟩
        rw [← put_eq, values_put]
        simp only [List.nil_append, List.append_nil] at e1
        simp only [Option.map_some]; rw [← e1]; rfl
    · obtain ⟨p, hp1, hp2⟩ := h.seg m ys hm
      have e := hp2.ptr_eq
      refine assign_spec (F := ids ys) (vs := vals ys) h hl (.nodes (e ▸ hp2) (by simp [«end»]))
        (fun a ha => ⟨h.disj m l ys xs (Ne.symm hlm) hm hl a ha, h.live hm a ha⟩) (by simp; omega) (by omega) ?_ ?_
      · intro xs' s1 e1 e2 h1
        refine ⟨_, h1, xs, ys, xs', hl, hm, e1, ?_, rfl⟩
        rw [vals_length] at e2; exact e2
      · intro n xs' s1 hn e1 h1
        refine ⟨_, K, h1, ⟨vals xs, vals ys, n, values_of hl, values_of hm, hn, ?_⟩, trivial, fun _ => rfl⟩
        rw [← put_eq, values_put]
        simp only [Option.map_some]; rw [← e1]; rfl
  case moveAssign l m =>
    obtain ⟨xs', hlv, ha⟩ := Option.bind_eq_some_iff.1 ha
    obtain ⟨xs, hl, rfl⟩ := values_some hlv
    obtain ⟨ys', hmv, ha⟩ := Option.bind_eq_some_iff.1 ha
    obtain ⟨ys, hm, rfl⟩ := values_some hmv
    split at ha
    case isFalse => cases ha
    rename_i hlm
    exact ⟨xs.length + 1, fun fuel hf => moveAssign_spec h hlm hl hm (by omega) fun s1 h1 => ⟨_, h1, ys, hm, rfl⟩⟩
  case assign l r =>
    obtain ⟨xs', hlv, ha⟩ := Option.bind_eq_some_iff.1 ha
    obtain ⟨xs, hl, rfl⟩ := values_some hlv
    obtain ⟨vs, hr, ha⟩ := Option.bind_eq_some_iff.1 ha
    have thr : ∀ n xs' s1, n < vs.length → vals xs' = vs.take n ++ (vals xs).drop n →
        Inv s1 (upd L l (some xs')) K → ∃ L' K', Inv s1 L' K' ∧
          afterThrow (values L) (.assign l r) (values L') ∧
          afterThrowIts L (.assign l r) L' ∧ ((Op.assign l r).isNew = false → K' = K) := by
      intro n xs' s1 hn e1 h1
      refine ⟨_, K, h1, ⟨vals xs, vs, n, values_of hl, hr, hn, ?_⟩, trivial, fun _ => rfl⟩
      rw [← put_eq, values_put]
      simp only [Option.map_some]; rw [← e1]; rfl
    refine ⟨xs.length + vs.length + 1, fun fuel hf => ?_⟩
    obtain ⟨rg, h1, ⟨rfl, rfl⟩ | ⟨m, i, j, ys, rfl, hy, hij, hj, e, hs, rfl⟩⟩ := range_read h hr
    · refine wp_eq_bind h1 (assign_spec (F := []) (vs := vs) h hl (.ext vs) (by simp) (by omega) (by omega) ?_ thr)
      intro xs' s1 e1 e2 h1
      exact ⟨_, h1, xs, vs, xs', hl, rfl, e1, e2, rfl⟩
    · by_cases hlm : l = m
      · subst hlm
        rw [hl] at hy; cases hy
        refine wp_eq_bind h1 (assign_own h (by rw [← hs]; exact hl) (by rw [← hs]; omega) ?_ ?_)
        · intro xs' s1 e1 e2 h1
          refine ⟨_, h1, xs, vs, xs', hl, hr, e1.trans e.symm, ?_, rfl⟩
          rw [← hs] at e2
          show (ids xs').take _ = (ids xs).take _
          have : vs.length = ((xs.take j).drop i).length := by rw [e, vals_length]
          rw [e2, this, List.take_take, Nat.min_eq_right]
          simp; omega
        · intro n xs' s1 hn e1 h1
          rw [← hs, ← e] at e1
          exact thr n xs' s1 (by rw [e, vals_length]; exact hn) e1 h1
      · obtain ⟨h2, h3⟩ := seg_sub (m := m) (mid := ys.take i) h (by rw [← hs]; exact hy)
        have sub : ∀ a ∈ ids ((ys.take j).drop i), a ∈ ids ys := by
          intro a ha; rw [hs]; simp only [ids_append]; simp [ha]
        refine wp_eq_bind h1 (assign_spec (vs := vs) h hl (e ▸ .nodes h2 h3)
          (fun a ha => ⟨h.disj m l ys xs (Ne.symm hlm) hy hl a (sub a ha), h.live hy a (sub a ha)⟩)
          (by omega) (by omega) ?_ thr)
        intro xs' s1 e1 e2 h1
        exact ⟨_, h1, xs, vs, xs', hl, hr, e1, e2, rfl⟩
  case clear l =>
    obtain ⟨xs', hlv, ha⟩ := Option.bind_eq_some_iff.1 ha
    obtain ⟨xs, hl, rfl⟩ := values_some hlv
    exact ⟨xs.length + 1, fun fuel hf => clear_spec h hl (by omega) fun s1 h1 => ⟨_, h1, rfl⟩⟩
  case pushFront l v =>
    obtain ⟨xs', hlv, ha⟩ := Option.bind_eq_some_iff.1 ha
    obtain ⟨xs, hl, rfl⟩ := values_some hlv
    refine ⟨0, fun fuel _ => ?_⟩
    rw [wp_bind]
    refine emplaceAfter_spec (pre := []) (post := xs) h hl v ?_ ?_
    · intro a s1 _ _ h1
      exact ⟨_, h1, xs, a, hl, rfl⟩
    · intro s1 _ h1
      exact ⟨L, K, h1, rfl, rfl, fun _ => rfl⟩
  case popFront l =>
    obtain ⟨xs', hlv, ha⟩ := Option.bind_eq_some_iff.1 ha
    obtain ⟨xs, hl, rfl⟩ := values_some hlv
    split at ha
    case isFalse => cases ha
    rename_i hx
    cases xs with
    | nil => simp at hx
    | cons x xs =>
      exact ⟨0, fun fuel _ => eraseAfter_spec (pre := []) h hl fun s1 h1 => ⟨_, h1, x :: xs, hl, rfl⟩⟩
  case insertAfter l k v =>
    obtain ⟨xs', hlv, ha⟩ := Option.bind_eq_some_iff.1 ha
    obtain ⟨xs, hl, rfl⟩ := values_some hlv
    split at ha
    case isFalse => cases ha
    rename_i hk
    rw [List.length_map] at hk
    refine ⟨0, fun fuel _ => wp_eq_bind (advance_pos h hl hk) ?_⟩
    rw [wp_bind]
    refine emplaceAfter_spec (pre := xs.take k) (post := xs.drop k) h (by simpa using hl) v ?_ ?_
    · intro a s1 _ _ h1
      exact ⟨_, h1, xs, a, hl, rfl⟩
    · intro s1 _ h1
      exact ⟨L, K, h1, rfl, rfl, fun _ => rfl⟩
  case insertRange l k r =>
    obtain ⟨xs', hlv, ha⟩ := Option.bind_eq_some_iff.1 ha
    obtain ⟨xs, hl, rfl⟩ := values_some hlv
    obtain ⟨vs, hr, ha⟩ := Option.bind_eq_some_iff.1 ha
    split at ha
    case isFalse => cases ha
    rename_i hk
    rw [List.length_map] at hk
    obtain ⟨rg, F, h1, h2, h3, h4⟩ := range_readable h hr
    refine ⟨vs.length + 1, fun fuel hf => wp_eq_bind (advance_pos h hl hk.1) (wp_eq_bind h1 ?_)⟩
    rw [wp_bind]
    refine insertRange_spec (pre := xs.take k) (post := xs.drop k) h (by simpa using hl) h2
      (h4 l k xs hl hk.2 hk.1) h3 (by omega) ?_ ?_
    · intro ns s1 e _ h5
      exact ⟨_, h5, xs, ns, hl, by rw [hr, ← e]; rfl, rfl⟩
    · intro ns s1 w ws e _ h5
      refine ⟨_, K, h5, ⟨vals xs, vs, ns.length, values_of hl, hr, by rw [← e]; simp, ?_⟩,
        ⟨xs, ns, hl, rfl⟩, fun _ => rfl⟩
      rw [← put_eq, values_put, ← e]
      congr 1
      rw [← vals_length ns]
      simp [vals, List.map_take, List.map_drop]
  case eraseAfter l k =>
    obtain ⟨xs', hlv, ha⟩ := Option.bind_eq_some_iff.1 ha
    obtain ⟨xs, hl, rfl⟩ := values_some hlv
    split at ha
    case isFalse => cases ha
    rename_i hk
    rw [List.length_map] at hk
    refine ⟨0, fun fuel _ => wp_eq_bind (advance_pos h hl (by omega)) ?_⟩
    refine eraseAfter_spec (pre := xs.take k) (x := xs[k]) (post := xs.drop (k + 1)) h ?_ fun s1 h1 =>
      ⟨_, h1, xs, hl, rfl⟩
    rw [hl, ← List.drop_eq_getElem_cons hk, List.take_append_drop]
  case eraseRange l k j =>
    obtain ⟨xs', hlv, ha⟩ := Option.bind_eq_some_iff.1 ha
    obtain ⟨xs, hl, rfl⟩ := values_some hlv
    split at ha
    case isFalse => cases ha
    rename_i hk
    rw [List.length_map] at hk
    refine ⟨xs.length + 1, fun fuel hf => wp_eq_bind (advance_pos h hl (by omega))
      (wp_eq_bind (advance_it h hl hk.2) ?_)⟩
    refine eraseAfterRange_spec (pre := xs.take k) (mid := (xs.take j).drop k) (post := xs.drop j) h ?_ ?_
      fun s1 h1 => ⟨_, h1, xs, hl, rfl⟩
    · rw [← sub_split hk.1]; exact hl
    · simp; omega
  case reverse l =>
    obtain ⟨xs', hlv, ha⟩ := Option.bind_eq_some_iff.1 ha
    obtain ⟨xs, hl, rfl⟩ := values_some hlv
    exact ⟨xs.length + 1, fun fuel hf => reverse_spec h hl (by omega) fun s1 _ h1 => ⟨_, h1, xs, hl, rfl⟩⟩

/-! ### What is seen -/

/-- The iterators of the lists `L`. -/
def itsOf (L : Nat → Option (Els α)) : Nat → Option (List (Ptr × α)) := fun l => (L l).map its

theorem Inv.shows (h : Inv s L K) {xs : Els α} (hl : L l = some xs) : Shows s l (its xs) :=
  ⟨xs.length + 1, fun _ hf => h.walk hl (by omega)⟩

theorem Shows.unique {xs ys : List (Ptr × α)} (h1 : Shows s l xs) (h2 : Shows s l ys) : xs = ys := by
  obtain ⟨n, h1⟩ := h1
  obtain ⟨k, h2⟩ := h2
  have := (h1 (max n k) (by omega)).symm.trans (h2 (max n k) (by omega))
  cases this; rfl

theorem its_vals (xs : Els α) : (its xs).map Prod.snd = vals xs := by
  simp [its, vals]

theorem Inv.seesIts (h : Inv s L K) : SeesIts s (itsOf L) := by
  intro l
  unfold itsOf
  cases hl : L l with
  | none => exact h.absent l hl
  | some xs => exact h.shows hl

theorem shows_head {xs : List (Ptr × α)} (h : Shows s l xs) : s.heads l ≠ none := by
  obtain ⟨n, h⟩ := h
  intro e
  have := h n (Nat.le_refl _)
  have e1 : next (beforeBegin l) s = .ub := by unfold next beforeBegin; simp only [e]
  unfold iterate begin at this
  have e2 : (next (beforeBegin l) >>= walk n) s = .ub := by
    show M.bind _ _ _ = _
    unfold M.bind; rw [e1]
  rw [e2] at this; cases this

theorem SeesIts.unique {I J : Nat → Option (List (Ptr × α))} (h1 : SeesIts s I) (h2 : SeesIts s J) : I = J := by
  funext l
  have a := h1 l
  have b := h2 l
  cases hi : I l with
  | none =>
    rw [hi] at a
    cases hj : J l with
    | none => rfl
    | some ys => rw [hj] at b; exact absurd a (shows_head b)
  | some xs =>
    rw [hi] at a
    cases hj : J l with
    | none => rw [hj] at b; exact absurd b (shows_head a)
    | some ys => rw [hj] at b; rw [a.unique b]

theorem SeesIts.sees {I : Nat → Option (List (Ptr × α))} (h : SeesIts s I) : Sees s (values I) := by
  intro l
  have := h l
  unfold values
  cases hi : I l with
  | none => rw [hi] at this; exact this
  | some xs => rw [hi] at this; exact ⟨xs, this, rfl⟩

theorem Sees.unique {σ τ : Nat → Option (List α)} (h1 : Sees s σ) (h2 : Sees s τ) : σ = τ := by
  funext l
  have a := h1 l
  have b := h2 l
  cases hi : σ l with
  | none =>
    rw [hi] at a
    cases hj : τ l with
    | none => rfl
    | some ys => rw [hj] at b; obtain ⟨_, b, _⟩ := b; exact absurd a (shows_head b)
  | some xs =>
    rw [hi] at a
    obtain ⟨p, a, rfl⟩ := a
    cases hj : τ l with
    | none => rw [hj] at b; exact absurd b (shows_head a)
    | some ys => rw [hj] at b; obtain ⟨q, b, rfl⟩ := b; rw [a.unique b]

theorem values_itsOf (L : Nat → Option (Els α)) : values (itsOf L) = values L := by
  funext l; unfold values itsOf
  cases L l with
  | none => rfl
  | some xs => simp [its]

theorem Inv.sees (h : Inv s L K) : Sees s (values L) := values_itsOf L ▸ h.seesIts.sees

theorem Inv.distinct (h : Inv s L K) : Distinct (itsOf L) := by
  have get : ∀ l xs, itsOf L l = some xs → ∃ ys, L l = some ys ∧
      xs.map Prod.fst = (ids ys).map (fun a => some (Loc.node a)) := by
    intro l xs hx
    obtain ⟨ys, hy, rfl⟩ := Option.map_eq_some_iff.1 hx
    exact ⟨ys, hy, by simp [its, ids]⟩
  have inj : Function.Injective fun a => some (Loc.node a) := by
    intro a b e; simpa using e
  constructor
  · intro l xs hx
    obtain ⟨ys, hy, e⟩ := get l xs hx
    rw [e]
    exact (h.nodup l ys hy).map inj
  · intro l m xs ys hlm hx hy p hp hp'
    obtain ⟨xs', hx', e⟩ := get l xs hx
    obtain ⟨ys', hy', e'⟩ := get m ys hy
    rw [e] at hp; rw [e'] at hp'
    obtain ⟨a, ha, rfl⟩ := List.mem_map.1 hp
    obtain ⟨b, hb, e2⟩ := List.mem_map.1 hp'
    have := inj e2
    subst this
    exact h.disj l m xs' ys' hlm hx' hy' b ha hb

theorem itsOf_put (L : Nat → Option (Els α)) (l : Nat) (x : Option (Els α)) :
    itsOf (put L l x) = put (itsOf L) l (x.map its) := by
  funext m; unfold itsOf put; split <;> rfl

theorem itsOf_of {xs : Els α} (h : L l = some xs) : itsOf L l = some (its xs) := by
  unfold itsOf; rw [h]; rfl

theorem its_fst (xs : Els α) : (its xs).map Prod.fst = (ids xs).map (fun a => some (Loc.node a)) := by
  simp [its, ids]

theorem afterIts_itsOf {op : Op α} (h : afterIts L op L') : afterIts (itsOf L) op (itsOf L') := by
  cases op <;> simp only [afterIts, values_itsOf] at h ⊢
  case newEmpty l => subst h; exact itsOf_put ..
  case newFill l n v => obtain ⟨ns, h1, rfl⟩ := h; exact ⟨its ns, by rw [its_vals]; exact h1, itsOf_put ..⟩
  case newRange l r => obtain ⟨ns, h1, rfl⟩ := h; exact ⟨its ns, by rw [its_vals]; exact h1, itsOf_put ..⟩
  case newCopy l m =>
    obtain ⟨ns, ys, h0, h1, rfl⟩ := h
    exact ⟨its ns, its ys, itsOf_of h0, by rw [its_vals, its_vals]; exact h1, itsOf_put ..⟩
  case newMove l m =>
    obtain ⟨ys, h0, rfl⟩ := h
    exact ⟨its ys, itsOf_of h0, by rw [itsOf_put, itsOf_put]; rfl⟩
  case destruct l => subst h; exact itsOf_put ..
  case copyAssign l m =>
    obtain ⟨xs, ys, zs, h0, h1, h2, h3, rfl⟩ := h
    refine ⟨its xs, its ys, its zs, itsOf_of h0, itsOf_of h1, by rw [its_vals, its_vals]; exact h2, ?_, itsOf_put ..⟩
    have h3 : (ids zs).take xs.length = (ids xs).take ys.length := h3
    rw [its_fst, its_fst, ← List.map_take, ← List.map_take]
    simp only [its, List.length_map]
    rw [h3]
  case moveAssign l m =>
    obtain ⟨ys, h0, rfl⟩ := h
    exact ⟨its ys, itsOf_of h0, by rw [itsOf_put, itsOf_put]; rfl⟩
  case assign l r =>
    obtain ⟨xs, vs, zs, h0, h1, h2, h3, rfl⟩ := h
    refine ⟨its xs, vs, its zs, itsOf_of h0, h1, by rw [its_vals]; exact h2, ?_, itsOf_put ..⟩
    have h3 : (ids zs).take xs.length = (ids xs).take vs.length := h3
    rw [its_fst, its_fst, ← List.map_take, ← List.map_take]
    simp only [its, List.length_map]
    rw [h3]
  case clear l => subst h; exact itsOf_put ..
  case pushFront l v =>
    obtain ⟨xs, p, h0, rfl⟩ := h
    exact ⟨its xs, _, itsOf_of h0, itsOf_put ..⟩
  case popFront l =>
    obtain ⟨xs, h0, rfl⟩ := h
    exact ⟨its xs, itsOf_of h0, by rw [itsOf_put]; simp [its]⟩
  case insertAfter l k v =>
    obtain ⟨xs, p, h0, rfl⟩ := h
    exact ⟨its xs, some (.node p), itsOf_of h0, by rw [itsOf_put]; simp [its, List.map_take, List.map_drop]⟩
  case insertRange l k r =>
    obtain ⟨xs, ns, h0, h1, rfl⟩ := h
    exact ⟨its xs, its ns, itsOf_of h0, by rw [its_vals]; exact h1,
      by rw [itsOf_put]; simp [its, List.map_take, List.map_drop]⟩
  case eraseAfter l k =>
    obtain ⟨xs, h0, rfl⟩ := h
    exact ⟨its xs, itsOf_of h0, by rw [itsOf_put]; simp [its, List.map_take, List.map_drop]⟩
  case eraseRange l k j =>
    obtain ⟨xs, h0, rfl⟩ := h
    exact ⟨its xs, itsOf_of h0, by rw [itsOf_put]; simp [its, List.map_take, List.map_drop]⟩
  case reverse l =>
    obtain ⟨xs, h0, rfl⟩ := h
    exact ⟨its xs, itsOf_of h0, by rw [itsOf_put]; simp [its, List.map_reverse]⟩

theorem afterThrowIts_itsOf {op : Op α} (h : afterThrowIts L op L') : afterThrowIts (itsOf L) op (itsOf L') := by
  cases op <;> simp only [afterThrowIts] at h ⊢ <;> try (subst h; rfl)
  obtain ⟨xs, ns, h0, rfl⟩ := h
  exact ⟨its xs, its ns, itsOf_of h0, by rw [itsOf_put]; simp [its, List.map_take, List.map_drop]⟩

/-! ### Results of operations -/

theorem Runs.unique {op : Op α} {r r' : Res (St α) Unit} (h1 : Runs E op s r) (h2 : Runs E op s r') : r = r' := by
  obtain ⟨n, h1⟩ := h1
  obtain ⟨k, h2⟩ := h2
  exact (h1 (max n k) (by omega)).symm.trans (h2 (max n k) (by omega))

theorem runs_of {op : Op α} {fuel : Nat} {r : Res (St α) Unit} (h : exec E fuel op s = r) (hr : r ≠ .hang) :
    Runs E op s r := by
  refine ⟨fuel, fun f hf => ?_⟩
  have := (exec_mono E op).le hf (s := s) (by show exec E fuel op s ≠ _; rw [h]; exact hr)
  exact this.trans h

/-- Total correctness in terms of `Runs`. -/
theorem runs_wp {op : Op α} {Q : St α → Prop} {T : St α → Prop}
    (h : ∃ N, ∀ fuel, N ≤ fuel → wp (exec E fuel op) s (fun _ s' => Q s') T) :
    (∃ s', Runs E op s (.ok () s') ∧ Q s') ∨ ∃ s', Runs E op s (.thrown s') ∧ T s' := by
  obtain ⟨N, h⟩ := h
  have h := h N (Nat.le_refl _)
  unfold wp at h
  cases hx : exec E N op s with
  | ok b s' => rw [hx] at h; exact .inl ⟨s', runs_of hx (by simp), h⟩
  | thrown s' => rw [hx] at h; exact .inr ⟨s', runs_of hx (by simp), h⟩
  | ub => rw [hx] at h; exact absurd h id
  | hang => rw [hx] at h; exact absurd h id

theorem runs_good {op : Op α} {r : Res (St α) Unit} (h : Runs E op s r) : GoodRes s r := by
  obtain ⟨n, h⟩ := h
  rw [← h n (Nat.le_refl _)]; exact exec_good E n op s

theorem step_runs (E : Env α) (h : Inv s L K) {op : Op α} {σ' : Nat → Option (List α)}
    (ha : after (values L) op = some σ') :
    (∃ s', Runs E op s (.ok () s') ∧ ∃ L', Inv s' L' K ∧ afterIts L op L') ∨
    ∃ s', Runs E op s (.thrown s') ∧ ∃ L' K', Inv s' L' K' ∧ afterThrow (values L) op (values L') ∧
      afterThrowIts L op L' ∧ (op.isNew = false → K' = K) :=
  runs_wp (step E h ha)

theorem inv_init : Inv (init : St α) (fun _ => none) [] := by
  constructor <;> simp [init]

theorem ledger_init : Ledger (init : St α) := by
  intro a; simp [init, holds]

theorem reach_inv {h : List (Op α × Outcome)} (hr : Reach E h s) :
    ∃ L K, Inv s L K ∧ Ledger s ∧ (NewsDone h → K = []) := by
  induction hr with
  | init => exact ⟨_, _, inv_init, ledger_init, fun _ => rfl⟩
  | @done h s σ op σ' s' _ hs ha hx ih =>
    obtain ⟨L, K, h1, h2, h3⟩ := ih
    have := h1.sees.unique hs
    subst this
    have hg := runs_good hx
    rcases step_runs E h1 ha with ⟨s2, hx2, L', h4, -⟩ | ⟨s2, hx2, -⟩
    · have := hx.unique hx2
      cases this
      exact ⟨L', K, h4, hg.2 h2, fun hn => h3 fun e he => hn e (List.mem_cons_of_mem _ he)⟩
    · have := hx.unique hx2
      cases this
  | @threw h s σ op σ' s' _ hs ha hx ih =>
    obtain ⟨L, K, h1, h2, h3⟩ := ih
    have := h1.sees.unique hs
    subst this
    have hg := runs_good hx
    rcases step_runs E h1 ha with ⟨s2, hx2, -⟩ | ⟨s2, hx2, L', K', h4, -, -, h5⟩
    · have := hx.unique hx2
      cases this
    · have := hx.unique hx2
      cases this
      refine ⟨L', K', h4, hg.2 h2, fun hn => ?_⟩
      rw [h5 (hn _ List.mem_cons_self rfl)]
      exact h3 fun e he => hn e (List.mem_cons_of_mem _ he)

theorem owned_itsOf {a : Nat} : Owned (itsOf L) a ↔ ∃ l xs, L l = some xs ∧ a ∈ ids xs := by
  unfold Owned itsOf
  constructor
  · rintro ⟨l, xs, h1, h2⟩
    obtain ⟨ys, hy, rfl⟩ := Option.map_eq_some_iff.1 h1
    rw [its_fst] at h2
    obtain ⟨b, hb, e⟩ := List.mem_map.1 h2
    have e : b = a := by simpa using e
    subst e
    exact ⟨l, ys, hy, hb⟩
  · rintro ⟨l, xs, h1, h2⟩
    exact ⟨l, its xs, by rw [h1]; rfl, by rw [its_fst]; exact List.mem_map.2 ⟨a, h2, rfl⟩⟩

/-- The nodes of the lists are allocated and hold objects. -/
theorem Inv.owned_holds (h : Inv s L K) {a : Nat} (ho : Owned (itsOf L) a) :
    s.nodes a ≠ none ∧ holds s a = 1 := by
  obtain ⟨l, xs, hl, ha⟩ := owned_itsOf.1 ho
  refine ⟨h.live hl a ha, ?_⟩
  obtain ⟨p, -, hseg⟩ := h.seg l xs hl
  obtain ⟨x, hx, rfl⟩ := List.mem_map.1 ha
  obtain ⟨pre, post, rfl⟩ := List.append_of_mem hx
  obtain ⟨r, -, -, n, hn, -⟩ := seg_append.1 hseg
  unfold holds; rw [hn]

/-- The lost nodes are those of `K`. -/
theorem Inv.lost_iff (h : Inv s L K) (a : Nat) :
    (s.nodes a ≠ none ∧ ¬Owned (itsOf L) a) ↔ a ∈ K := by
  constructor
  · rintro ⟨h1, h2⟩
    rcases h.cover a h1 with h3 | h3
    · exact absurd (owned_itsOf.2 h3) h2
    · exact h3
  · intro hk
    refine ⟨(h.leak a hk).1, fun ho => ?_⟩
    obtain ⟨l, xs, hl, ha⟩ := owned_itsOf.1 ho
    exact (h.leak a hk).2 l xs hl ha

/-- The allocated nodes are those of the lists, and each holds an object. -/
theorem Inv.nodes_owned (h : Inv s L []) (a : Nat) :
    (Owned (itsOf L) a → s.nodes a ≠ none ∧ holds s a = 1) ∧ (¬Owned (itsOf L) a → s.nodes a = none) := by
  constructor
  · exact h.owned_holds
  · intro ho
    by_contra hc
    rcases h.cover a hc with h1 | h1
    · exact ho (owned_itsOf.2 h1)
    · cases h1

/-- Nodes that left the lists are deallocated. -/
theorem Inv.gone (h : Inv s L K) (h' : Inv s' L' K) {a : Nat} (ho : Owned (itsOf L) a)
    (hn : ¬Owned (itsOf L') a) : s'.nodes a = none := by
  by_contra hc
  rcases h'.cover a hc with h1 | h1
  · exact hn (owned_itsOf.2 h1)
  · obtain ⟨l, xs, hl, ha⟩ := owned_itsOf.1 ho
    exact (h.leak a h1).2 l xs hl ha

/-! ### Inserting a range into itself -/

/-- Copying a range that contains the insertion position never ends: the range grows as fast as it is read. -/
theorem insertRange_self (h : Inv s L K) {A B C F : Els α} {z : Nat × α}
    (hl : L l = some (A ++ (z :: F) ++ (B ++ C))) (fuel : Nat) :
    (∃ s', insertRange E fuel (posPtr l (A ++ z :: F)) (.nodes (some (.node z.1)) (ptr C none)) s = .thrown s') ∨
    insertRange E fuel (posPtr l (A ++ z :: F)) (.nodes (some (.node z.1)) (ptr C none)) s = .hang := by
  induction fuel generalizing s L A F z with
  | zero => exact .inr rfl
  | succ fuel ih =>
    have hne : some (Loc.node z.1) ≠ ptr C none := by
      cases C with
      | nil => simp
      | cons c C =>
        have hn := h.nodup _ _ hl
        intro e
        have e : z.1 = c.1 := by simpa using e
        simp only [ids_append, ids_cons] at hn
        exact (List.nodup_append.1 hn).2.2 z.1 (by simp) z.1 (by simp [e]) rfl
    have hm : (Range.nodes (some (Loc.node z.1)) (ptr C none) : Range α).more = true := by
      simp [Range.more, hne]
    rw [insertRange, if_pos hm]
    have hd : (Range.nodes (some (Loc.node z.1)) (ptr C none) : Range α).front s = .ok z.2 s :=
      h.deref_elem (pre := A) (post := F ++ (B ++ C)) (by simpa using hl)
    have key : wp (emplaceAfter E (posPtr l (A ++ z :: F)) z.2) s
        (fun p s' => ∃ a, p = some (.node a) ∧
          Inv s' (upd L l (some (A ++ (z :: F) ++ (a, z.2) :: (B ++ C)))) K) (fun _ => True) :=
      emplaceAfter_spec h hl z.2 (fun a s' _ _ h1 => ⟨a, rfl, h1⟩) (fun _ _ _ => trivial)
    have unf : ∀ (g : α → M α Ptr), ((Range.nodes (some (Loc.node z.1)) (ptr C none) : Range α).front >>= g) s
        = g z.2 s := by
      intro g; show M.bind _ _ _ = _; unfold M.bind; rw [hd]
    rw [unf]
    unfold wp at key
    show (∃ s', M.bind _ _ s = .thrown s') ∨ M.bind _ _ s = .hang
    unfold M.bind
    cases hx : emplaceAfter E (posPtr l (A ++ z :: F)) z.2 s with
    | ub => rw [hx] at key; exact absurd key id
    | hang => exact .inr rfl
    | thrown s' => exact .inl ⟨s', rfl⟩
    | ok p s' =>
      rw [hx] at key
      obtain ⟨a, rfl, h1⟩ := key
      simp only
      -- the next element to copy: the one after `z`, possibly the new one
      obtain ⟨z', F', hz⟩ : ∃ z' F', F ++ [(a, z.2)] = z' :: F' := by
        cases hF : F ++ [(a, z.2)] with
        | nil => simp at hF
        | cons z' F' => exact ⟨z', F', rfl⟩
      have hl' : upd L l (some (A ++ (z :: F) ++ (a, z.2) :: (B ++ C))) l =
          some ((A ++ [z]) ++ (z' :: F') ++ (B ++ C)) := by
        rw [upd_same, ← hz]; simp
      have hadv : (Range.nodes (some (Loc.node z.1)) (ptr C none) : Range α).advance s' =
          .ok (.nodes (some (.node z'.1)) (ptr C none)) s' := by
        show M.bind _ _ _ = _
        unfold M.bind
        rw [h1.next_elem (l := l) (pre := A) (x := z) (post := z' :: F' ++ (B ++ C)) (by rw [hl']; simp)]
        rfl
      have unf2 : ∀ (g : Range α → M α Ptr),
          ((Range.nodes (some (Loc.node z.1)) (ptr C none) : Range α).advance >>= g) s'
            = g (.nodes (some (.node z'.1)) (ptr C none)) s' := by
        intro g; show M.bind _ _ _ = _; unfold M.bind; rw [hadv]
      rw [unf2]
      have hpos : posPtr l ((A ++ [z]) ++ z' :: F') = some (.node a) := by
        rw [← hz, ← List.append_assoc, posPtr_snoc]
      have := ih h1 hl'
      rw [hpos] at this
      exact this

/-! ### An environment in which nothing fails -/

/-- If the allocator finds a free node and no constructor throws, creating a node succeeds. -/
theorem createNode_ne_thrown (hE : ∀ t, E.throws t = false) (hp : s.nodes (E.pick s) = none) (v : α)
    (s' : St α) : createNode E v s ≠ .thrown s' := by
  have key : wp (createNode E v) s (fun _ _ => True) (fun _ => False) := by
    unfold createNode
    rw [wp_bind]
    refine wp_allocate (fun c hc => by rw [hp] at hc; cases hc) fun _ => ?_
    rw [wp_bind, wp_tryRethrow, wp_bind]
    refine (wp_of_eq (by unfold constructNode; simp only [upd_same]; rfl)).2 ?_
    unfold constructVal
    rw [wp_bind]
    refine wp_mayThrow (fun h => by rw [hE] at h; cases h) fun _ => ?_
    refine (wp_of_eq (by unfold putNew; simp only [upd_same]; rfl)).2 ?_
    trivial
  intro e
  unfold wp at key
  rw [e] at key
  exact key

theorem next_ne_thrown (p : Ptr) (s s' : St α) : next p s ≠ .thrown s' := by
  unfold next; intro h
  split at h <;> (try split at h) <;> cases h

theorem setNext_ne_thrown (p q : Ptr) (s s' : St α) : setNext p q s ≠ .thrown s' := by
  unfold setNext; intro h
  split at h <;> (try split at h) <;> cases h

theorem deref_ne_thrown (p : Ptr) (s s' : St α) : deref p s ≠ .thrown s' := by
  unfold deref; intro h
  split at h <;> (try split at h) <;> cases h

theorem bind_ne_thrown {γ : Type} {f : M α β} {g : β → M α γ} (hf : ∀ s', f s ≠ .thrown s')
    (hg : ∀ b s1, f s = .ok b s1 → ∀ s', g b s1 ≠ .thrown s') (s' : St α) : (f >>= g) s ≠ .thrown s' := by
  show M.bind _ _ _ ≠ _
  unfold M.bind
  cases h : f s with
  | ok b s1 => exact hg b s1 h s'
  | thrown s1 => exact absurd h (hf s1)
  | ub => simp
  | hang => simp

theorem emplaceAfter_ne_thrown (hE : ∀ t, E.throws t = false) (hp : s.nodes (E.pick s) = none) (pos : Ptr)
    (v : α) (s' : St α) : emplaceAfter E pos v s ≠ .thrown s' := by
  unfold emplaceAfter
  refine bind_ne_thrown (createNode_ne_thrown hE hp v) (fun _ s1 _ => ?_) s'
  refine bind_ne_thrown (next_ne_thrown _ _) (fun _ s2 _ => ?_)
  refine bind_ne_thrown (setNext_ne_thrown _ _ _) (fun _ s3 _ => ?_)
  refine bind_ne_thrown (setNext_ne_thrown _ _ _) (fun _ s4 _ => ?_)
  intro s5 h; cases h

/-- Inserting a range never throws in such an environment, starting from a sane ledger. -/
theorem insertRange_ne_thrown (hE : ∀ t, E.throws t = false)
    (hp : ∀ s : St α, Ledger s → s.nodes (E.pick s) = none) (fuel : Nat) (pos : Ptr) (r : Range α)
    (hs : Ledger s) (s' : St α) : insertRange E fuel pos r s ≠ .thrown s' := by
  induction fuel generalizing s pos r s' with
  | zero => intro h; cases h
  | succ fuel ih =>
    rw [insertRange]
    split
    case isFalse => intro h; cases h
    have led : ∀ {β : Type} {f : M α β} {s s1 : St α} {b : β}, Good f → f s = .ok b s1 → Ledger s → Ledger s1 := by
      intro β f s s1 b hf e hl
      have := hf s
      rw [e] at this
      exact this.2 hl
    refine bind_ne_thrown (f := r.front) ?_ (fun v s1 h1 => ?_) s'
    · intro s2
      unfold Range.front
      split
      · intro h; cases h
      · intro h; cases h
      · exact deref_ne_thrown _ _ _
    have l1 := led (front_good r) h1 hs
    refine bind_ne_thrown (emplaceAfter_ne_thrown hE (hp s1 l1) _ _) (fun p s2 h2 => ?_)
    have l2 := led (emplaceAfter_good E _ _) h2 l1
    refine bind_ne_thrown (f := r.advance) ?_ (fun r' s3 h3 => ?_)
    · intro s4
      unfold Range.advance
      split
      · intro h; cases h
      · intro h; cases h
      · exact bind_ne_thrown (next_ne_thrown _ _) (fun _ _ _ _ h => by cases h) s4
    exact ih _ _ (led (advanceR_good r) h3 l2)

theorem ledger_free (h : Ledger s) : ∃ a, s.nodes a = none := by
  by_contra hc
  have hall : ∀ a, Ev.alloc a ∈ s.log := by
    intro a
    have h1 := (h a).1
    rw [if_neg (fun e => hc ⟨a, e⟩)] at h1
    exact List.count_pos_iff.1 (by omega)
  have hsub : (List.range (s.log.length + 1)).map Ev.alloc ⊆ s.log := by
    intro e he
    obtain ⟨a, -, rfl⟩ := List.mem_map.1 he
    exact hall a
  have hnd : ((List.range (s.log.length + 1)).map Ev.alloc).Nodup :=
    List.nodup_range.map (by intro a b e; simpa using e)
  have := (List.subperm_of_subset hnd hsub).length_le
  simp at this
  omega

end Verif.LL
