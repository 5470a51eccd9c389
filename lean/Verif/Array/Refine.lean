import Verif.Array.World

/-! Every call refines its specification (helper lemmas for `Verif.Array.Props`). -/

set_option autoImplicit false

namespace Verif.Arr

variable {α : Type} (cfg : Elem α)

theorem member_step {A A' : AWorld α} {op : Op α} {r : Nat} (hs : specStep A op = some (A', r))
    (hm : specStep A op = match A op.target with
      | some (xs, c) =>
        match member A xs c op with
        | some e => some (put A op.target (some (e.xs, e.cap)), e.ret)
        | none => none
      | none => none) :
    ∃ xs c e, A op.target = some (xs, c) ∧ member A xs c op = some e ∧
      A' = put A op.target (some (e.xs, e.cap)) ∧ r = e.ret := by
  rw [hm] at hs
  split at hs
  · rename_i xs c hA
    split at hs
    · rename_i e he
      simp only [Option.some.injEq, Prod.mk.injEq] at hs
      exact ⟨xs, c, e, hA, he, hs.1.symm, hs.2.symm⟩
    · cases hs
  · cases hs

/-- Moving array `b` into the new array `a`. -/
theorem Inv.move {w : World α} {A : AWorld α} (h : Inv cfg w A) {a b : Nat} {d : Data} {xs : List α}
    {c : Nat} (ha : A a = none) (hb : A b = some (xs, c)) (hd : w.vars b = some d) :
    Inv cfg ⟨w.mem, upd (upd w.vars a (some d)) b (some .null)⟩
      (put (put A a (some (xs, c))) b (some ([], 0))) := by
  have hva := (h.none_iff a).mpr ha
  obtain ⟨hh, hcap⟩ := h.rep b d xs c hd hb
  have hab : a ≠ b := by rintro rfl; rw [ha] at hb; cases hb
  refine ⟨h.wf, ?_, ?_, ?_, ?_⟩
  · intro x
    simp only [upd, put]
    by_cases h1 : x = b
    · simp [h1]
    · by_cases h2 : x = a
      · simp [h2, hab]
      · simp only [h1, h2, if_false]; exact h.none_iff x
  · intro x dx ys k hx hA
    simp only [upd, put] at hx hA
    by_cases h1 : x = b
    · simp only [h1, if_true, Option.some.injEq, Prod.mk.injEq] at hx hA
      obtain ⟨rfl, rfl⟩ := hA
      subst hx
      exact ⟨holds_null cfg _, rfl⟩
    · by_cases h2 : x = a
      · simp only [h2, hab, if_false, if_true, Option.some.injEq, Prod.mk.injEq] at hx hA
        obtain ⟨rfl, rfl⟩ := hA
        subst hx
        exact ⟨hh, hcap⟩
      · simp only [h1, h2, if_false] at hx hA
        exact h.rep x dx ys k hx hA
  · intro x y dx dy hx hy hne he
    simp only [upd] at hx hy
    by_cases h1 : x = b
    · simp only [h1, if_true, Option.some.injEq] at hx
      rw [← hx]; rfl
    · by_cases h1' : y = b
      · simp only [h1', if_true, Option.some.injEq] at hy
        rw [he, ← hy]; rfl
      · by_cases h2 : x = a
        · have h2' : y ≠ a := fun h' => hne (h2.trans h'.symm)
          simp only [h2, hab, if_false, if_true, Option.some.injEq] at hx
          simp only [h1', h2', if_false] at hy
          subst hx
          exact h.dist b y d dy hd hy (fun h' => h1' h'.symm) he
        · simp only [h1, h2, if_false] at hx
          by_cases h2' : y = a
          · simp only [h2', hab, if_false, if_true, Option.some.injEq] at hy
            subst hy
            exact h.dist x b dx d hx hd h1 he
          · simp only [h1', h2', if_false] at hy
            exact h.dist x y dx dy hx hy hne he
  · intro x hx
    obtain ⟨z, dz, hz, hzb⟩ := h.owned x hx
    by_cases h1 : z = b
    · subst h1
      rw [hd] at hz; cases hz
      exact ⟨a, d, by simp [upd, hab], hzb⟩
    · refine ⟨z, dz, ?_, hzb⟩
      have h2 : z ≠ a := by rintro rfl; rw [hva] at hz; cases hz
      simp [upd, h1, h2, hz]

theorem Inv.swap {w : World α} {A : AWorld α} (h : Inv cfg w A) {a b : Nat} {da db : Data}
    {oa ob : List α × Nat} (ha : A a = some oa) (hb : A b = some ob) (hda : w.vars a = some da)
    (hdb : w.vars b = some db) :
    Inv cfg ⟨w.mem, upd (upd w.vars a (some db)) b (some da)⟩
      (put (put A a (some ob)) b (some oa)) := by
  -- exchanging two names
  let f : Nat → Nat := fun x => if x = b then a else if x = a then b else x
  have hf : ∀ x y, f x = f y → x = y := by
    intro x y; simp only [f]; intro hxy
    split at hxy <;> split at hxy <;> (try split at hxy) <;> (try split at hxy) <;> omega
  have hff : ∀ x, f (f x) = x := by
    intro x; simp only [f]
    split <;> (try split) <;> (try split) <;> omega
  have hv : upd (upd w.vars a (some db)) b (some da) = fun x => w.vars (f x) := by
    funext x; simp only [upd, f]
    split
    · exact hda.symm
    · split
      · exact hdb.symm
      · rfl
  have hA : put (put A a (some ob)) b (some oa) = fun x => A (f x) := by
    funext x; simp only [put, f]
    split
    · exact ha.symm
    · split
      · exact hb.symm
      · rfl
  rw [hv, hA]
  refine ⟨h.wf, fun x => h.none_iff _, fun x d xs c => h.rep _ d xs c, ?_, ?_⟩
  · intro x y dx dy hx hy hne
    exact h.dist _ _ dx dy hx hy fun h' => hne (hf x y h')
  · intro z hz
    obtain ⟨x, d, h1, h2⟩ := h.owned z hz
    exact ⟨f x, d, by simp only; rw [hff]; exact h1, h2⟩

/-- The destructor of array `a` leaves everything else alone. -/
theorem Inv.wp_dtor {w : World α} {A : AWorld α} (h : Inv cfg w A) {d d0 : Data} {xs : List α}
    (hh : Holds cfg w.mem d xs) :
    wp (unit0 (destructor cfg d)) (⟨w.mem, d0⟩ : St α)
        (fun r s' => r = 0 ∧ WF s'.mem ∧ Upd w.mem s'.mem d.blk 0 ∧ s'.d = d0 ∧
          (w.mem.ticks = none → s'.mem.ticks = none)) (fun _ => False) := by
  apply wp_unit0
  refine wp_destructor cfg hh fun s' hsize hcell hnext hd htick => ⟨rfl, ⟨?_, ?_, ?_⟩,
    ⟨?_, ?_, .inr h.wf.null⟩, hd, htick⟩
  · intro b hb
    rw [hsize]
    split
    · rfl
    · exact h.wf.fresh b (by rw [hnext] at hb; exact hb)
  · rw [hsize]
    split
    · rfl
    · exact h.wf.null
  · rw [hnext]; exact h.wf.pos
  · intro x hx hb
    exact ⟨by rw [hsize, if_neg (by rintro ⟨_, h'⟩; exact hb h')], hcell x hb⟩
  · intro x hx
    rw [hsize] at hx
    split at hx
    · exact absurd rfl hx
    · rename_i hn
      right
      refine ⟨hx, ?_⟩
      rintro rfl
      apply hn
      refine ⟨?_, rfl⟩
      intro h0; rw [h0] at hx; exact hx h.wf.null

/-- Every call meets its specification. -/
theorem exec_good {w : World α} {A A' : AWorld α} {op : Op α} {r : Nat} (h : Inv cfg w A)
    (hs : specStep A op = some (A', r)) (hc : cfg.triv = true ∨ classSafe A op)
    (ht : w.mem.ticks = none ∨ throwSafe cfg.triv A op) :
    Good cfg w A op A' r (exec cfg w op) := by
  cases op with
  | ctor a =>
    have := good_onNew cfg h (op := .ctor a) (f := pure ()) (xs := []) (c := 0) hs (by
      rw [wp_pure]
      exact Post.refl cfg h.wf (holds_null cfg _))
    exact this
  | ctorCap a n =>
    exact good_onNew cfg h (op := .ctorCap a n) (xs := []) (c := n) hs
      (wp_ctorCap cfg h.wf rfl (fun _ p => p) (fun _ p ht => ⟨p, ht⟩))
  | ctorFill a n v =>
    exact good_onNew cfg h (op := .ctorFill a n v) hs
      (wp_ctorFill cfg h.wf rfl (fun _ p => p) (fun _ p ht => ⟨p, ht⟩))
  | ctorRange a args =>
    simp only [specStep] at hs
    rcases hv : argVals A args with _ | vs
    · simp [hv] at hs
    simp only [hv] at hs
    obtain ⟨srcs, h1, h2, _, _, _, h6⟩ := h.args cfg hv
    simp only [exec, h1]
    exact good_ctorRange cfg h (op := .ctorRange a args) hs h2
      (ht.imp id fun hq => quiet_args cfg hq.1 (h6 hq.2))
  | ctorCopy a b =>
    simp only [specStep] at hs
    rcases hb : A b with _ | ⟨xs, c⟩
    · simp [hb] at hs
    simp only [hb] at hs
    obtain ⟨d, hd, hh, _⟩ := h.get cfg hb
    simp only [exec, hd]
    exact good_ctorRange cfg h (op := .ctorCopy a b) hs (srcsOk_refs cfg hh)
      (ht.imp id fun hq => quiet_refs cfg hq d)
  | ctorMove a b =>
    simp only [specStep] at hs
    rcases ha : A a with _ | oa
    · rcases hb : A b with _ | ⟨xs, c⟩
      · simp [ha, hb] at hs
      · simp only [ha, hb, Option.some.injEq, Prod.mk.injEq] at hs
        obtain ⟨rfl, rfl⟩ := hs
        have hva := (h.none_iff a).mpr ha
        obtain ⟨d, hd, hh, hcap⟩ := h.get cfg hb
        simp only [exec, hva, hd]
        exact ⟨rfl, h.move cfg ha hb hd, fun h => h⟩
    · rcases hb : A b <;> simp [ha, hb] at hs
  | dtor a =>
    simp only [specStep] at hs
    rcases ha : A a with _ | ⟨xs, c⟩
    · simp [ha] at hs
    simp only [ha, Option.some.injEq, Prod.mk.injEq] at hs
    obtain ⟨rfl, rfl⟩ := hs
    obtain ⟨d, hd, hh, hcap⟩ := h.get cfg ha
    have hw := h.wp_dtor cfg (d0 := d) hh
    unfold wp at hw
    have e0 : (do let d ← getD; unit0 (destructor cfg d) : M (St α) Nat) ⟨w.mem, d⟩
      = unit0 (destructor cfg d) ⟨w.mem, d⟩ := rfl
    simp only [exec, onVar, hd, e0]
    rcases hr : unit0 (destructor cfg d) (⟨w.mem, d⟩ : St α) with ⟨r, s'⟩ | s' | _
    · rw [hr] at hw
      obtain ⟨rfl, hwf, hu, _, htick⟩ := hw
      refine ⟨rfl, ?_, htick⟩
      have := h.remove cfg (.inl hd) hwf hu
      have e : upd (upd w.vars a (some s'.d)) a none = upd w.vars a none := by
        funext j; simp only [upd]; split <;> rfl
      simp only [e]
      exact this
    · rw [hr] at hw; exact hw.elim
    · rw [hr] at hw; exact hw.elim
  | assignCopy a b =>
    obtain ⟨xs, c, e, hA, he, rfl, rfl⟩ := member_step hs rfl
    simp only [member] at he
    rcases hb : A b with _ | ⟨ys, cb⟩
    · simp [hb] at he
    simp only [hb, Option.some.injEq] at he
    subst he
    obtain ⟨db, hdb, hhb, _⟩ := h.get cfg hb
    simp only [exec, hdb]
    refine good_onVar cfg h (op := .assignCopy a b) (e := ⟨ys, ys.length, 0⟩) hA fun d hd hh hcap => ?_
    apply wp_unit0
    refine wp_assignVia cfg (s := ⟨w.mem, d⟩) (vs := ys) (n := ys.length) h.wf hh ?_
      (fun s' p => ⟨rfl, p⟩)
      (fun s' p hne => ⟨hne, xs, d.cap, p, rfl, by omega⟩)
    exact wp_ctorRange cfg h.wf rfl (srcsOk_refs cfg hhb)
      (ht.imp id fun hq => quiet_refs cfg hq db) (fun _ p => p) (fun _ p ht => ⟨p, ht⟩)
  | assignMove a b =>
    simp only [specStep] at hs
    rcases ha : A a with _ | ⟨xs, c⟩
    · simp [ha] at hs
    rcases hb : A b with _ | ⟨ys, cb⟩
    · simp [ha, hb] at hs
    simp only [ha, hb, Option.some.injEq, Prod.mk.injEq] at hs
    obtain ⟨rfl, rfl⟩ := hs
    obtain ⟨da, hda, hha, hcapa⟩ := h.get cfg ha
    obtain ⟨db, hdb, hhb, hcapb⟩ := h.get cfg hb
    by_cases hab : a = b
    · subst hab
      rw [hda] at hdb; cases hdb
      rw [if_pos rfl]
      have e1 : upd w.vars a (some da) = w.vars := upd_self _ _ _ hda
      have e2 : upd (upd w.vars a (some Data.null)) a (some da) = w.vars := by
        funext j; simp only [upd]; split
        · rename_i hj; rw [hj, hda]
        · rfl
      have e3 : unit0 (destructor cfg Data.null) (⟨w.mem, da⟩ : St α) = .ok 0 ⟨w.mem, da⟩ := rfl
      have e4 : upd w.vars a (some Data.null) a = some Data.null := by simp [upd]
      simp only [exec, hda, e4, onVar, e2, e3, e1]
      exact ⟨rfl, h, fun h => h⟩
    · rw [if_neg hab]
      have hw := h.wp_dtor cfg (d0 := db) hha
      unfold wp at hw
      have e4 : upd w.vars b (some Data.null) a = some da := by simp [upd, hab, hda]
      have e5 : upd (upd w.vars b (some Data.null)) a (some db) a = some db := by simp [upd]
      simp only [exec, hdb, e4, onVar, e5]
      rcases hr : unit0 (destructor cfg da) (⟨w.mem, db⟩ : St α) with ⟨r, s'⟩ | s' | _
      · rw [hr] at hw
        obtain ⟨rfl, hwf, hu, hd', htick⟩ := hw
        refine ⟨rfl, ?_, htick⟩
        have hba : ¬ b = a := fun h => hab h.symm
        have h1 := h.remove cfg (.inl hda) hwf hu
        have h2 := h1.move cfg (a := a) (b := b) (d := db) (xs := ys) (c := cb) (by simp [put])
          (by simp [put, hba, hb]) (by simp [upd, hba, hdb])
        have e6 : upd (upd (upd w.vars b (some Data.null)) a (some db)) a (some s'.d) =
            upd (upd (upd w.vars a none) a (some db)) b (some .null) := by
          funext j; simp only [upd, hd']
          by_cases hj : j = a
          · simp [hj, hab]
          · simp [hj]
        have e7 : put (put A a (some (ys, cb))) b (some ([], 0)) =
            put (put (put A a none) a (some (ys, cb))) b (some ([], 0)) := by
          funext j; simp only [put]
          by_cases hj : j = b
          · simp [hj]
          · by_cases hj' : j = a
            · simp [hj']
            · simp [hj, hj']
        simp only [e6, e7]
        exact h2
      · rw [hr] at hw; exact hw.elim
      · rw [hr] at hw; exact hw.elim
  | assignList a args =>
    obtain ⟨xs, c, e, hA, he, rfl, rfl⟩ := member_step hs rfl
    simp only [member] at he
    rcases hv : argVals A args with _ | vs
    · simp [hv] at he
    simp only [hv, Option.some.injEq] at he
    subst he
    obtain ⟨srcs, h1, h2, _, _, _, h6⟩ := h.args cfg hv
    simp only [exec, h1]
    refine good_onVar cfg h (op := .assignList a args) (e := ⟨vs, vs.length, 0⟩) hA
      fun d hd hh hcap => ?_
    apply wp_unit0
    refine wp_assignVia cfg (s := ⟨w.mem, d⟩) (vs := vs) (n := vs.length) h.wf hh ?_
      (fun s' p => ⟨rfl, p⟩)
      (fun s' p hne => ⟨hne, xs, d.cap, p, rfl, by omega⟩)
    exact wp_ctorRange cfg h.wf rfl h2
      (ht.imp id fun hq => quiet_args cfg hq.1 (h6 hq.2)) (fun _ p => p) (fun _ p ht => ⟨p, ht⟩)
  | swap a b =>
    simp only [specStep] at hs
    rcases ha : A a with _ | ⟨xs, c⟩
    · simp [ha] at hs
    rcases hb : A b with _ | ⟨ys, cb⟩
    · simp [ha, hb] at hs
    simp only [ha, hb, Option.some.injEq, Prod.mk.injEq] at hs
    obtain ⟨rfl, rfl⟩ := hs
    obtain ⟨da, hda, hha, hcapa⟩ := h.get cfg ha
    obtain ⟨db, hdb, hhb, hcapb⟩ := h.get cfg hb
    simp only [exec, hda, hdb]
    exact ⟨rfl, h.swap cfg ha hb hda hdb, fun h => h⟩
  | clear a =>
    obtain ⟨xs, c, e, hA, he, rfl, rfl⟩ := member_step hs rfl
    simp only [member, Option.some.injEq] at he
    subst he
    refine good_onVar cfg h (op := .clear a) (e := ⟨[], c, 0⟩) hA fun d hd hh hcap => wp_unit0 ?_
    exact wp_clear cfg h.wf hh fun s' p => ⟨rfl, by simp only at p ⊢; rw [← hcap]; exact p⟩
  | reserve a n =>
    obtain ⟨xs, c, e, hA, he, rfl, rfl⟩ := member_step hs rfl
    simp only [member, Option.some.injEq] at he
    subst he
    refine good_onVar cfg h (op := .reserve a n) (e := ⟨xs, max c n, 0⟩) hA
      fun d hd hh hcap => wp_unit0 ?_
    subst hcap
    refine wp_reserve cfg h.wf hh (hc.imp id fun hq => ?_) (fun s' p => ⟨rfl, p⟩)
      (fun s' p hne => ⟨hne, xs, _, p, rfl, Nat.le_refl _⟩)
    simp only [classSafe, hA] at hq
    exact hq
  | resize a n =>
    obtain ⟨xs, c, e, hA, he, rfl, rfl⟩ := member_step hs rfl
    simp only [member, Option.some.injEq] at he
    subst he
    refine good_onVar cfg h (op := .resize a n) (e := ⟨xs.take n, n, 0⟩) hA
      fun d hd hh hcap => wp_unit0 ?_
    subst hcap
    refine wp_resize cfg h.wf hh (hc.imp id fun hq => ?_) (fun s' p => ⟨rfl, p⟩)
      (fun s' p hne => ⟨hne, xs, _, p, rfl, Nat.le_refl _⟩)
    simp only [classSafe, hA] at hq
    exact hq
  | pushBack a arg =>
    obtain ⟨xs, c, e, hA, he, rfl, rfl⟩ := member_step hs rfl
    simp only [member] at he
    rcases hv : argVal A arg with _ | v
    · simp [hv] at he
    simp only [hv] at he
    split at he
    · cases he
    rename_i hown
    simp only [Option.some.injEq] at he
    subst he
    obtain ⟨src, h1, h2, _, _⟩ := h.arg cfg hv
    simp only [exec, h1]
    refine good_onVar cfg h (op := .pushBack a arg) (e := ⟨xs ++ [v], grown xs.length c, 0⟩) hA
      fun d hd hh hcap => wp_unit0 ?_
    subst hcap
    refine wp_emplaceBack cfg h.wf hh (hc.imp id fun hq => ?_) h2 ?_ (fun s' p _ _ => ⟨rfl, p⟩)
      (fun s' k p hk hne => ⟨hne, xs, _, p, rfl, hk⟩)
    · simp only [classSafe, hA] at hq
      exact hq
    · intro hfull
      refine h.arg_foreign cfg hv h1 (.inl hd) ?_
      by_contra hcon
      exact hown ⟨hfull, by simpa [Op.target] using hcon⟩
  | pushRange a args =>
    obtain ⟨xs, c, e, hA, he, rfl, rfl⟩ := member_step hs rfl
    simp only [member] at he
    rcases hv : argVals A args with _ | vs
    · simp [hv] at he
    simp only [hv] at he
    split at he
    · cases he
    rename_i hown
    simp only [Option.some.injEq] at he
    subst he
    obtain ⟨srcs, h1, h2, h3, h4, h5, _⟩ := h.args cfg hv
    have hl := argVals_length A hv
    simp only [exec, h1]
    refine good_onVar cfg h (op := .pushRange a args)
      (e := ⟨xs ++ vs, max c (xs.length + vs.length), 0⟩) hA fun d hd hh hcap => wp_unit0 ?_
    subst hcap
    refine wp_pushRange cfg h.wf hh (hc.imp id fun hq => ?_) h2 ?_ (fun s' p => ⟨rfl, p⟩)
      (fun s' k c' p hk hne => ⟨hne, xs ++ vs.take k, _, p, ⟨vs, k, hv, rfl⟩, hk⟩)
    · simp only [classSafe, hA] at hq
      rw [hl]
      exact hq
    · intro x hx
      by_cases hg : d.cap < xs.length + vs.length
      · left
        refine h4 a d (.inl hd) ?_ x hx
        by_contra hcon
        exact hown ⟨hg, by simpa using hcon⟩
      · by_cases hf : Foreign d.blk x
        · exact .inl hf
        · refine .inr ⟨by simp only; omega, ?_⟩
          intro b i hbi
          obtain ⟨y, dy, ys, cy, k1, k2, k3, k4⟩ := h5 x hx b i hbi
          subst hbi
          have hb : b = d.blk := by by_contra hne; exact hf hne
          have hya : y = a := by
            by_contra hne
            have hz := h.dist y a dy d k1 hd hne (k2.trans hb)
            obtain ⟨hhy, _⟩ := h.rep y dy ys cy k1 k3
            have := hhy.size
            have := hhy.le
            have := (hhy.blk.resolve_right fun h' => h'.1 hz).2
            omega
          subst hya
          simp only [Op.target] at hA
          rw [hA] at k3
          cases k3
          exact k4
  | insert a pos arg =>
    obtain ⟨xs, c, e, hA, he, rfl, rfl⟩ := member_step hs rfl
    simp only [member] at he
    rcases hv : argVal A arg with _ | v
    · simp [hv] at he
    simp only [hv] at he
    split at he
    · cases he
    rename_i hpos
    split at he
    · cases he
    rename_i hown
    split at he
    · cases he
    rename_i hbeh
    simp only [Option.some.injEq] at he
    subst he
    obtain ⟨src, h1, h2, h3, h4⟩ := h.arg cfg hv
    simp only [exec, h1]
    refine good_onVar cfg h (op := .insert a pos arg)
      (e := ⟨xs.take pos ++ v :: xs.drop pos, grown xs.length c, pos⟩) hA fun d hd hh hcap => ?_
    subst hcap
    have hsz := hh.size
    have hle := hh.le
    refine wp_insert cfg h.wf hh (by omega) (hc.imp id fun hq => ?_) ?_ (fun _ _ => h2) ?_
      (fun s' p => ⟨rfl, by simpa [insAt, grown] using p⟩)
      (fun s' xs' c' p hk hx hne => ⟨hne, xs', _, p, hx, hk⟩)
    · simp only [classSafe, hA] at hq
      rcases hq.1 with hq | hq
      · left
        subst hq
        exact ⟨by simp at hpos; simpa using hpos, rfl⟩
      · exact .inr hq
    · intro hp
      refine ⟨h2, fun hfull => h.arg_foreign cfg hv h1 (.inl hd) ?_⟩
      by_contra hcon
      exact hown ⟨hp, hfull, by simpa [Op.target] using hcon⟩
    · intro hp hroom
      cases arg with
      | val u =>
        have := h4 u rfl
        subst this
        exact h2
      | elem y i =>
        obtain ⟨dy, k1, k2, k3, ys, cy, k4, k5⟩ := h3 y i rfl
        subst k2
        simp only [ShiftOk]
        by_cases hya : y = a
        · subst hya
          have : dy = d := by
            have hd' : w.vars y = some d := hd
            rw [k1] at hd'; cases hd'; rfl
          subst this
          simp only [Op.target] at hA
          rw [hA] at k4
          cases k4
          simp only [if_true]
          have hi : i ≤ pos := by
            by_contra hcon
            exact hbeh ⟨hp, hroom, by simp [ownBehind]; omega⟩
          rw [if_pos hi]
          have hip : ¬ (i = pos ∧ cfg.triv = false) := by
            rintro ⟨hip, ht⟩
            rcases hc with hq | hq
            · rw [hq] at ht; cases ht
            · simp only [classSafe, Op.target, hA] at hq
              exact hq.2 hp (by rw [hip])
          simp only [k5, Option.map_some, if_neg hip]
        · have hne : dy.blk ≠ d.blk := fun he => k3 (h.dist y a dy d k1 hd hya he)
          rw [if_neg hne]
          exact h2
  | insertRange a pos args =>
    obtain ⟨xs, c, e, hA, he, rfl, rfl⟩ := member_step hs rfl
    simp only [member] at he
    rcases hv : argVals A args with _ | vs
    · simp [hv] at he
    simp only [hv] at he
    split at he
    · cases he
    rename_i hpos
    split at he
    · cases he
    rename_i hown
    simp only [Option.some.injEq] at he
    subst he
    obtain ⟨srcs, h1, h2, h3, h4, h5, _⟩ := h.args cfg hv
    have hl := argVals_length A hv
    simp only [exec, h1]
    refine good_onVar cfg h (op := .insertRange a pos args)
      (e := ⟨xs.take pos ++ vs ++ xs.drop pos,
        if xs.length + vs.length ≤ c then c else c + vs.length, pos⟩) hA fun d hd hh hcap => ?_
    subst hcap
    refine wp_insertRange cfg h.wf hh (by omega) h2 (hc.imp id fun hq => ?_) (ht.imp id fun hq => ?_)
      ?_ (fun s' p => ⟨rfl, p⟩)
      (fun s' p hne => ⟨hne, xs, _, p, rfl, Nat.le_refl _⟩)
    · simp only [classSafe, hA] at hq
      rw [hl]
      rcases hq with hq | ⟨hq1, hq2⟩
      · exact .inl hq
      · refine .inr ⟨hq1, hq2.imp id fun hq => ?_⟩
        rw [hq] at hl
        exact List.length_eq_zero_iff.mp hl
    · refine ⟨hq.1, ?_⟩
      have := hq.2 (xs, d.cap) hA
      rw [hl]; exact this
    · intro hroom
      refine h4 a d (.inl hd) ?_
      by_contra hcon
      exact hown ⟨hroom, by simpa using hcon⟩
  | popBack a =>
    obtain ⟨xs, c, e, hA, he, rfl, rfl⟩ := member_step hs rfl
    simp only [member] at he
    split at he
    · cases he
    rename_i hne
    simp only [Option.some.injEq] at he
    subst he
    refine good_onVar cfg h (op := .popBack a) (e := ⟨xs.dropLast, c, 0⟩) hA
      fun d hd hh hcap => wp_unit0 ?_
    subst hcap
    exact wp_popBack cfg h.wf hh hne fun s' p => ⟨rfl, p⟩
  | erase a pos =>
    obtain ⟨xs, c, e, hA, he, rfl, rfl⟩ := member_step hs rfl
    simp only [member] at he
    split at he
    · rename_i hpos
      simp only [Option.some.injEq] at he
      subst he
      refine good_onVar cfg h (op := .erase a pos) (e := ⟨xs.eraseIdx pos, c, pos⟩) hA
        fun d hd hh hcap => ?_
      subst hcap
      rw [erase_eq]
      refine wp_eraseRange cfg h.wf hh (by omega) (by omega) (hc.imp id fun hq => .inr ?_)
        (fun s' p => ⟨rfl, ?_⟩) (fun s' p hne => ⟨hne, xs, _, p, rfl, Nat.le_refl _⟩)
      · simp only [classSafe, hA] at hq
        exact hq
      · simp only
        rw [List.eraseIdx_eq_take_drop_succ]
        exact p
    · cases he
  | eraseRange a i j =>
    obtain ⟨xs, c, e, hA, he, rfl, rfl⟩ := member_step hs rfl
    simp only [member] at he
    split at he
    · rename_i hij
      simp only [Option.some.injEq] at he
      subst he
      refine good_onVar cfg h (op := .eraseRange a i j) (e := ⟨xs.take i ++ xs.drop j, c, i⟩) hA
        fun d hd hh hcap => ?_
      subst hcap
      refine wp_eraseRange cfg h.wf hh hij.1 hij.2 (hc.imp id fun hq => ?_)
        (fun s' p => ⟨rfl, p⟩) (fun s' p hne => ⟨hne, xs, _, p, rfl, Nat.le_refl _⟩)
      simp only [classSafe, hA] at hq
      exact hq
    · cases he
  | writeAt a i v =>
    obtain ⟨xs, c, e, hA, he, rfl, rfl⟩ := member_step hs rfl
    simp only [member] at he
    split at he
    · rename_i hi
      simp only [Option.some.injEq] at he
      subst he
      refine good_onVar cfg h (op := .writeAt a i v) (e := ⟨xs.set i v, c, 0⟩) hA
        fun d hd hh hcap => wp_unit0 ?_
      subst hcap
      exact wp_writeAt cfg h.wf hh hi fun s' p => ⟨rfl, p⟩
    · cases he

end Verif.Arr
