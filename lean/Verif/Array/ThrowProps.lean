import Verif.Array.ClassProps

/-!
Exceptions during the construction of a range (C13, continued): at which moments a failure is
undefined behaviour, and at which it leaves a broken array.

`withFault w n` lets the operation after `n` more potentially throwing ones throw.
-/

set_option autoImplicit false

namespace Verif.Arr

variable {α : Type} {cfg : Elem α}

/-! ### Specification -/

/-- Arguments whose evaluation may throw: values that have to be converted, and copies of class-type
elements. -/
def mayThrow (triv : Bool) : Arg α → Bool
  | .val _ => true
  | .elem _ _ => !triv

/-! ### Helper lemmas -/

/-- The same for references. -/
def srcThrows (triv : Bool) : Src α → Bool
  | .val _ => true
  | .ref _ _ => !triv

/-- The state after one more potentially throwing operation. -/
def ticked (s : St α) (k : Nat) : St α := { s with mem := { s.mem with ticks := some k } }

theorem evalSrc_ticks {src : Src α} {v : α} {s : St α} {k : Nat} (h : SrcOk s.mem src v)
    (hk : s.mem.ticks = some k) :
    evalSrc cfg src s = if srcThrows cfg.triv src = true then
        if k = 0 then .throw { s with mem := { s.mem with ticks := none } } else .ok v (ticked s (k - 1))
      else .ok v s := by
  cases src with
  | val u =>
    have hu : u = v := h
    subst hu
    unfold evalSrc
    show M.bind _ _ _ = _
    unfold M.bind
    simp only [tick, hk, srcThrows, if_true]
    cases k <;> rfl
  | ref b i =>
    obtain ⟨h1, h2⟩ := h
    show copyFrom cfg b i s = _
    unfold copyFrom
    rw [bind_of_ok (b := v) (s' := s) (by unfold read; simp [h1, h2])]
    show M.bind _ _ _ = _
    unfold M.bind copyTick
    by_cases ht : cfg.triv = true
    · simp only [ht, if_true, srcThrows, Bool.not_true, Bool.false_eq_true, if_false]; rfl
    · simp only [ht, srcThrows, Bool.false_eq_true, if_false, Bool.not_false, if_true, tick, hk]
      cases k <;> rfl

theorem construct_eq {b i nb : Nat} {v : α} {s : St α} (hsz : s.mem.size b = some nb) (hi : i < nb)
    (hr : s.mem.cell b i = .raw) :
    construct cfg b i v s = .ok () { s with mem := { s.mem with cell := upd2 s.mem.cell b i (.live v) } } := by
  unfold construct
  rw [if_pos (by simp [inBounds, hsz, hi, hr, Cell.isRaw])]
  rfl

/-- `uninitialized_copy_a` into a fresh block with a failure pending. -/
theorem copyLoop_fault {b nb : Nat} (srcs : List (Src α)) :
    ∀ (o k : Nat) (s : St α) (vs : List α), SrcsOk s.mem srcs vs → (∀ x ∈ srcs, Foreign b x) →
    s.mem.size b = some nb → o + srcs.length ≤ nb →
    (∀ i, o ≤ i → i < nb → s.mem.cell b i = .raw) → s.mem.ticks = some k →
    if k < srcs.countP (srcThrows cfg.triv) then copyLoop cfg b o srcs s = .ub
    else ∃ s', copyLoop cfg b o srcs s = .ok () s' := by
  induction srcs with
  | nil =>
    intro o k s vs _ _ _ _ _ _
    simp only [List.countP_nil, Nat.not_lt_zero, if_false]
    exact ⟨s, rfl⟩
  | cons x srcs ih =>
    intro o k s vs hv hfor hsz hlen hraw hk
    rcases vs with _ | ⟨v, vs⟩
    · exact hv.elim
    obtain ⟨hv1, hv2⟩ := hv
    simp only [List.length_cons] at hlen
    have hev := evalSrc_ticks (cfg := cfg) hv1 hk
    -- what happens if the evaluation succeeds with `k'` left
    have go : ∀ (k' : Nat) (s1 : St α), s1.mem.size = s.mem.size → s1.mem.cell = s.mem.cell →
        s1.mem.ticks = some k' → evalSrc cfg x s = .ok v s1 →
        if k' < srcs.countP (srcThrows cfg.triv) then copyLoop cfg b o (x :: srcs) s = .ub
        else ∃ s', copyLoop cfg b o (x :: srcs) s = .ok () s' := by
      intro k' s1 hz hc hk1 he
      have hcon := construct_eq (cfg := cfg) (v := v) (s := s1) (b := b) (i := o) (nb := nb)
        (by rw [hz]; exact hsz) (by omega) (by rw [hc]; exact hraw o (Nat.le_refl _) (by omega))
      set s2 : St α := { s1 with mem := { s1.mem with cell := upd2 s1.mem.cell b o (.live v) } }
      have hstep : copyLoop cfg b o (x :: srcs) s = copyLoop cfg b (o + 1) srcs s2 := by
        conv => lhs; unfold copyLoop
        rw [bind_of_ok (b := ()) (s' := s2)]
        unfold M.tryRethrow
        rw [bind_of_ok he, hcon]
      rw [hstep]
      refine ih (o + 1) k' s2 vs ?_ (fun y hy => hfor y (by simp [hy])) (by simp only [s2]; rw [hz]; exact hsz)
        (by omega) ?_ hk1
      · refine hv2.imp fun y u hy h => ?_
        have hf := hfor y (by simp [hy])
        cases y with
        | val _ => exact h
        | ref b' i =>
          obtain ⟨g1, g2⟩ := h
          refine ⟨by simpa [inBounds, s2, hz] using g1, ?_⟩
          simp only [s2, upd2]
          rw [if_neg (by rintro ⟨h', _⟩; exact hf h'), hc]
          exact g2
      · intro i h1 h2
        simp only [s2, upd2]
        rw [if_neg (by omega), hc]
        exact hraw i (by omega) h2
    by_cases hx : srcThrows cfg.triv x = true
    · rw [if_pos hx] at hev
      rw [List.countP_cons_of_pos hx]
      rcases k with _ | k
      · rw [if_pos rfl] at hev
        rw [if_pos (by omega)]
        unfold copyLoop
        apply bind_of_ub
        unfold M.tryRethrow
        have : (do let v ← evalSrc cfg x; construct cfg b o v : M (St α) Unit) s =
            .throw { s with mem := { s.mem with ticks := none } } := by
          show M.bind _ _ _ = _
          unfold M.bind
          rw [hev]
        rw [this]
        rfl
      · rw [if_neg (by omega)] at hev
        have := go k (ticked s k) rfl rfl rfl hev
        simp only [Nat.add_lt_add_iff_right]
        exact this
    · rw [if_neg hx] at hev
      rw [List.countP_cons_of_neg hx]
      exact go k s rfl rfl hk hev

theorem ctorRange_fault {m : Mem α} (hw : WF m) {srcs : List (Src α)} {vs : List α}
    (hv : SrcsOk m srcs vs) (d : Data) (k : Nat) :
    if k < srcs.countP (srcThrows cfg.triv) then
      ctorRange cfg srcs ⟨{ m with ticks := some (k + 1) }, d⟩ = .ub
    else ∃ s', ctorRange cfg srcs ⟨{ m with ticks := some (k + 1) }, d⟩ = .ok () s' := by
  set s1 : St α := ⟨{
      size := upd m.size m.next (some srcs.length)
      cell := upd m.cell m.next (fun _ => .raw)
      next := m.next + 1
      ticks := some k
      allocs := m.allocs + 1
      moves := m.moves
      copies := m.copies }, ⟨m.next, 0, srcs.length⟩⟩ with hs1
  have h1 : (ctorCap srcs.length : M (St α) Unit) ⟨{ m with ticks := some (k + 1) }, d⟩ = .ok () s1 := rfl
  have hlive : ∀ (src : Src α) (v : α), SrcOk m src v → SrcOk s1.mem src v ∧ Foreign m.next src := by
    intro src v h
    cases src with
    | val _ => exact ⟨h, trivial⟩
    | ref b i =>
      obtain ⟨g1, g2⟩ := h
      have hb : b ≠ m.next := by
        rintro rfl
        simp [inBounds, hw.fresh _ (Nat.le_refl _)] at g1
      exact ⟨⟨by simpa [inBounds, s1, upd, hb] using g1, by simpa [s1, upd, hb] using g2⟩, hb⟩
  have hfor : ∀ {ss : List (Src α)} {us : List α}, SrcsOk m ss us → ∀ x ∈ ss, Foreign m.next x := by
    intro ss
    induction ss with
    | nil => intro us _ x hx; simp at hx
    | cons y ss ih =>
      intro us hu x hx
      rcases us with _ | ⟨u, us⟩
      · exact hu.elim
      rcases List.mem_cons.mp hx with rfl | hx
      · exact (hlive _ _ hu.1).2
      · exact ih hu.2 x hx
  have key := copyLoop_fault (cfg := cfg) (b := m.next) (nb := srcs.length) srcs 0 k s1 vs
    (hv.imp fun s v _ h => (hlive s v h).1) (hfor hv) (by simp [s1, upd]) (by omega)
    (fun i _ _ => by simp [s1, upd]) rfl
  split at key
  · rename_i hlt
    rw [if_pos hlt]
    unfold ctorRange
    rw [bind_of_ok h1, bind_of_ok (show getD s1 = .ok s1.d s1 from rfl)]
    exact bind_of_ub (tryRethrow_ub key)
  · rename_i hlt
    rw [if_neg hlt]
    obtain ⟨s', hs'⟩ := key
    unfold ctorRange
    rw [bind_of_ok h1, bind_of_ok (show getD s1 = .ok s1.d s1 from rfl), bind_of_ok (b := ()) (s' := s')]
    · exact ⟨_, rfl⟩
    · unfold M.tryRethrow
      rw [show copyLoop cfg s1.d.blk 0 srcs s1 = .ok () s' from hs']

theorem resolveAll_countP {w : World α} {triv : Bool} : ∀ {args : List (Arg α)} {srcs : List (Src α)},
    resolveAll w args = some srcs → srcs.countP (srcThrows triv) = args.countP (mayThrow triv)
  | [], srcs, h => by simp only [resolveAll, Option.some.injEq] at h; subst h; rfl
  | arg :: args, srcs, h => by
    simp only [resolveAll] at h
    rcases h1 : resolve w arg with _ | s
    · simp [h1] at h
    rcases h2 : resolveAll w args with _ | ss
    · simp [h1, h2] at h
    simp only [h1, h2, Option.some.injEq] at h
    subst h
    have ih := resolveAll_countP (triv := triv) h2
    have hs : srcThrows triv s = mayThrow triv arg := by
      cases arg with
      | val v => simp only [resolve, Option.some.injEq] at h1; subst h1; rfl
      | elem y i =>
        simp only [resolve] at h1
        rcases hy : w.vars y with _ | d
        · rw [hy] at h1; cases h1
        · rw [hy, Option.map_some, Option.some.injEq] at h1; subst h1; rfl
    rw [List.countP_cons, List.countP_cons, ih, hs]

theorem refsOf_countP (triv : Bool) (d : Data) :
    (refsOf d : List (Src α)).countP (srcThrows triv) = if triv = true then 0 else d.size := by
  unfold refsOf
  rw [List.countP_map]
  cases triv
  · simp only [Bool.false_eq_true, if_false]
    rw [List.countP_eq_length.mpr (by intro a _; rfl), List.length_range]
  · simp only [if_true]
    rw [List.countP_eq_zero.mpr (by intro a _; simp [srcThrows])]

/-! ### Theorems -/

/-- C13, exactly, for the construction of an array from a range or an initializer list: with the
allocation succeeding and the `k`-th potentially throwing evaluation after it failing, the call is
undefined if and only if the range has that many such arguments; otherwise it completes. -/
theorem array_range_throw_exact {w : World α} (hw : Reached cfg w) {a : Nat} {args : List (Arg α)}
    {vs : List α} (ha : observe w a = none) (hv : argVals (observe w) args = some vs) (k : Nat) :
    (k < args.countP (mayThrow cfg.triv) → exec cfg (withFault w (k + 1)) (.ctorRange a args) = .ub) ∧
    (args.countP (mayThrow cfg.triv) ≤ k →
      ∃ w', exec cfg (withFault w (k + 1)) (.ctorRange a args) = .ok 0 w') := by
  obtain ⟨hinv, htk⟩ := hw.inv cfg
  obtain ⟨srcs, h1, h2, _⟩ := hinv.args cfg hv
  have hcnt := resolveAll_countP (triv := cfg.triv) h1
  have hnone := (hinv.none_iff a).mpr ha
  have h1' : resolveAll (withFault w (k + 1)) args = some srcs := by
    have : ∀ l : List (Arg α), resolveAll (withFault w (k + 1)) l = resolveAll w l := by
      intro l
      induction l with
      | nil => rfl
      | cons x l ih =>
        have hx : resolve (withFault w (k + 1)) x = resolve w x := by cases x <;> rfl
        simp only [resolveAll, ih, hx]
    rw [this, h1]
  have key := ctorRange_fault (cfg := cfg) hinv.wf h2 .null k
  rw [hcnt] at key
  simp only [exec, h1', onNew]
  rw [show (withFault w (k + 1)).vars a = none from hnone]
  constructor
  · intro hlt
    rw [if_pos hlt] at key
    simp only
    rw [show ctorRange cfg srcs ⟨(withFault w (k + 1)).mem, .null⟩ = .ub from key]
  · intro hle
    rw [if_neg (by omega)] at key
    obtain ⟨s', hs'⟩ := key
    simp only
    rw [show ctorRange cfg srcs ⟨(withFault w (k + 1)).mem, .null⟩ = .ok () s' from hs']
    exact ⟨_, rfl⟩

/-- C13, exactly, for copy construction: undefined if and only if the elements are of class type and one
of their copies fails, be it the first or the last. -/
theorem array_copy_throw_exact {w : World α} (hw : Reached cfg w) {a b : Nat} {xs : List α} {c : Nat}
    (ha : observe w a = none) (hb : observe w b = some (xs, c)) (k : Nat) :
    (cfg.triv = false ∧ k < xs.length → exec cfg (withFault w (k + 1)) (.ctorCopy a b) = .ub) ∧
    (cfg.triv = true ∨ xs.length ≤ k →
      ∃ w', exec cfg (withFault w (k + 1)) (.ctorCopy a b) = .ok 0 w') := by
  obtain ⟨hinv, htk⟩ := hw.inv cfg
  obtain ⟨d, hd, hh, hcap⟩ := hinv.get cfg hb
  have hsz := hh.size
  have hnone := (hinv.none_iff a).mpr ha
  have key := ctorRange_fault (cfg := cfg) hinv.wf (srcsOk_refs cfg hh) .null k
  rw [refsOf_countP] at key
  simp only [exec, onNew]
  rw [show (withFault w (k + 1)).vars b = some d from hd,
    show (withFault w (k + 1)).vars a = none from hnone]
  constructor
  · rintro ⟨ht, hlt⟩
    rw [if_pos (by simp [ht]; omega)] at key
    simp only
    rw [show ctorRange cfg (refsOf d) ⟨(withFault w (k + 1)).mem, .null⟩ = .ub from key]
  · intro hle
    rw [if_neg (by rcases hle with h | h <;> simp [h]; split <;> omega)] at key
    obtain ⟨s', hs'⟩ := key
    simp only
    rw [show ctorRange cfg (refsOf d) ⟨(withFault w (k + 1)).mem, .null⟩ = .ok () s' from hs']
    exact ⟨_, rfl⟩

/-- C13 for the assignments, which construct a temporary: the same failures are undefined. -/
theorem array_assign_throw_undefined {w : World α} (hw : Reached cfg w) {a : Nat} {ys : List α} {c : Nat}
    (ha : observe w a = some (ys, c)) (k : Nat) :
    (∀ b xs c', observe w b = some (xs, c') → cfg.triv = false → k < xs.length →
      exec cfg (withFault w (k + 1)) (.assignCopy a b) = .ub) ∧
    (∀ args vs, argVals (observe w) args = some vs → k < args.countP (mayThrow cfg.triv) →
      exec cfg (withFault w (k + 1)) (.assignList a args) = .ub) := by
  obtain ⟨hinv, htk⟩ := hw.inv cfg
  obtain ⟨da, hda, _, _⟩ := hinv.get cfg ha
  have via : ∀ srcs : List (Src α),
      ctorRange cfg srcs ⟨{ w.mem with ticks := some (k + 1) }, .null⟩ = .ub →
      onVar (withFault w (k + 1)) a (unit0 (assignVia cfg (ctorRange cfg srcs))) = .ub := by
    intro srcs h
    refine onVar_ub (d := da) hda (unit0_ub ?_)
    unfold assignVia
    rw [bind_of_ok (f := getD) rfl]
    apply bind_of_ub
    apply tryRethrow_ub
    rw [bind_of_ok (f := setD .null) (b := ()) (s' := ⟨{ w.mem with ticks := some (k + 1) }, .null⟩) rfl]
    exact h
  constructor
  · intro b xs c' hb ht hlt
    obtain ⟨d, hd, hh, hcap⟩ := hinv.get cfg hb
    have hsz := hh.size
    have key := ctorRange_fault (cfg := cfg) hinv.wf (srcsOk_refs cfg hh) .null k
    rw [refsOf_countP, if_pos (by simp [ht]; omega)] at key
    simp only [exec]
    rw [show (withFault w (k + 1)).vars b = some d from hd]
    exact via _ key
  · intro args vs hv hlt
    obtain ⟨srcs, h1, h2, _⟩ := hinv.args cfg hv
    have hcnt := resolveAll_countP (triv := cfg.triv) h1
    have h1' : resolveAll (withFault w (k + 1)) args = some srcs := by
      have : ∀ l : List (Arg α), resolveAll (withFault w (k + 1)) l = resolveAll w l := by
        intro l
        induction l with
        | nil => rfl
        | cons x l ih =>
          have hx : resolve (withFault w (k + 1)) x = resolve w x := by cases x <;> rfl
          simp only [resolveAll, ih, hx]
      rw [this, h1]
    have key := ctorRange_fault (cfg := cfg) hinv.wf h2 .null k
    rw [hcnt, if_pos hlt] at key
    simp only [exec, h1']
    exact via _ key

/-- The constructing loop stopped by a failure: the cells from the failing one on are untouched. -/
theorem constructLoop_fault {b nb : Nat} (srcs : List (Src α)) :
    ∀ (o k : Nat) (s : St α) (vs : List α), SrcsOk s.mem srcs vs → (∀ x ∈ srcs, Foreign b x) →
    s.mem.size b = some nb → o + srcs.length ≤ nb →
    (∀ i, o ≤ i → i < nb → s.mem.cell b i = .raw) → s.mem.ticks = some k →
    k < srcs.countP (srcThrows cfg.triv) →
    ∃ s', constructLoop cfg b o srcs s = .throw s' ∧ s'.d = s.d ∧ s'.mem.size = s.mem.size ∧
      ∃ j, o ≤ j ∧ j < o + srcs.length ∧ s'.mem.cell b j = .raw := by
  induction srcs with
  | nil => intro o k s vs _ _ _ _ _ _ h; simp at h
  | cons x srcs ih =>
    intro o k s vs hv hfor hsz hlen hraw hk hlt
    rcases vs with _ | ⟨v, vs⟩
    · exact hv.elim
    obtain ⟨hv1, hv2⟩ := hv
    simp only [List.length_cons] at hlen
    have hev := evalSrc_ticks (cfg := cfg) hv1 hk
    have go : ∀ (k' : Nat) (s1 : St α), s1.mem.size = s.mem.size → s1.mem.cell = s.mem.cell →
        s1.d = s.d → s1.mem.ticks = some k' → evalSrc cfg x s = .ok v s1 →
        k' < srcs.countP (srcThrows cfg.triv) →
        ∃ s', constructLoop cfg b o (x :: srcs) s = .throw s' ∧ s'.d = s.d ∧
          s'.mem.size = s.mem.size ∧
          ∃ j, o ≤ j ∧ j < o + (x :: srcs).length ∧ s'.mem.cell b j = .raw := by
      intro k' s1 hz hc hd hk1 he hlt'
      have hcon := construct_eq (cfg := cfg) (v := v) (s := s1) (b := b) (i := o) (nb := nb)
        (by rw [hz]; exact hsz) (by omega) (by rw [hc]; exact hraw o (Nat.le_refl _) (by omega))
      set s2 : St α := { s1 with mem := { s1.mem with cell := upd2 s1.mem.cell b o (.live v) } }
      have hstep : constructLoop cfg b o (x :: srcs) s = constructLoop cfg b (o + 1) srcs s2 := by
        conv => lhs; unfold constructLoop
        rw [bind_of_ok he, bind_of_ok hcon]
      rw [hstep]
      obtain ⟨s', g1, g2, g3, j, g4, g5, g6⟩ := ih (o + 1) k' s2 vs (by
        refine hv2.imp fun y u hy h => ?_
        have hf := hfor y (by simp [hy])
        cases y with
        | val _ => exact h
        | ref b' i =>
          obtain ⟨g1, g2⟩ := h
          refine ⟨by simpa [inBounds, s2, hz] using g1, ?_⟩
          simp only [s2, upd2]
          rw [if_neg (by rintro ⟨h', _⟩; exact hf h'), hc]
          exact g2) (fun y hy => hfor y (by simp [hy])) (by simp only [s2]; rw [hz]; exact hsz)
        (by omega) (by
          intro i h1 h2
          simp only [s2, upd2]
          rw [if_neg (by omega), hc]
          exact hraw i (by omega) h2) hk1 hlt'
      refine ⟨s', g1, by rw [g2]; exact hd, by rw [g3]; exact hz, j, by omega, ?_, g6⟩
      simp only [List.length_cons]; omega
    by_cases hx : srcThrows cfg.triv x = true
    · rw [if_pos hx] at hev
      rw [List.countP_cons_of_pos hx] at hlt
      rcases k with _ | k
      · rw [if_pos rfl] at hev
        refine ⟨{ s with mem := { s.mem with ticks := none } }, ?_, rfl, rfl, o, Nat.le_refl _,
          by simp, hraw o (Nat.le_refl _) (by omega)⟩
        unfold constructLoop
        show M.bind _ _ _ = _
        unfold M.bind
        rw [hev]
      · rw [if_neg (by omega)] at hev
        exact go k (ticked s k) rfl rfl rfl rfl hev (by omega)
    · rw [if_neg hx] at hev
      rw [List.countP_cons_of_neg hx] at hlt
      exact go k s rfl rfl rfl hk hev hlt

/-- Reading a raw cell. -/
theorem readAll_raw_ub {m : Mem α} {d : Data} {j : Nat} (hr : m.cell d.blk j = .raw) :
    ∀ (n i : Nat), i ≤ j → j < i + n → ∀ ys s', readAll n i (⟨m, d⟩ : St α) ≠ .ok ys s'
  | 0, i, h1, h2 => by omega
  | n + 1, i, h1, h2 => by
    intro ys s' h
    unfold readAll at h
    have hi : (index i : A α α) ⟨m, d⟩ = read d.blk i ⟨m, d⟩ := rfl
    change M.bind _ _ _ = _ at h
    unfold M.bind at h
    rw [hi] at h
    unfold read at h
    by_cases hb : inBounds m d.blk i = true
    · simp only [hb, if_true] at h
      rcases hc : m.cell d.blk i with _ | v
      · simp [hc] at h
      · simp only [hc] at h
        have hij : i ≠ j := by rintro rfl; rw [hr] at hc; cases hc
        change M.bind _ _ _ = _ at h
        unfold M.bind at h
        rcases hq : readAll n (i + 1) (⟨m, d⟩ : St α) with ⟨zs, t⟩ | t | _
        · exact readAll_raw_ub hr n (i + 1) (by omega) (by omega) zs t hq
        · rw [hq] at h; cases h
        · rw [hq] at h; cases h
    · simp [hb] at h

/-- C13 is false for `insert(end(), first, last)` of a class type with room for the range: if the
evaluation of an argument fails, the exception leaves the call with the size already increased; some
element of the array the client then sees does not exist. -/
theorem array_insert_range_throw_broken (ht : cfg.triv = false) {w : World α} (hw : Reached cfg w)
    {a : Nat} {xs : List α} {c : Nat} (ha : observe w a = some (xs, c)) {args : List (Arg α)}
    {vs : List α} (hv : argVals (observe w) args = some vs) (hown : args.any (ownArg a) = false)
    (hroom : xs.length + args.length ≤ c) {k : Nat} (hk : k < args.length) :
    ∃ w', exec cfg (withFault w k) (.insertRange a xs.length args) = .throw w' ∧
      observe w' a = none ∧ ∃ d, w'.vars a = some d ∧ d.size = xs.length + args.length := by
  obtain ⟨hinv, htk⟩ := hw.inv cfg
  obtain ⟨d, hd, hh, hcap⟩ := hinv.get cfg ha
  subst hcap
  have hsz := hh.size
  obtain ⟨srcs, h1, h2, h3, h4, _⟩ := hinv.args cfg hv
  have hcnt := resolveAll_countP (triv := cfg.triv) h1
  have hall : args.countP (mayThrow cfg.triv) = args.length :=
    List.countP_eq_length.mpr (by intro x _; cases x <;> simp [mayThrow, ht])
  have h1' : resolveAll (withFault w k) args = some srcs := by
    have : ∀ l : List (Arg α), resolveAll (withFault w k) l = resolveAll w l := by
      intro l
      induction l with
      | nil => rfl
      | cons x l ih =>
        have hx : resolve (withFault w k) x = resolve w x := by cases x <;> rfl
        simp only [resolveAll, ih, hx]
    rw [this, h1]
  set s1 : St α := ⟨(withFault w k).mem, { d with size := d.size + srcs.length }⟩ with hs1
  have hblk := hh.alive cfg (by omega)
  obtain ⟨s', g1, g2, g3, j, g4, g5, g6⟩ := constructLoop_fault (cfg := cfg) (b := d.blk) (nb := d.cap)
    srcs xs.length k s1 vs (h2.imp fun s v _ h => by cases s <;> exact h) (h4 a d (.inl hd) hown)
    hblk (by omega) (fun i q1 q2 => hh.rest ht i q1 q2) rfl (by omega)
  have hrun : insertRange cfg xs.length srcs ⟨(withFault w k).mem, d⟩ = .throw s' := by
    unfold insertRange
    rw [bind_of_ok (f := getD) rfl]
    dsimp only
    rw [if_neg (by omega), show d.size - xs.length = 0 by omega]
    rw [bind_of_ok (f := backLoop cfg false d.blk xs.length (xs.length + srcs.length) 0) rfl,
      bind_of_ok (f := setD { d with size := d.size + srcs.length }) (b := ()) (s' := s1) rfl]
    show M.bind _ _ _ = _
    unfold M.bind
    rw [g1]
  refine ⟨⟨s'.mem, upd w.vars a (some s'.d)⟩, ?_, ?_, s'.d, by simp [upd], ?_⟩
  · simp only [exec, h1', onVar]
    rw [show (withFault w k).vars a = some d from hd]
    simp only [hrun]
    rfl
  · unfold observe
    simp only [upd, if_true]
    rcases hq : readAll s'.d.size 0 (⟨s'.mem, s'.d⟩ : St α) with ⟨zs, t⟩ | t | _
    · exact absurd hq (readAll_raw_ub (d := s'.d) (j := j) (by rw [g2]; exact g6) _ _ (by omega)
        (by rw [g2]; simp only [s1]; omega) zs t)
    · rfl
    · rfl
  · rw [g2]; simp only [s1]; omega

/-! ### The situations do occur -/

example : ∃ w, Reached natObj w ∧ exec natObj (withFault w 3) (.ctorCopy 1 0) = .ub ∧
    (∃ w', exec natObj (withFault w 4) (.ctorCopy 1 0) = .ok 0 w') ∧
    exec natObj (withFault w 2) (.ctorRange 1 [.val 5, .elem 0 1]) = .ub ∧
    exec natObj (withFault w 1) (.assignCopy 0 0) = .ub := by
  obtain ⟨w, hw, h⟩ := class_demo 4 (by decide)
  have h0 : observe w 0 = some ([7, 8, 9], 4) := by rw [h]; rfl
  have h1 : observe w 1 = none := by rw [h]; rfl
  refine ⟨w, hw, (array_copy_throw_exact hw h1 h0 2).1 ⟨rfl, by decide⟩,
    (array_copy_throw_exact hw h1 h0 3).2 (.inr (by decide)),
    (array_range_throw_exact hw h1 (vs := [5, 8]) (by simp [argVals, argVal, h0]) 1).1 (by decide),
    (array_assign_throw_undefined hw h0 0).1 0 _ _ h0 rfl (by decide)⟩

example : ∃ w, Reached natObj w ∧ ∃ w',
    exec natObj (withFault w 1) (.insertRange 0 3 [.val 5, .val 6]) = .throw w' ∧ observe w' 0 = none := by
  obtain ⟨w, hw, h⟩ := class_demo 5 (by decide)
  have h0 : observe w 0 = some ([7, 8, 9], 5) := by rw [h]; rfl
  obtain ⟨w', g1, g2, _⟩ := array_insert_range_throw_broken rfl hw h0 (args := [.val 5, .val 6])
    (vs := [5, 6]) rfl rfl (by decide) (k := 1) (by decide)
  exact ⟨w, hw, w', g1, g2⟩

end Verif.Arr
