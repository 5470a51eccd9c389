import Verif.Array.Refine

/-! Reachable states of programs over arrays (helper lemmas for `Verif.Array.Props`). -/

set_option autoImplicit false

namespace Verif.Arr

variable {α : Type} (cfg : Elem α)

theorem wp_readAll {m : Mem α} {d : Data} {xs : List α} (hh : Holds cfg m d xs)
    {E : St α → Prop} : ∀ (n i : Nat), i + n = xs.length →
    wp (readAll n i) ⟨m, d⟩ (fun ys s' => ys = xs.drop i ∧ s' = ⟨m, d⟩) E
  | 0, i, h => by
    unfold readAll
    rw [wp_pure]
    exact ⟨by rw [List.drop_of_length_le (by omega)], rfl⟩
  | n + 1, i, h => by
    have hsz := hh.size
    have hle := hh.le
    unfold readAll
    rw [wp_bind]
    unfold index
    rw [wp_bind, wp_getD]
    refine wp_read ((inBounds_iff (hh.alive cfg (by omega))).mpr (by omega))
      (hh.cells i (by omega)) ?_
    rw [wp_bind]
    refine wp_mono (wp_readAll hh n (i + 1) (by omega)) ?_ (fun _ h => h)
    rintro ys s' ⟨rfl, rfl⟩
    rw [wp_pure]
    exact ⟨(List.drop_eq_getElem_cons (by omega)).symm, rfl⟩

theorem Inv.observe {w : World α} {A : AWorld α} (h : Inv cfg w A) : observe w = A := by
  funext a
  unfold Arr.observe
  rcases hA : A a with _ | ⟨xs, c⟩
  · rw [(h.none_iff a).mpr hA]
  · obtain ⟨d, hd, hh, hc⟩ := h.get cfg hA
    rw [hd]
    simp only
    have := wp_readAll cfg hh (E := fun _ => False) d.size 0 (by rw [Nat.zero_add]; exact hh.size)
    unfold wp at this
    rcases hr : readAll d.size 0 (⟨w.mem, d⟩ : St α) with ⟨ys, s'⟩ | s' | _
    · rw [hr] at this
      simp only
      rw [this.1, hc]; rfl
    · rw [hr] at this; exact this.elim
    · rw [hr] at this; exact this.elim

/-- The history `ops` stays inside what is claimed: every call meets its precondition, and for class
types it is one of the calls that treat such elements correctly. -/
def okRun (A : AWorld α) : List (Op α) → Prop
  | [] => True
  | op :: ops => (cfg.triv = true ∨ classSafe A op) ∧
      ∃ A' r, specStep A op = some (A', r) ∧ okRun A' ops

/-- Program states in which no exception is pending. -/
def Reached (w : World α) : Prop :=
  ∃ ops rs, okRun cfg AWorld.init ops ∧ run cfg World.init ops = .ok rs w

theorem exec_ok {w : World α} {A A' : AWorld α} {op : Op α} {r : Nat} (h : Inv cfg w A)
    (ht : w.mem.ticks = none) (hs : specStep A op = some (A', r))
    (hc : cfg.triv = true ∨ classSafe A op) :
    ∃ w', exec cfg w op = .ok r w' ∧ Inv cfg w' A' ∧ w'.mem.ticks = none := by
  have := exec_good cfg h hs hc (.inl ht)
  rcases hr : exec cfg w op with ⟨r', w'⟩ | w' | _
  · rw [hr] at this
    obtain ⟨rfl, h1, h2⟩ := this
    exact ⟨w', rfl, h1, h2 ht⟩
  · rw [hr] at this; exact absurd ht this.1
  · rw [hr] at this; exact this.elim

theorem run_ok : ∀ {ops : List (Op α)} {w : World α} {A : AWorld α}, Inv cfg w A →
    w.mem.ticks = none → okRun cfg A ops →
    ∃ A' rs w', specRun A ops = some (A', rs) ∧ run cfg w ops = .ok rs w' ∧ Inv cfg w' A' ∧
      w'.mem.ticks = none
  | [], w, A, h, ht, _ => ⟨A, [], w, rfl, rfl, h, ht⟩
  | op :: ops, w, A, h, ht, ho => by
    obtain ⟨hc, A1, r, hs, ho⟩ := ho
    obtain ⟨w1, g1, g2, g3⟩ := exec_ok cfg h ht hs hc
    obtain ⟨A', rs, w', f1, f2, f3, f4⟩ := run_ok g2 g3 ho
    exact ⟨A', r :: rs, w', by simp [specRun, hs, f1], by simp [run, g1, f2], f3, f4⟩

theorem Reached.inv {w : World α} (h : Reached cfg w) :
    Inv cfg w (observe w) ∧ w.mem.ticks = none := by
  obtain ⟨ops, rs, h1, h2⟩ := h
  obtain ⟨A', rs', w', _, g2, g3, g4⟩ := run_ok cfg (Inv.init cfg) rfl h1
  rw [h2] at g2
  cases g2
  rw [g3.observe cfg]
  exact ⟨g3, g4⟩

theorem okRun_append : ∀ {ops : List (Op α)} {A A' : AWorld α} {rs : List Nat} {ops' : List (Op α)},
    okRun cfg A ops → specRun A ops = some (A', rs) → okRun cfg A' ops' → okRun cfg A (ops ++ ops')
  | [], A, A', rs, ops', _, hs, ho' => by
    simp only [specRun, Option.some.injEq, Prod.mk.injEq] at hs
    rw [hs.1]; exact ho'
  | op :: ops, A, A', rs, ops', ho, hs, ho' => by
    obtain ⟨hc, A1, r, hs1, ho⟩ := ho
    simp only [specRun, hs1] at hs
    rcases h2 : specRun A1 ops with _ | ⟨A2, rs2⟩
    · simp [h2] at hs
    · simp only [h2, Option.some.injEq, Prod.mk.injEq] at hs
      obtain ⟨rfl, _⟩ := hs
      exact ⟨hc, A1, r, hs1, okRun_append ho h2 ho'⟩

theorem run_append : ∀ {ops : List (Op α)} {w w' : World α} {rs : List Nat} {ops' : List (Op α)},
    run cfg w ops = .ok rs w' →
    run cfg w (ops ++ ops') = match run cfg w' ops' with
      | .ok rs' w'' => .ok (rs ++ rs') w''
      | .throw w'' => .throw w''
      | .ub => .ub
  | [], w, w', rs, ops', h => by
    simp only [run] at h
    cases h
    simp only [List.nil_append]
    cases run cfg w ops' <;> rfl
  | op :: ops, w, w', rs, ops', h => by
    simp only [run, List.cons_append] at h ⊢
    rcases he : exec cfg w op with ⟨r, w1⟩ | w1 | _
    · simp only [he] at h ⊢
      rcases hr : run cfg w1 ops with ⟨rs1, w2⟩ | w2 | _
      · simp only [hr] at h
        cases h
        rw [run_append hr]
        cases run cfg w' ops' <;> rfl
      · simp [hr] at h
      · simp [hr] at h
    · simp [he] at h
    · simp [he] at h

/-- One more call on a reached state. -/
theorem Reached.step {w : World α} (h : Reached cfg w) {op : Op α} {A' : AWorld α} {r : Nat}
    (hs : specStep (observe w) op = some (A', r))
    (hc : cfg.triv = true ∨ classSafe (observe w) op) :
    ∃ w', exec cfg w op = .ok r w' ∧ observe w' = A' ∧ Reached cfg w' := by
  obtain ⟨hi, ht⟩ := h.inv cfg
  obtain ⟨w', g1, g2, g3⟩ := exec_ok cfg hi ht hs hc
  refine ⟨w', g1, g2.observe cfg, ?_⟩
  obtain ⟨ops, rs, h1, h2⟩ := h
  obtain ⟨A1, rs1, w1, f1, f2, f3, _⟩ := run_ok cfg (Inv.init cfg) rfl h1
  rw [h2] at f2
  cases f2
  rw [f3.observe cfg] at hs hc
  refine ⟨ops ++ [op], rs ++ [r], okRun_append cfg h1 f1 ⟨hc, A', r, hs, trivial⟩, ?_⟩
  rw [run_append cfg h2]
  simp [run, g1]

/-- A call does not change arrays it is not about. -/
def Op.touches (x : Nat) : Op α → Prop
  | .ctorMove a b | .assignMove a b | .swap a b => x = a ∨ x = b
  | op => x = op.target

theorem specStep_frame {A A' : AWorld α} {op : Op α} {r x : Nat}
    (hs : specStep A op = some (A', r)) (hx : ¬ op.touches x) : A' x = A x := by
  have hcreate : ∀ (a : Nat) (o : List α × Nat), x ≠ a → create A a o = some (A', r) →
      A' x = A x := by
    intro a o hne hcr
    unfold create at hcr
    split at hcr
    · simp only [Option.some.injEq, Prod.mk.injEq] at hcr
      rw [← hcr.1]; simp [put, hne]
    · cases hcr
  have hmem : ∀ op : Op α, (∃ xs c e, A op.target = some (xs, c) ∧ member A xs c op = some e ∧
      A' = put A op.target (some (e.xs, e.cap)) ∧ r = e.ret) → x ≠ op.target → A' x = A x := by
    rintro op ⟨xs, c, e, _, _, rfl, _⟩ hne
    simp [put, hne]
  cases op with
  | ctor a => exact hcreate a _ hx hs
  | ctorCap a n => exact hcreate a _ hx hs
  | ctorFill a n v => exact hcreate a _ hx hs
  | ctorRange a args =>
    simp only [specStep] at hs
    split at hs
    · exact hcreate a _ hx hs
    · cases hs
  | ctorCopy a b =>
    simp only [specStep] at hs
    split at hs
    · exact hcreate a _ hx hs
    · cases hs
  | ctorMove a b =>
    simp only [Op.touches, not_or] at hx
    simp only [specStep] at hs
    split at hs
    · simp only [Option.some.injEq, Prod.mk.injEq] at hs
      rw [← hs.1]; simp [put, hx.1, hx.2]
    · cases hs
  | dtor a =>
    simp only [specStep] at hs
    split at hs
    · simp only [Option.some.injEq, Prod.mk.injEq] at hs
      have : x ≠ a := hx
      rw [← hs.1]; simp [put, this]
    · cases hs
  | assignMove a b =>
    simp only [Op.touches, not_or] at hx
    simp only [specStep] at hs
    split at hs
    · simp only [Option.some.injEq, Prod.mk.injEq] at hs
      rw [← hs.1]; split
      · rfl
      · simp [put, hx.1, hx.2]
    · cases hs
  | swap a b =>
    simp only [Op.touches, not_or] at hx
    simp only [specStep] at hs
    split at hs
    · simp only [Option.some.injEq, Prod.mk.injEq] at hs
      rw [← hs.1]; simp [put, hx.1, hx.2]
    · cases hs
  | _ => exact hmem _ (member_step hs rfl) hx

end Verif.Arr
