import Verif.SPSC.ConcProps

/-! Exceptions of user code while the other thread runs (C30). -/

set_option autoImplicit false

namespace Verif.SPSC.Conc

variable {α : Type} {cfg : Cfg} {tr : List (Ev α)} {s : State α}

theorem step_vals {e : Option (Ev α)} {s' : State α} (hs : Step cfg s e s') :
    pushedOk tr ++ s.ppc.tail <+: pushedOk (tr ++ e.toList) ++ s'.ppc.tail := by
  cases hs with
  | popDestroy _ _ _ _ _ he =>
    subst he
    split <;> simp [pushedOk_append, pushedOk, setSlot]
  | _ => simp_all [PPc.tail, pushedOk_append, pushedOk, setSlot, storeR]

theorem steps_vals {tr' : List (Ev α)} {s' : State α} (hs : Steps cfg s tr' s') :
    pushedOk tr ++ s.ppc.tail <+: pushedOk (tr ++ tr') ++ s'.ppc.tail := by
  induction hs with
  | refl => simp
  | snoc _ h ih =>
    rw [← List.append_assoc]
    exact ih.trans (step_vals h)

/-- The element the user's function is called with is the first one that was not removed. -/
theorem handed_first {k : Nat} (hk : cfg.max.toNat = 2 ^ k)
    (hcfg : cfg.debug = true ∨ cfg.disciplined = true) (h : Exec cfg tr s) {s' : State α} {v : α}
    (hs : Step cfg s (some (.got v)) s' ∨ Step cfg s (some (.fnThrew v)) s') :
    (pushedOk tr ++ s.ppc.tail)[(delivered tr).length]? = some v := by
  have hpos : 0 < cfg.max.toNat := by rw [hk]; exact Nat.two_pow_pos k
  have hN := cfg.max.isLt
  obtain ⟨W, R, vals, i⟩ := exec_inv hk hcfg h
  have key : ∀ ri, s.cpc = .c3 ri → (s.slots ri.toNat).cell = some v →
      (pushedOk tr ++ s.ppc.tail)[(delivered tr).length]? = some v := by
    intro ri hpc hcell
    have hcpc := i.cpc
    have hsl := i.slots
    have hdl := i.delLen
    have hcw := i.cseenW
    rw [hpc] at hcpc hsl hdl
    simp only [CPc.ok, CPc.gone, CPc.given, Nat.add_zero] at hcpc hsl hdl
    have hri : ri.toNat = R % cfg.max.toNat := by rw [hcpc.1, idx_toNat hpos hN]
    obtain ⟨v', h1, h2⟩ := hsl.live R (by omega) (by omega)
    rw [hri, h2] at hcell
    rw [hdl, ← i.valsEq, h1, hcell]
  rcases hs with hs | hs
  · cases hs with
    | consumeFn _ hpc _ hcell _ => exact key _ hpc hcell
    | popDestroy _ _ _ _ _ he => split at he <;> cases he
  · cases hs with
    | consumeFnThrows _ hpc _ hcell _ => exact key _ hpc hcell
    | popDestroy _ _ _ _ _ he => split at he <;> cases he

/-- **C30** The function passed to `consume` throws while the producer runs: nothing is removed, and whatever both
threads do until the consumer removes an element, the next call of a function, be it by `consume` or a retry that
throws again, is for the same element. -/
theorem spsc_consume_throw_concurrent {k : Nat} (hk : cfg.max.toNat = 2 ^ k)
    (hcfg : cfg.debug = true ∨ cfg.disciplined = true) (h : Exec cfg tr s) {s1 s2 s3 : State α} {v v' : α}
    {tr' : List (Ev α)} (hs : Step cfg s (some (.fnThrew v)) s1) (ht : Steps cfg s1 tr' s2) (hd : delivered tr' = [])
    (hs' : Step cfg s2 (some (.got v')) s3 ∨ Step cfg s2 (some (.fnThrew v')) s3) :
    delivered (tr ++ [.fnThrew v]) = delivered tr ∧ s1.w = s.w ∧ s1.r = s.r ∧ s1.cpc = .idle ∧
    s1.fault = none ∧ v' = v := by
  refine ⟨by simp [delivered_append, delivered], ?_, ?_, ?_, ?_, ?_⟩
  · cases hs with
    | consumeFnThrows => rfl
    | popDestroy _ _ _ _ _ he => split at he <;> cases he
  · cases hs with
    | consumeFnThrows => rfl
    | popDestroy _ _ _ _ _ he => split at he <;> cases he
  · cases hs with
    | consumeFnThrows => rfl
    | popDestroy _ _ _ _ _ he => split at he <;> cases he
  · cases hs with
    | consumeFnThrows hf => exact hf
    | popDestroy _ _ _ _ _ he => split at he <;> cases he
  · have e1 := handed_first hk hcfg h (Or.inr hs)
    have e2 := handed_first hk hcfg ((h.step hs).trans ht) hs'
    have e3 : (delivered (tr ++ (some (Ev.fnThrew v)).toList ++ tr')).length = (delivered tr).length := by
      simp [delivered_append, delivered, hd]
    rw [e3] at e2
    have p1 := (step_vals (tr := tr) hs).trans (steps_vals ht)
    obtain ⟨l, hl⟩ := p1
    rw [← hl, List.getElem?_append_left (List.getElem?_eq_some_iff.mp e1).1, e1] at e2
    exact (Option.some.inj e2).symm

/-- **C30** The constructor of the element throws while the consumer runs: nothing is published, no slot changes, and
the element is not offered to the consumer. -/
theorem spsc_push_throw_concurrent {s' : State α} {v : α} (hs : Step cfg s (some (.pushThrow v)) s') :
    s'.slots = s.slots ∧ s'.w = s.w ∧ s'.r = s.r ∧ s'.ppc = .idle ∧ s'.fault = none ∧
    offered (tr ++ [.pushThrow v]) = pushedOk tr := by
  have h : s'.slots = s.slots ∧ s'.w = s.w ∧ s'.r = s.r ∧ s'.ppc = .idle ∧ s'.fault = none := by
    cases hs with
    | pushConstructThrows hf => exact ⟨rfl, rfl, rfl, rfl, hf⟩
    | popDestroy _ _ _ _ _ he => split at he <;> cases he
  exact ⟨h.1, h.2.1, h.2.2.1, h.2.2.2.1, h.2.2.2.2, by simp [offered, pushedOk_append, pushedOk, pending_snoc]⟩

/-- A concrete run: capacity 4, assertions on; 7 is pushed, the function throws, and is then handed 7 again. -/
example : ∃ (tr tr' : List (Ev Nat)) (s s1 s2 s3 : State Nat), Exec ⟨4, true, false⟩ tr s ∧
    Step ⟨4, true, false⟩ s (some (.fnThrew 7)) s1 ∧ Steps ⟨4, true, false⟩ s1 tr' s2 ∧ delivered tr' = [] ∧
    Step ⟨4, true, false⟩ s2 (some (.got 7)) s3 := by
  have e0 := Exec.init (α := Nat) (cfg := ⟨4, true, false⟩)
  have e1 := e0.step (Step.pushCall (v := 7) rfl rfl)
  have e2 := e1.step (Step.pushLoadW (m := 0) rfl rfl rfl)
  have e3 := e2.step (Step.pushRoom (m := 0) rfl rfl rfl (by decide))
  have e4 := e3.step (Step.pushConstruct rfl rfl (by decide) rfl (by show (0 : Nat) ≤ _; omega))
  have e5 := e4.step (Step.pushStore rfl rfl)
  have e6 := e5.step (Step.popCall (fn := true) rfl rfl (by simp))
  have e7 := e6.step (Step.popLoadR (m := 0) rfl rfl rfl)
  have e8 := e7.step (Step.popAssertHolds (m := 1) rfl rfl rfl (by decide))
  refine ⟨_, _, _, _, _, _, e8, Step.consumeFnThrows rfl rfl (by decide) rfl ?_,
    ((Steps.refl.snoc (Step.popCall (fn := true) rfl rfl (by simp))).snoc
      (Step.popLoadR (m := 0) rfl rfl rfl)).snoc (Step.popAssertHolds (m := 1) rfl rfl rfl (by decide)), rfl,
    Step.consumeFn rfl rfl (by decide) rfl ?_⟩
  · show (_ : Nat) ≤ _; decide
  · show (_ : Nat) ≤ _; decide

end Verif.SPSC.Conc
