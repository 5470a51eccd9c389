import Verif.SPSC.ConcProps

/-! C27: every number below the capacity can be reported to a third thread. -/

set_option autoImplicit false

namespace Verif.SPSC.Conc

variable {α : Type} {cfg : Cfg}

/-- At no time more than one element was in the queue. -/
def AtMostOne (tr : List (Ev α)) : Prop :=
  ∀ p, p <+: tr → (pushedOk p).length ≤ (delivered p).length + 1

theorem prefix_append_cases (p a b : List (Ev α)) (h : p <+: a ++ b) :
    p <+: a ∨ ∃ c, p = a ++ c ∧ c <+: b := by
  induction a generalizing p with
  | nil => exact Or.inr ⟨p, rfl, h⟩
  | cons x a ih =>
    cases p with
    | nil => exact Or.inl List.nil_prefix
    | cons y p =>
      rw [List.cons_append, List.cons_prefix_cons] at h
      obtain ⟨rfl, h⟩ := h
      rcases ih p h with h | ⟨c, rfl, hc⟩
      · exact Or.inl (List.cons_prefix_cons.2 ⟨rfl, h⟩)
      · exact Or.inr ⟨c, rfl, hc⟩

/-- `d` times in turn: push one element, ask for the size, consume it. -/
theorem pingpong {k : Nat} (hk1 : 1 ≤ k) (hk : cfg.max.toNat = 2 ^ k) (hcfg : cfg.debug = true ∨ cfg.disciplined = true)
    (v : α) : ∀ d : Nat, ∃ (tr : List (Ev α)) (s : State α), Steps cfg (State.init α) tr s ∧ s.fault = none ∧
      s.ppc = .idle ∧ s.cpc = .idle ∧ s.w.length = d + 1 ∧ s.r.length = d + 1 ∧
      (pushedOk tr).length = (delivered tr).length ∧ AtMostOne tr
  | 0 => ⟨[], _, .refl, rfl, rfl, rfl, rfl, rfl, rfl, fun p hp => by
      rw [List.prefix_nil] at hp; subst hp; simp [pushedOk]⟩
  | d + 1 => by
    have hbig : 2 ≤ cfg.max.toNat := by
      rw [hk]; calc 2 = 2 ^ 1 := rfl
        _ ≤ 2 ^ k := Nat.pow_le_pow_right (by norm_num) hk1
    obtain ⟨tr, s, h1, h2, h3, h4, h5, h6, h7, h8⟩ := pingpong hk1 hk hcfg v d
    have e0 : Exec cfg tr s := by simpa using Exec.init.trans h1
    obtain ⟨s1, a1, a2, a3, a4, a5, a6, a7⟩ := run_push hk hcfg e0 h2 h3 (by omega) v
    have e1 := e0.trans a1
    obtain ⟨s2, n2, b1, b2, b3, b4, b5, b6, b7, b8, b9⟩ := run_readAvail hk hcfg e1 a2 (by rw [a4]; exact h4)
    have e2 := e1.trans b1
    obtain ⟨s3, x, c1, c2, c3, c4, c5, c6, c7⟩ := run_consume hk hcfg e2 b3 b4 (by intro _; omega)
      (by rw [b7, b8]; omega)
    refine ⟨_, s3, ((h1.trans a1).trans b1).trans c1, c2, by rw [c4, b5, a3], c3, by rw [c6, b7]; omega,
      by rw [c7, b8]; omega, ?_, ?_⟩
    · simp [pushedOk_append, delivered_append, pushedOk, delivered, h7]
    · intro p hp
      rw [List.append_assoc, List.append_assoc] at hp
      rcases prefix_append_cases p tr _ hp with hp | ⟨c, rfl, hc⟩
      · exact h8 p hp
      · rw [pushedOk_append, delivered_append, List.length_append, List.length_append]
        have : (pushedOk c).length ≤ 1 := by
          obtain ⟨t, ht⟩ := hc
          have := congrArg pushedOk ht
          rw [pushedOk_append] at this
          have := congrArg List.length this
          simp [pushedOk] at this
          omega
        omega

/-- **C27** Nothing more than `spsc_observer_partial` holds: for every capacity `N = 2^k` and every number `n` below it
there is a run in which the queue never holds more than one element, is empty at the end, and a third thread is
told `n`. -/
theorem spsc_observer_any_wrong {k : Nat} (hk1 : 1 ≤ k) (max : Size) (hk : max.toNat = 2 ^ k) (v : α) (n : Size)
    (hn : n.toNat < max.toNat) :
    ∃ (s2 : State α) (tr : List (Ev α)), ObserverReads ⟨max, true, true⟩ (State.init α) tr s2 n ∧ AtMostOne tr ∧
      inQueue s2 = 0 := by
  have hpos : 0 < max.toNat := by rw [hk]; exact Nat.two_pow_pos k
  have hlt := max.isLt
  obtain ⟨tr, s, h1, h2, h3, h4, h5, h6, h7, h8⟩ :=
    pingpong (cfg := ⟨max, true, true⟩) hk1 hk (by simp) v (max.toNat - n.toNat)
  have e : Exec ⟨max, true, true⟩ tr s := by simpa using Exec.init.trans h1
  obtain ⟨W, R, vals, i⟩ := exec_inv (cfg := ⟨max, true, true⟩) hk (by simp) e
  refine ⟨s, tr, ⟨h1, ⟨0, ⟨0, 0⟩⟩, by simp [State.init], ?_⟩, h8, by simp only [inQueue]; omega⟩
  obtain ⟨msg, hmsg⟩ : ∃ msg, s.r[max.toNat - n.toNat]? = some msg :=
    ⟨_, List.getElem?_eq_getElem (by omega)⟩
  refine ⟨msg, List.mem_of_getElem? hmsg, ?_⟩
  have hval := (i.rmsg _ msg hmsg).1
  simp only at hval
  rw [hval]
  have h1 : (idx max.toNat (max.toNat - n.toNat)).toNat = (max.toNat - n.toNat) % max.toNat := idx_toNat hpos hlt _
  apply BitVec.eq_of_toNat_eq
  by_cases h0 : n.toNat = 0
  · rw [h0, Nat.sub_zero, Nat.mod_self] at h1
    rw [readAvail, if_pos (by rw [ge_iff_le, BitVec.le_def, h0, Nat.sub_zero, h1]; simp), BitVec.toNat_sub, h0,
      Nat.sub_zero, h1]
    simp
  · rw [Nat.mod_eq_of_lt (by omega)] at h1
    rw [readAvail, if_neg (by rw [ge_iff_le, BitVec.le_def, h1]; simp; omega), BitVec.toNat_sub, BitVec.toNat_add, h1]
    simp only [BitVec.ofNat_eq_ofNat, BitVec.toNat_ofNat, Nat.zero_mod, Nat.zero_add]
    omega

/-- A queue of capacity 4 that never holds more than one element and is said to hold two. -/
example : ∃ (s2 : State Nat) (tr : List (Ev Nat)),
    ObserverReads ⟨4, true, true⟩ (State.init Nat) tr s2 2 ∧ AtMostOne tr ∧ inQueue s2 = 0 :=
  spsc_observer_any_wrong (k := 2) (by omega) 4 rfl 7 2 (by decide)

end Verif.SPSC.Conc
