import Verif.SPSC.Conc

/-! Inductive invariant of the concurrent queue model (helper lemmas; the property theorems are
in `Verif/SPSC/Props.lean`). -/

set_option autoImplicit false

namespace Verif.SPSC.Conc

variable {α : Type}

/-- Pushes still guaranteed to succeed by the producer's `write_available()` results. -/
def owed : List (Ev α) → Nat :=
  List.foldl (fun acc e => match e with
    | .pWriteAvail n => max acc n.toNat
    | .pushRet _ true => acc - 1
    | _ => acc) 0

/-- Value constructed but whose push has not yet returned. -/
def PPc.tail : PPc α → List α
  | .e4 v _ => [v]
  | .e5 v => [v]
  | _ => []

/-- 1 if a slot has been constructed but not published. -/
def PPc.extra : PPc α → Nat
  | .e4 _ _ => 1
  | _ => 0

def PPc.arg : PPc α → Option α
  | .e1 v => some v
  | .e2 v _ => some v
  | .e3 v _ => some v
  | .e4 v _ => some v
  | .e5 v => some v
  | _ => none

/-- 1 if the element at the read index has already been destroyed. -/
def CPc.gone : CPc α → Nat
  | .c5 _ => 1
  | _ => 0

/-- 1 if the element at the read index has already been handed out. -/
def CPc.given : CPc α → Nat
  | .c5 _ => 1
  | .c4 true _ => 1
  | _ => 0

def PPc.ok (N W : Nat) (t : Thread) (ow : Nat) : PPc α → Prop
  | .idle => W + ow < t.seenR + N
  | .e1 _ => W + ow < t.seenR + N
  | .e2 _ wi => W + ow < t.seenR + N ∧ wi = idx N W
  | .e3 _ wi => W + ow < t.seenR + N ∧ wi = idx N W ∧ W + 1 < t.seenR + N ∧ W + 1 < t.clk.c + N
  | .e4 _ wi => W + ow < t.seenR + N ∧ wi = idx N W ∧ W + 1 < t.seenR + N
  | .e5 _ => W + (ow - 1) < t.seenR + N
  | .wa1 => W + ow < t.seenR + N
  | .wa2 wi => W + ow < t.seenR + N ∧ wi = idx N W
  | .ra1 => W + ow < t.seenR + N
  | .ra2 wi => W + ow < t.seenR + N ∧ wi = idx N W

def CPc.ok (N R : Nat) (t : Thread) (disc dbg : Bool) (b : Nat) : CPc α → Prop
  | .idle => disc = true → R + b ≤ t.seenW ∧ R + b ≤ t.clk.p
  | .c1 _ => disc = true → R + 1 + b ≤ t.seenW ∧ R + 1 + b ≤ t.clk.p
  | .c2 _ ri => ri = idx N R ∧ dbg = true ∧
      (disc = true → R + 1 + b ≤ t.seenW ∧ R + 1 + b ≤ t.clk.p)
  | .c3 ri => ri = idx N R ∧ R + 1 ≤ t.seenW ∧ R + 1 ≤ t.clk.p ∧
      (disc = true → R + 1 + b ≤ t.seenW ∧ R + 1 + b ≤ t.clk.p)
  | .c4 _ ri => ri = idx N R ∧ R + 1 ≤ t.seenW ∧ R + 1 ≤ t.clk.p ∧
      (disc = true → R + 1 + b ≤ t.seenW ∧ R + 1 + b ≤ t.clk.p)
  | .c5 ri => ri = idx N R ∧ R + 1 ≤ t.seenW ∧ R + 1 ≤ t.clk.p ∧
      (disc = true → R + 1 + b ≤ t.seenW ∧ R + 1 + b ≤ t.clk.p)
  | .ra1 => disc = true → R + b ≤ t.seenW ∧ R + b ≤ t.clk.p
  | .ra2 wi => (disc = true → R + b ≤ t.seenW ∧ R + b ≤ t.clk.p) ∧
      ∃ m, wi = idx N m ∧ R ≤ m ∧ m ≤ t.seenW ∧ m ≤ t.clk.p
  | .wa1 => disc = true → R + b ≤ t.seenW ∧ R + b ≤ t.clk.p
  | .wa2 wi => (disc = true → R + b ≤ t.seenW ∧ R + b ≤ t.clk.p) ∧
      ∃ m, wi = idx N m ∧ R ≤ m ∧ m ≤ t.seenW

/-- The slots hold exactly the elements with numbers in `[lo, hi)`. -/
structure SlotsOk (N lo hi given : Nat) (vals : List α) (slots : Nat → Slot α) : Prop where
  live : ∀ j, lo ≤ j → j < hi → ∃ v, vals[j]? = some v ∧ (slots (j % N)).cell = some v
  dead : ∀ i, (∀ j, lo ≤ j → j < hi → j % N ≠ i) → (slots i).cell = none
  lastP : ∀ i, (slots i).lastP = 0 ∨ ∃ j, j < hi ∧ j % N = i ∧ (slots i).lastP = j + 1
  lastC : ∀ i, (slots i).lastC = 0 ∨ ∃ j, j < given ∧ j % N = i ∧ (slots i).lastC = j + 1

structure Inv (cfg : Cfg) (tr : List (Ev α)) (s : State α) (W R : Nat) (vals : List α) : Prop where
  wlen : s.w.length = W + 1
  rlen : s.r.length = R + 1
  wmsg : ∀ m msg, s.w[m]? = some msg →
    msg.val = idx cfg.max.toNat m ∧ msg.view.p = m ∧ msg.view.c ≤ R
  rmsg : ∀ m msg, s.r[m]? = some msg →
    msg.val = idx cfg.max.toNat m ∧ msg.view.c = m ∧ msg.view.p ≤ W
  pseenW : s.prod.seenW = W
  pseenR : s.prod.seenR ≤ R
  cseenR : s.cons.seenR = R
  cseenW : s.cons.seenW ≤ W
  room : W < s.prod.seenR + cfg.max.toNat
  avail : R ≤ s.cons.seenW
  pclkP : s.prod.clk.p = W + 1
  pclkC : s.prod.clk.c ≤ R
  cclkC : s.cons.clk.c = R + 1
  cclkP : s.cons.clk.p ≤ W
  ppc : s.ppc.ok cfg.max.toNat W s.prod (owed tr)
  cpc : s.cpc.ok cfg.max.toNat R s.cons cfg.disciplined cfg.debug s.budget
  slots : SlotsOk cfg.max.toNat (R + s.cpc.gone) (W + s.ppc.extra) (min (R + 1) W) vals s.slots
  valsEq : vals = pushedOk tr ++ s.ppc.tail
  valsLen : vals.length = W + s.ppc.extra
  pend : pending tr = s.ppc.arg
  delLen : (delivered tr).length = R + s.cpc.given
  del : ∀ (j : Nat) (v : α), (delivered tr)[j]? = some (some v) → vals[j]? = some v
  flt : s.fault = none ∨ (s.fault = some .assertion ∧ cfg.debug = true ∧ cfg.disciplined = false)

/-! ### trace lemmas -/

theorem pushedOk_append (a b : List (Ev α)) : pushedOk (a ++ b) = pushedOk a ++ pushedOk b := by
  induction a with
  | nil => simp [pushedOk]
  | cons e a ih =>
    cases e with
    | pushRet v ok => cases ok <;> simp [pushedOk, ih]
    | _ => simp [pushedOk, ih]

theorem delivered_append (a b : List (Ev α)) : delivered (a ++ b) = delivered a ++ delivered b := by
  induction a with
  | nil => simp [delivered]
  | cons e a ih => cases e <;> simp [delivered, ih]

theorem pending_snoc (a : List (Ev α)) (e : Ev α) : pending (a ++ [e]) =
    match e with
    | .pushCall v => some v
    | .pushRet _ _ => none
    | .pushThrow _ => none
    | _ => pending a := by
  simp only [pending, List.foldl_append, List.foldl_cons, List.foldl_nil]
  cases e <;> rfl

theorem owed_snoc (a : List (Ev α)) (e : Ev α) : owed (a ++ [e]) =
    match e with
    | .pWriteAvail n => max (owed a) n.toNat
    | .pushRet _ true => owed a - 1
    | _ => owed a := by
  simp only [owed, List.foldl_append, List.foldl_cons, List.foldl_nil]

/-! ### load lemmas -/

theorem loadW_some {s : State α} {t t' : Thread} {o : Order} {m : Nat} {x : Size}
    (h : loadW s t o m = some (x, t')) :
    ∃ msg, s.w[m]? = some msg ∧ t.seenW ≤ m ∧ m < s.w.length ∧ x = msg.val ∧
      t'.seenW = m ∧ t'.seenR = t.seenR ∧
      t'.clk = if o = .acquire then t.clk.join msg.view else t.clk := by
  unfold loadW at h
  split at h
  · cases h
  · rename_i msg hm
    split at h
    · rename_i hle
      simp only [Option.some.injEq, Prod.mk.injEq] at h
      obtain ⟨rfl, rfl⟩ := h
      exact ⟨msg, hm, hle, (List.getElem?_eq_some_iff.mp hm).1, rfl, rfl, rfl, rfl⟩
    · cases h

theorem loadR_some {s : State α} {t t' : Thread} {o : Order} {m : Nat} {x : Size}
    (h : loadR s t o m = some (x, t')) :
    ∃ msg, s.r[m]? = some msg ∧ t.seenR ≤ m ∧ m < s.r.length ∧ x = msg.val ∧
      t'.seenR = m ∧ t'.seenW = t.seenW ∧
      t'.clk = if o = .acquire then t.clk.join msg.view else t.clk := by
  unfold loadR at h
  split at h
  · cases h
  · rename_i msg hm
    split at h
    · rename_i hle
      simp only [Option.some.injEq, Prod.mk.injEq] at h
      obtain ⟨rfl, rfl⟩ := h
      exact ⟨msg, hm, hle, (List.getElem?_eq_some_iff.mp hm).1, rfl, rfl, rfl, rfl⟩
    · cases h

theorem inv_init (cfg : Cfg) (hpos : 0 < cfg.max.toNat) :
    Inv cfg [] (State.init α) 0 0 [] := by
  have h0 : idx cfg.max.toNat 0 = 0 := by simp [idx]
  constructor <;> try (simp [State.init, PPc.ok, CPc.ok, owed, PPc.extra, PPc.tail, CPc.gone,
    CPc.given, pushedOk, delivered, pending, PPc.arg, hpos]; done)
  · intro m msg h
    simp only [State.init] at h
    rcases m with _ | m
    · simp at h; subst h; simp [h0]
    · simp at h
  · intro m msg h
    simp only [State.init] at h
    rcases m with _ | m
    · simp at h; subst h; simp [h0]
    · simp at h
  · constructor <;> simp [State.init, CPc.gone, PPc.extra]

/-! ### slot lemmas -/

theorem SlotsOk.free {N lo hi g : Nat} {vals : List α} {slots : Nat → Slot α}
    (h : SlotsOk N lo hi g vals slots) (h2 : hi < lo + N) :
    (slots (hi % N)).cell = none := by
  apply h.dead
  intro j h3 h4 h5
  have := idx_mod_inj h5 (by omega) (by omega)
  omega

theorem SlotsOk.lastC_le {N lo hi g : Nat} {vals : List α} {slots : Nat → Slot α}
    (h : SlotsOk N lo hi g vals slots) (hg : g ≤ hi) : (slots (hi % N)).lastC + N ≤ hi + 1 ∨
      (slots (hi % N)).lastC = 0 := by
  rcases h.lastC (hi % N) with h1 | ⟨j, h1, h2, h3⟩
  · right; exact h1
  · left
    rw [h3]
    by_contra hc
    have := idx_mod_inj h2 (by omega) (by omega)
    omega

theorem SlotsOk.lastP_le {N lo hi g : Nat} {vals : List α} {slots : Nat → Slot α}
    (h : SlotsOk N lo hi g vals slots) {R : Nat} (h2 : hi ≤ R + N) :
    (slots (R % N)).lastP ≤ R + 1 := by
  rcases h.lastP (R % N) with h1 | ⟨j, h1, h3, h4⟩
  · omega
  · rw [h4]
    by_contra hc
    have := idx_mod_inj h3.symm (by omega) (by omega)
    omega

theorem SlotsOk.mono {N lo hi g g' : Nat} {vals : List α} {slots : Nat → Slot α}
    (h : SlotsOk N lo hi g vals slots) (hg : g ≤ g') : SlotsOk N lo hi g' vals slots where
  live := h.live
  dead := h.dead
  lastP := h.lastP
  lastC := fun i => (h.lastC i).imp_right fun ⟨j, h1, h2⟩ => ⟨j, by omega, h2⟩

theorem SlotsOk.construct {N lo hi g : Nat} {vals : List α} {slots : Nat → Slot α}
    (h : SlotsOk N lo hi g vals slots) (hl : vals.length = hi) (h1 : lo ≤ hi) (h2 : hi < lo + N)
    (v : α) :
    SlotsOk N lo (hi + 1) g (vals ++ [v])
      (fun j => if j = hi % N then { slots (hi % N) with cell := some v, lastP := hi + 1 }
        else slots j) := by
  constructor
  · intro j h3 h4
    rcases (by omega : j = hi ∨ j < hi) with rfl | h5
    · exact ⟨v, by simp [← hl], by simp⟩
    · obtain ⟨x, hx, hx'⟩ := h.live j h3 h5
      have hne : j % N ≠ hi % N := fun hc => by
        have := idx_mod_inj hc (by omega) (by omega); omega
      exact ⟨x, by rw [List.getElem?_append_left (by omega)]; exact hx, by simp [hne, hx']⟩
  · intro i hi'
    have hne : i ≠ hi % N := fun hc => hi' hi (by omega) (by omega) hc.symm
    simp only [hne, if_false]
    exact h.dead i (fun j h3 h4 => hi' j h3 (by omega))
  · intro i
    by_cases hc : i = hi % N
    · right; exact ⟨hi, by omega, hc.symm, by simp [hc]⟩
    · simp only [hc, if_false]
      rcases h.lastP i with h1 | ⟨j, h1, h3, h4⟩
      · left; exact h1
      · right; exact ⟨j, by omega, h3, h4⟩
  · intro i
    have := h.lastC i
    by_cases hc : i = hi % N
    · simp only [hc, if_true]; rw [hc] at this; exact this
    · simp only [hc, if_false]; exact this

theorem SlotsOk.touch {N lo hi g : Nat} {vals : List α} {slots : Nat → Slot α}
    (h : SlotsOk N lo hi g vals slots) (hg : g ≤ lo + 1) :
    SlotsOk N lo hi (lo + 1) vals
      (fun j => if j = lo % N then { slots (lo % N) with lastC := lo + 1 } else slots j) := by
  constructor
  · intro j h3 h4
    obtain ⟨x, hx, hx'⟩ := h.live j h3 h4
    refine ⟨x, hx, ?_⟩
    by_cases hc : j % N = lo % N
    · simp only [hc, if_true]; rw [hc] at hx'; exact hx'
    · simp only [hc, if_false]; exact hx'
  · intro i hi'
    have := h.dead i hi'
    by_cases hc : i = lo % N
    · simp only [hc, if_true]; rw [hc] at this; exact this
    · simp only [hc, if_false]; exact this
  · intro i
    have := h.lastP i
    by_cases hc : i = lo % N
    · simp only [hc, if_true]; rw [hc] at this; exact this
    · simp only [hc, if_false]; exact this
  · intro i
    by_cases hc : i = lo % N
    · right; exact ⟨lo, by omega, hc.symm, by simp [hc]⟩
    · simp only [hc, if_false]
      rcases h.lastC i with h1 | ⟨j, h1, h3, h4⟩
      · left; exact h1
      · right; exact ⟨j, by omega, h3, h4⟩

theorem SlotsOk.destroy {N lo hi g : Nat} {vals : List α} {slots : Nat → Slot α}
    (h : SlotsOk N lo hi g vals slots) (hg : g ≤ lo + 1) (h2 : hi ≤ lo + N) :
    SlotsOk N (lo + 1) hi (lo + 1) vals
      (fun j => if j = lo % N then { slots (lo % N) with cell := none, lastC := lo + 1 }
        else slots j) := by
  constructor
  · intro j h3 h4
    obtain ⟨x, hx, hx'⟩ := h.live j (by omega) h4
    refine ⟨x, hx, ?_⟩
    have hne : j % N ≠ lo % N := fun hc => by
      have := idx_mod_inj hc.symm (by omega) (by omega); omega
    simp only [hne, if_false]; exact hx'
  · intro i hi'
    by_cases hc : i = lo % N
    · simp [hc]
    · simp only [hc, if_false]
      apply h.dead
      intro j h3 h4 h5
      rcases (by omega : j = lo ∨ lo + 1 ≤ j) with rfl | h6
      · exact hc h5.symm
      · exact hi' j h6 h4 h5
  · intro i
    have := h.lastP i
    by_cases hc : i = lo % N
    · simp only [hc, if_true]; rw [hc] at this; exact this
    · simp only [hc, if_false]; exact this
  · intro i
    by_cases hc : i = lo % N
    · right; exact ⟨lo, by omega, hc.symm, by simp [hc]⟩
    · simp only [hc, if_false]
      rcases h.lastC i with h1 | ⟨j, h1, h3, h4⟩
      · left; exact h1
      · right; exact ⟨j, by omega, h3, h4⟩

end Verif.SPSC.Conc
