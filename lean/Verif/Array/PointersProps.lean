import Verif.Array.Pointers
import Verif.Array.Props

/-!
When pointers, references and iterators into an `xme::Array` stay valid (C82).  A pointer to element
`i` of an array is the block the array lives in together with the offset `i`; a client that kept it may
use it later, whatever happened to the array in between.
-/

set_option autoImplicit false

namespace Verif.Arr

variable {α : Type}

/-- The block `a.begin()` (also `a.data()`, `&a[0]`) points to, array.hpp:100-118, icontainer.hpp. -/
def dataPtr (w : World α) (a : Nat) : Option Nat := (w.vars a).map (·.blk)

/-- `p[i]` for a kept pointer `p` to the start of block `b`; `none` is undefined behaviour: the block
was released, or there is no object there. -/
def deref (w : World α) (b i : Nat) : Option α :=
  match w.mem.size b with
  | none => none
  | some n =>
    if i < n then
      match w.mem.cell b i with
      | .live v => some v
      | .raw => none
    else none

/-- Calls for which the capacity `c` of an array with contents `xs` suffices. -/
def fits (xs : List α) (c : Nat) : Op α → Prop
  | .clear _ | .popBack _ | .erase _ _ | .eraseRange _ _ _ | .writeAt _ _ _ => True
  | .reserve _ n => n ≤ c
  | .resize _ n => n = c
  | .pushBack _ _ | .insert _ _ _ => xs.length < c
  | .pushRange _ args | .insertRange _ _ args => xs.length + args.length ≤ c
  | _ => False

/-- Calls that need other storage. -/
def outgrows (xs : List α) (c : Nat) : Op α → Prop
  | .reserve _ n => c < n
  | .resize _ n => n ≠ c
  | .pushBack _ _ | .insert _ _ _ => xs.length = c
  | .pushRange _ args | .insertRange _ _ args => c < xs.length + args.length
  | .assignCopy _ _ | .assignList _ _ => True
  | _ => False

variable (cfg : Elem α)

theorem Reached.deref {w : World α} (hw : Reached cfg w) {a : Nat} {xs : List α} {c : Nat}
    (ha : observe w a = some (xs, c)) :
    ∃ b, dataPtr w a = some b ∧ ∀ i (h : i < xs.length), deref w b i = some xs[i] := by
  obtain ⟨d, hd, hh, rfl⟩ := (hw.inv cfg).1.get cfg ha
  refine ⟨d.blk, by simp [dataPtr, hd], fun i hi => ?_⟩
  have h1 := hh.size
  have h2 := hh.le
  unfold Arr.deref
  rw [hh.alive cfg (by omega)]
  simp only
  rw [if_pos (by omega), hh.cells i hi]

/-- A member function that keeps the block keeps the pointer. -/
theorem kept_exec {w w' : World α} {a r : Nat} {d : Data} (hd : w.vars a = some d) {f : A α Nat}
    {E : St α → Prop}
    (h : wlp f ⟨w.mem, d⟩ (fun _ => Kept d.blk d.cap w.mem.size w.mem.allocs) E)
    (hx : onVar w a f = .ok r w') : dataPtr w' a = dataPtr w a ∧ w'.mem.allocs = w.mem.allocs ∧
      w'.mem.size = w.mem.size := by
  obtain ⟨s', rfl, h1, h2, h3, h4⟩ := onVar_wlp hd h hx
  refine ⟨?_, h4, h3⟩
  simp [dataPtr, upd, hd, h1]

theorem stays {w : World α} {a : Nat} {d : Data} (hd : w.vars a = some d) {op : Op α}
    {xs : List α} (hsz : d.size = xs.length) (htgt : op.target = a)
    (hf : fits xs d.cap op) {r : Nat} {w' : World α} (hx : exec cfg w op = .ok r w') :
    dataPtr w' a = dataPtr w a ∧ w'.mem.allocs = w.mem.allocs ∧ w'.mem.size = w.mem.size := by
  have hk : Kept d.blk d.cap w.mem.size w.mem.allocs (⟨w.mem, d⟩ : St α) := ⟨rfl, rfl, rfl, rfl⟩
  subst htgt
  cases op with
  | clear a => exact kept_exec hd (unit0_wlp (kept_clear cfg _ hk)) hx
  | popBack a => exact kept_exec hd (unit0_wlp (kept_popBack cfg _ hk)) hx
  | erase a pos => exact kept_exec hd (kept_erase cfg pos _ hk) hx
  | eraseRange a i j => exact kept_exec hd (kept_eraseRange cfg i j _ hk) hx
  | writeAt a i v => exact kept_exec hd (unit0_wlp (kept_writeAt cfg i v _ hk)) hx
  | reserve a n => exact kept_exec hd (unit0_wlp (kept_reserve cfg hk n hf)) hx
  | resize a n =>
    have : n = d.cap := hf
    subst this
    exact kept_exec hd (unit0_wlp (kept_resize cfg hk)) hx
  | pushBack a arg =>
    have hf : xs.length < d.cap := hf
    simp only [exec] at hx
    split at hx
    · exact kept_exec hd (unit0_wlp (kept_emplaceBack cfg hk (by simp only; omega) _)) hx
    · cases hx
  | insert a pos arg =>
    have hf : xs.length < d.cap := hf
    simp only [exec] at hx
    split at hx
    · exact kept_exec hd (kept_insert cfg hk (by simp only; omega) pos _) hx
    · cases hx
  | pushRange a args =>
    have hf : xs.length + args.length ≤ d.cap := hf
    simp only [exec] at hx
    split at hx
    · rename_i srcs hr
      have := resolveAll_length hr
      exact kept_exec hd (unit0_wlp (kept_pushRange cfg hk srcs (by simp only; omega))) hx
    · cases hx
  | insertRange a pos args =>
    have hf : xs.length + args.length ≤ d.cap := hf
    simp only [exec] at hx
    split at hx
    · rename_i srcs hr
      have := resolveAll_length hr
      exact kept_exec hd (kept_insertRange cfg hk pos srcs (by simp only; omega)) hx
    · cases hx
  | _ => exact hf.elim

theorem specStep_target {A A' : AWorld α} {op : Op α} {r a : Nat} {xs : List α} {c : Nat}
    (ha : A a = some (xs, c)) (htgt : op.target = a) (hf : fits xs c op)
    (hs : specStep A op = some (A', r)) : ∃ ys, A' a = some (ys, c) := by
  subst htgt
  cases op with
  | reserve a n =>
    have hf : n ≤ c := hf
    have ha : A a = some (xs, c) := ha
    simp only [specStep, Op.target, ha, member, Option.some.injEq, Prod.mk.injEq] at hs
    exact ⟨xs, by rw [← hs.1]; simp [put, Op.target, Nat.max_eq_left hf]⟩
  | resize a n =>
    have hf : n = c := hf
    have ha : A a = some (xs, c) := ha
    simp only [specStep, Op.target, ha, member, Option.some.injEq, Prod.mk.injEq] at hs
    exact ⟨xs.take n, by rw [← hs.1]; simp [put, Op.target, hf]⟩
  | clear a =>
    have ha : A a = some (xs, c) := ha
    simp only [specStep, Op.target, ha, member, Option.some.injEq, Prod.mk.injEq] at hs
    exact ⟨[], by rw [← hs.1]; simp [put, Op.target]⟩
  | popBack a =>
    have ha : A a = some (xs, c) := ha
    by_cases hx : xs = []
    · simp [specStep, Op.target, ha, member, hx] at hs
    · simp only [specStep, Op.target, ha, member, hx, if_false, Option.some.injEq, Prod.mk.injEq] at hs
      exact ⟨_, by rw [← hs.1]; simp [put, Op.target]; rfl⟩
  | erase a pos =>
    have ha : A a = some (xs, c) := ha
    by_cases hx : pos < xs.length
    · simp only [specStep, Op.target, ha, member, hx, if_true, Option.some.injEq, Prod.mk.injEq] at hs
      exact ⟨_, by rw [← hs.1]; simp [put, Op.target]; rfl⟩
    · simp [specStep, Op.target, ha, member, hx] at hs
  | eraseRange a i j =>
    have ha : A a = some (xs, c) := ha
    by_cases hx : i ≤ j ∧ j ≤ xs.length
    · simp only [specStep, Op.target, ha, member, if_pos hx, Option.some.injEq, Prod.mk.injEq] at hs
      exact ⟨_, by rw [← hs.1]; simp [put, Op.target]; rfl⟩
    · simp [specStep, Op.target, ha, member, hx] at hs
  | writeAt a i v =>
    have ha : A a = some (xs, c) := ha
    by_cases hx : i < xs.length
    · simp only [specStep, Op.target, ha, member, hx, if_true, Option.some.injEq, Prod.mk.injEq] at hs
      exact ⟨_, by rw [← hs.1]; simp [put, Op.target]; rfl⟩
    · simp [specStep, Op.target, ha, member, hx] at hs
  | pushBack a arg =>
    have hf : xs.length < c := hf
    have hne : xs.length ≠ c := by omega
    have ha : A a = some (xs, c) := ha
    cases hv : argVal A arg with
    | none => simp [specStep, Op.target, ha, member, hv] at hs
    | some v =>
      simp only [specStep, Op.target, ha, member, hv, hne, false_and, if_false, grown,
        Option.some.injEq, Prod.mk.injEq] at hs
      exact ⟨_, by rw [← hs.1]; simp [put, Op.target]; rfl⟩
  | pushRange a args =>
    have hf : xs.length + args.length ≤ c := hf
    have ha : A a = some (xs, c) := ha
    cases hv : argVals A args with
    | none => simp [specStep, Op.target, ha, member, hv] at hs
    | some vs =>
      have hl := argVals_length A hv
      simp only [specStep, Op.target, ha, member, hv, show ¬(c < xs.length + vs.length) by omega,
        false_and, if_false, Option.some.injEq, Prod.mk.injEq] at hs
      exact ⟨xs ++ vs, by rw [← hs.1]; simp [put, Op.target]; omega⟩
  | insert a pos arg =>
    have hf : xs.length < c := hf
    have hne : xs.length ≠ c := by omega
    have ha : A a = some (xs, c) := ha
    cases hv : argVal A arg with
    | none => simp [specStep, Op.target, ha, member, hv] at hs
    | some v =>
      simp only [specStep, Op.target, ha, member, hv, hne, false_and, and_false, if_false, grown] at hs
      split at hs
      · rename_i e he
        split at he
        · cases he
        · split at he
          · cases he
          · simp only [Option.some.injEq] at he
            subst he
            simp only [Option.some.injEq, Prod.mk.injEq] at hs
            exact ⟨_, by rw [← hs.1]; simp [put, Op.target]; rfl⟩
      · cases hs
  | insertRange a pos args =>
    have hf : xs.length + args.length ≤ c := hf
    have ha : A a = some (xs, c) := ha
    cases hv : argVals A args with
    | none => simp [specStep, Op.target, ha, member, hv] at hs
    | some vs =>
      have hl := argVals_length A hv
      simp only [specStep, Op.target, ha, member, hv] at hs
      split at hs
      · rename_i e he
        split at he
        · cases he
        · split at he
          · cases he
          · simp only [Option.some.injEq] at he
            subst he
            simp only [Option.some.injEq, Prod.mk.injEq] at hs
            exact ⟨_, by rw [← hs.1]; simp [put, Op.target, show xs.length + vs.length ≤ c by omega]; rfl⟩
      · cases hs
  | _ => exact hf.elim

/-- C82.  A call on array `a` for which the capacity suffices leaves every kept pointer valid: the
array stays where it is, nothing is allocated or released, the capacity is the same, and a pointer to
position `i` obtained before the call reads the `i`-th element of the new contents. -/
theorem array_pointers_stable {w : World α} (hw : Reached cfg w) {a : Nat} {xs : List α} {c : Nat}
    (ha : observe w a = some (xs, c)) {op : Op α} (htgt : op.target = a) {A' : AWorld α} {r : Nat}
    (hs : specStep (observe w) op = some (A', r)) (hc : cfg.triv = true ∨ classSafe (observe w) op)
    (hfits : fits xs c op) :
    ∃ w' ys, exec cfg w op = .ok r w' ∧ observe w' = A' ∧ A' a = some (ys, c) ∧
      dataPtr w' a = dataPtr w a ∧ w'.mem.allocs = w.mem.allocs ∧ w'.mem.size = w.mem.size ∧
      ∀ b, dataPtr w a = some b → ∀ i (h : i < ys.length), deref w' b i = some ys[i] := by
  obtain ⟨w', h1, h2, h3⟩ := hw.step cfg hs hc
  obtain ⟨ys, hy⟩ := specStep_target ha htgt hfits hs
  obtain ⟨d, hd, hh, rfl⟩ := (hw.inv cfg).1.get cfg ha
  obtain ⟨g1, g2, g3⟩ := stays cfg hd hh.size htgt hfits h1
  refine ⟨w', ys, h1, h2, hy, g1, g2, g3, fun b hb i hi => ?_⟩
  obtain ⟨b', hb', hv⟩ := h3.deref cfg (a := a) (xs := ys) (c := d.cap) (by rw [h2]; exact hy)
  rw [g1, hb] at hb'
  cases hb'
  exact hv i hi

/-- A member function that moves the array to a younger block. -/
theorem moves_exec {w w' : World α} {a r : Nat} {d : Data} (hd : w.vars a = some d) {f : A α Nat}
    {E : St α → Prop} (h : wlp f ⟨w.mem, d⟩ (fun _ => Young w.mem.next) E)
    (hx : onVar w a f = .ok r w') : (∀ x, x ≠ a → w'.vars x = w.vars x) ∧
      ∃ d', w'.vars a = some d' ∧ w.mem.next ≤ d'.blk := by
  obtain ⟨s', rfl, h1⟩ := onVar_wlp hd h hx
  exact ⟨fun x hne => by simp [upd, hne], s'.d, by simp [upd], h1⟩

theorem moves_assignVia {n : Nat} (srcs : List (Src α)) : Moves n (assignVia cfg (ctorRange cfg srcs)) := by
  have hctor : Moves n (do setD .null; ctorRange cfg srcs : A α Unit) :=
    Moves.bind (f := setD .null) (fun _ h => h) fun _ =>
      Moves.then (moves_allocate fun _ hb => moves_setD hb) fun _ => young_getD fun _ h =>
        (Pres.tryRethrow (pres_copyLoop young_coarse cfg _ _ _) (young_destructor cfg _)).bind fun _ =>
        young_setD h
  refine Moves.bind later_getD fun d => Moves.then (fun s hs => ?_) fun _ => young_destructor cfg d
  have h1 := hctor s hs
  unfold wlp M.tryRethrow at *
  cases hr : (do setD .null; ctorRange cfg srcs : A α Unit) s with
  | ok b s' => rw [hr] at h1; exact h1
  | ub => trivial
  | throw s' => trivial

theorem goes {w : World α} {a : Nat} {d : Data} (hd : w.vars a = some d) {op : Op α}
    {xs : List α} (hsz : d.size = xs.length) (htgt : op.target = a)
    (hf : outgrows xs d.cap op) {r : Nat} {w' : World α} (hx : exec cfg w op = .ok r w') :
    (∀ x, x ≠ a → w'.vars x = w.vars x) ∧ ∃ d', w'.vars a = some d' ∧ w.mem.next ≤ d'.blk := by
  have hk : Later w.mem.next (⟨w.mem, d⟩ : St α) := Nat.le_refl _
  subst htgt
  cases op with
  | reserve a n => exact moves_exec hd (unit0_wlp (moves_reserve cfg hk n hf)) hx
  | resize a n => exact moves_exec hd (unit0_wlp (moves_resize cfg hk n hf)) hx
  | pushBack a arg =>
    have hf : xs.length = d.cap := hf
    simp only [exec] at hx
    split at hx
    · exact moves_exec hd (unit0_wlp (moves_emplaceBack cfg hk (by simp only; omega) _)) hx
    · cases hx
  | insert a pos arg =>
    have hf : xs.length = d.cap := hf
    simp only [exec] at hx
    split at hx
    · exact moves_exec hd (moves_insert cfg hk (by simp only; omega) pos _) hx
    · cases hx
  | pushRange a args =>
    have hf : d.cap < xs.length + args.length := hf
    simp only [exec] at hx
    split at hx
    · rename_i srcs hr
      have := resolveAll_length hr
      exact moves_exec hd (unit0_wlp (moves_pushRange cfg hk srcs (by simp only; omega))) hx
    · cases hx
  | insertRange a pos args =>
    have hf : d.cap < xs.length + args.length := hf
    simp only [exec] at hx
    split at hx
    · rename_i srcs hr
      have := resolveAll_length hr
      exact moves_exec hd (moves_insertRange cfg hk pos srcs (by simp only; omega)) hx
    · cases hx
  | assignCopy a b =>
    simp only [exec] at hx
    split at hx
    · exact moves_exec hd (unit0_wlp (moves_assignVia cfg _ _ hk)) hx
    · cases hx
  | assignList a args =>
    simp only [exec] at hx
    split at hx
    · exact moves_exec hd (unit0_wlp (moves_assignVia cfg _ _ hk)) hx
    · cases hx
  | _ => exact hf.elim

/-- C82.  A call that needs other storage invalidates every kept pointer into the array: its storage
was released, so reading through the old pointer is undefined at every offset, and `data()` is a
different address. -/
theorem array_pointers_invalidated {w : World α} (hw : Reached cfg w) {a : Nat} {xs : List α} {c : Nat}
    (ha : observe w a = some (xs, c)) {op : Op α} (htgt : op.target = a) {A' : AWorld α} {r : Nat}
    (hs : specStep (observe w) op = some (A', r)) (hc : cfg.triv = true ∨ classSafe (observe w) op)
    (hout : outgrows xs c op) :
    ∃ w', exec cfg w op = .ok r w' ∧ observe w' = A' ∧ dataPtr w' a ≠ dataPtr w a ∧
      ∀ b, dataPtr w a = some b → ∀ i, deref w' b i = none := by
  obtain ⟨w', h1, h2, h3⟩ := hw.step cfg hs hc
  have hinv := (hw.inv cfg).1
  obtain ⟨d, hd, hh, rfl⟩ := hinv.get cfg ha
  obtain ⟨g1, d', g2, g3⟩ := goes cfg hd hh.size htgt hout h1
  have hlt : d.blk < w.mem.next := by
    rcases hh.blk with h | h
    · rw [h.1]; exact hinv.wf.pos
    · by_contra hge
      rw [hinv.wf.fresh _ (by omega)] at h
      cases h.2
  have hne : dataPtr w' a ≠ dataPtr w a := by
    simp only [dataPtr, hd, g2, Option.map_some, ne_eq, Option.some.injEq]
    omega
  refine ⟨w', h1, h2, hne, fun b hb i => ?_⟩
  have hb : d.blk = b := by simpa [dataPtr, hd] using hb
  subst hb
  have hinv' := (h3.inv cfg).1
  have hfree : w'.mem.size d.blk = none := by
    by_contra hal
    obtain ⟨x, dx, hx1, hx2⟩ := hinv'.owned _ hal
    by_cases hxa : x = a
    · subst hxa
      rw [g2] at hx1; cases hx1; omega
    · rw [g1 x hxa] at hx1
      have h0 := hinv.dist x a dx d hx1 hd hxa hx2
      rw [← hx2, h0] at hal
      exact hal hinv'.wf.null
  unfold Arr.deref
  rw [hfree]

theorem onVar_frame {w w' : World α} {a r x : Nat} {f : A α Nat} (h : onVar w a f = .ok r w')
    (hx : x ≠ a) : w'.vars x = w.vars x := by
  unfold onVar at h
  split at h
  · cases h
  · split at h <;> cases h
    simp [upd, hx]

theorem onNew_frame {w w' : World α} {a r x : Nat} {f : A α Unit} (h : onNew w a f = .ok r w')
    (hx : x ≠ a) : w'.vars x = w.vars x := by
  unfold onNew at h
  split at h
  · cases h
  · split at h <;> cases h
    simp [upd, hx]

theorem exec_frame {w w' : World α} {op : Op α} {r x : Nat} (h : exec cfg w op = .ok r w')
    (hx : ¬op.touches x) : w'.vars x = w.vars x := by
  cases op with
  | ctor a => exact onNew_frame (a := a) (f := pure ()) h hx
  | ctorCap a n => exact onNew_frame (a := a) (f := ctorCap n) h hx
  | ctorFill a n v => exact onNew_frame (a := a) (f := ctorFill cfg n v) h hx
  | ctorRange a args =>
    simp only [exec] at h
    split at h
    · exact onNew_frame h hx
    · cases h
  | ctorCopy a b =>
    simp only [exec] at h
    split at h
    · exact onNew_frame h hx
    · cases h
  | ctorMove a b =>
    simp only [Op.touches, not_or] at hx
    simp only [exec] at h
    split at h <;> cases h
    simp [upd, hx.1, hx.2]
  | dtor a =>
    have hx : x ≠ a := hx
    simp only [exec] at h
    split at h
    · rename_i h'
      cases h
      simp only [upd, hx, if_false]
      exact onVar_frame h' hx
    · rename_i h'; exact (h' _ _ h).elim
  | assignMove a b =>
    simp only [Op.touches, not_or] at hx
    simp only [exec] at h
    split at h
    · cases h
    · split at h
      · cases h
      · rw [onVar_frame h hx.1]
        simp [upd, hx.1, hx.2]
  | swap a b =>
    simp only [Op.touches, not_or] at hx
    simp only [exec] at h
    split at h <;> cases h
    simp [upd, hx.1, hx.2]
  | assignCopy a b =>
    simp only [exec] at h
    split at h
    · exact onVar_frame h hx
    · cases h
  | assignList a args | pushBack a args | pushRange a args =>
    simp only [exec] at h
    split at h
    · exact onVar_frame h hx
    · cases h
  | insert a pos args | insertRange a pos args =>
    simp only [exec] at h
    split at h
    · exact onVar_frame h hx
    · cases h
  | _ => exact onVar_frame h hx

/-- C82.  Calls on other arrays, including construction and destruction of other arrays, do not
invalidate a pointer into array `x`, and what is read through it is the same as before. -/
theorem array_pointers_elsewhere {w : World α} (hw : Reached cfg w) {x : Nat} {xs : List α} {c : Nat}
    (hx : observe w x = some (xs, c)) {op : Op α} (hop : ¬op.touches x) {A' : AWorld α} {r : Nat}
    (hs : specStep (observe w) op = some (A', r)) (hc : cfg.triv = true ∨ classSafe (observe w) op) :
    ∃ w', exec cfg w op = .ok r w' ∧ observe w' = A' ∧ dataPtr w' x = dataPtr w x ∧
      ∀ b, dataPtr w x = some b → ∀ i (h : i < xs.length), deref w' b i = some xs[i] := by
  obtain ⟨w', h1, h2, h3⟩ := hw.step cfg hs hc
  have hp : dataPtr w' x = dataPtr w x := by unfold dataPtr; rw [exec_frame cfg h1 hop]
  refine ⟨w', h1, h2, hp, fun b hb i hi => ?_⟩
  obtain ⟨b', hb', hv⟩ := h3.deref cfg (a := x) (xs := xs) (c := c)
    (by rw [h2, specStep_frame hs hop]; exact hx)
  rw [hp, hb] at hb'
  cases hb'
  exact hv i hi

/-- C82.  Move construction, move assignment and `swap` hand the storage over: pointers into the
source stay valid and are afterwards pointers into the destination, nothing is allocated, and for
`swap` this goes both ways. -/
theorem array_pointers_handed_over {w : World α} (hw : Reached cfg w) {b : Nat} {ys : List α} {c : Nat}
    (hb : observe w b = some (ys, c)) :
    (∀ a, observe w a = none → ∃ w', exec cfg w (.ctorMove a b) = .ok 0 w' ∧
      dataPtr w' a = dataPtr w b ∧ w'.mem.allocs = w.mem.allocs ∧
      ∀ p, dataPtr w b = some p → ∀ i (h : i < ys.length), deref w' p i = some ys[i]) ∧
    (∀ a, a ≠ b → observe w a ≠ none → ∃ w', exec cfg w (.assignMove a b) = .ok 0 w' ∧
      dataPtr w' a = dataPtr w b ∧ w'.mem.allocs = w.mem.allocs ∧
      ∀ p, dataPtr w b = some p → ∀ i (h : i < ys.length), deref w' p i = some ys[i]) ∧
    (∀ a, observe w a ≠ none → ∃ w', exec cfg w (.swap a b) = .ok 0 w' ∧
      dataPtr w' a = dataPtr w b ∧ dataPtr w' b = dataPtr w a ∧ w'.mem = w.mem) := by
  obtain ⟨hm1, hm2, _⟩ := array_move cfg hw hb
  have hinv := (hw.inv cfg).1
  have hread : ∀ {w' : World α} {a : Nat}, Reached cfg w' → observe w' a = some (ys, c) →
      w'.vars a = w.vars b →
      dataPtr w' a = dataPtr w b ∧
      ∀ p, dataPtr w b = some p → ∀ i (h : i < ys.length), deref w' p i = some ys[i] := by
    intro w' a hr ho hv
    have hp : dataPtr w' a = dataPtr w b := by unfold dataPtr; rw [hv]
    refine ⟨hp, fun p hpb i hi => ?_⟩
    obtain ⟨b', hb', hv⟩ := hr.deref cfg ho
    rw [hp, hpb] at hb'
    cases hb'
    exact hv i hi
  refine ⟨fun a ha => ?_, fun a hne ha => ?_, fun a ha => ?_⟩
  · obtain ⟨w', h1, h2, _, _, h5, h6⟩ := hm1 a ha
    obtain ⟨w'', g1, _, g3⟩ := hw.step cfg (op := .ctorMove a b)
      (by simp only [specStep, ha, hb]; rfl) (.inr (by simp [classSafe, Op.target, ha]))
    rw [h1] at g1
    cases g1
    obtain ⟨k1, k2⟩ := hread g3 h2 h6
    exact ⟨w', h1, k1, by rw [h5], k2⟩
  · obtain ⟨w', h1, h2, _, _, h5, h6, h7⟩ := hm2 a ha hne
    rcases ha' : observe w a with _ | ⟨zs, k⟩
    · exact absurd ha' ha
    obtain ⟨w'', g1, _, g3⟩ := hw.step cfg (op := .assignMove a b)
      (by simp only [specStep, ha', hb]; rfl) (.inr (by simp [classSafe, Op.target, ha']))
    rw [h1] at g1
    cases g1
    obtain ⟨k1, k2⟩ := hread g3 h2 h5
    exact ⟨w', h1, k1, h7, k2⟩
  · obtain ⟨d, hd, -⟩ := hinv.get cfg hb
    rcases ha' : observe w a with _ | ⟨zs, k⟩
    · exact absurd ha' ha
    obtain ⟨d', hd', -⟩ := hinv.get cfg ha'
    refine ⟨⟨w.mem, upd (upd w.vars a (some d)) b (some d')⟩, by simp only [exec, hd, hd'], ?_, ?_, rfl⟩
    · by_cases hab : a = b
      · subst hab
        rw [hd] at hd'; cases hd'
        simp [dataPtr, upd, hd]
      · simp [dataPtr, upd, hab, hd]
    · simp [dataPtr, upd, hd']

/-- C82.  After `reserve(n)`, appending elements while no more than `n` are held never moves the array:
pointers taken right after the `reserve` read the right elements at every later time, and nothing is
allocated on the way. -/
theorem array_reserve_then_push (ht : cfg.triv = true) {w : World α} (hw : Reached cfg w) {a : Nat}
    {xs : List α} {c : Nat} (ha : observe w a = some (xs, c)) (n : Nat) :
    ∃ w1, exec cfg w (.reserve a n) = .ok 0 w1 ∧ ∀ vs : List α, xs.length + vs.length ≤ n →
      ∃ rs w2, run cfg w1 (vs.map fun v => .pushBack a (.val v)) = .ok rs w2 ∧
        observe w2 a = some (xs ++ vs, max c n) ∧ dataPtr w2 a = dataPtr w1 a ∧
        w2.mem.allocs = w1.mem.allocs ∧
        ∀ b, dataPtr w1 a = some b → ∀ i (h : i < (xs ++ vs).length), deref w2 b i = some (xs ++ vs)[i] := by
  obtain ⟨w1, h1, h2, h3⟩ := hw.step cfg (op := .reserve a n)
    (by simp only [specStep, Op.target, ha, member]; rfl) (.inl ht)
  refine ⟨w1, h1, fun vs hvs => ?_⟩
  have ho : observe w1 a = some (xs, max c n) := by rw [h2]; simp [put]
  have key : ∀ (vs : List α) (ys : List α) (w1 : World α), Reached cfg w1 →
      observe w1 a = some (ys, max c n) → ys.length + vs.length ≤ n →
      ∃ rs w2, run cfg w1 (vs.map fun v => .pushBack a (.val v)) = .ok rs w2 ∧ Reached cfg w2 ∧
        observe w2 a = some (ys ++ vs, max c n) ∧ dataPtr w2 a = dataPtr w1 a ∧
        w2.mem.allocs = w1.mem.allocs := by
    intro vs
    induction vs with
    | nil => intro ys w1 hr ho _; exact ⟨[], w1, rfl, hr, by simpa using ho, rfl, rfl⟩
    | cons v vs ih =>
      intro ys w1 hr ho hl
      rw [List.length_cons] at hl
      have hlt : ys.length < max c n := by omega
      have hs : specStep (observe w1) (.pushBack a (.val v)) =
          some (put (observe w1) a (some (ys ++ [v], max c n)), 0) := by
        have hne : ys.length ≠ max c n := by omega
        simp only [specStep, Op.target, ho, member, argVal, grown, hne, false_and, if_false]
      obtain ⟨w2, zs, g1, g2, _, g4, g5, _⟩ := array_pointers_stable cfg hr ho (op := .pushBack a (.val v))
        rfl hs (.inl ht) hlt
      obtain ⟨w2', g1', _, g3⟩ := hr.step cfg hs (.inl ht)
      rw [g1] at g1'
      cases g1'
      obtain ⟨rs, w3, k1, k2, k3, k4, k5⟩ := ih (ys ++ [v]) w2 g3 (by rw [g2]; simp [put])
        (by simp; omega)
      exact ⟨0 :: rs, w3, by simp [run, g1, k1], k2, by simpa using k3, k4.trans g4, k5.trans g5⟩
  obtain ⟨rs, w2, k1, k2, k3, k4, k5⟩ := key vs xs w1 h3 ho hvs
  refine ⟨rs, w2, k1, k3, k4, k5, fun b hb i hi => ?_⟩
  obtain ⟨b', hb', hv⟩ := k2.deref cfg k3
  rw [k4, hb] at hb'
  cases hb'
  exact hv i hi

/-- An array of three elements with room for five, and a full one. -/
def pointerOps : List (Op Nat) :=
  [.ctorRange 0 [.val 1, .val 2, .val 3], .reserve 0 5, .ctorCopy 1 0]

example : ∃ w, Reached natElem w ∧ observe w 0 = some ([1, 2, 3], 5) ∧ observe w 1 = some ([1, 2, 3], 3) := by
  obtain ⟨w, h1, h2⟩ := reached_of_spec natElem rfl
    (ops := pointerOps) (A := put (put AWorld.init 0 (some ([1, 2, 3], 5))) 1 (some ([1, 2, 3], 3)))
    (rs := [0, 0, 0]) (by
      simp [pointerOps, specRun, specStep, argVals, argVal, create, AWorld.init, put, Op.target, member]
      funext j; simp only [put]; split <;> [rfl; split <;> rfl])
  exact ⟨w, h1, by rw [h2]; rfl, by rw [h2]; rfl⟩

/-- The hypotheses of `array_pointers_stable` and of `array_pointers_invalidated` are met by the same
call on the two arrays. -/
example : fits [1, 2, 3] 5 (.insert 0 1 (.val 9) : Op Nat) ∧
    outgrows [1, 2, 3] 3 (.insert 1 1 (.val 9) : Op Nat) := by
  simp [fits, outgrows]

end Verif.Arr
