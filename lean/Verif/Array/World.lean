import Verif.Array.OpsE
import Verif.Array.Spec

/-! Programs over several arrays refine their specification (helper lemmas for
`Verif.Array.Props`). -/

set_option autoImplicit false

namespace Verif.Arr

variable {α : Type} (cfg : Elem α)

/-- The memory and the array objects represent the sequences `A`; every block belongs to exactly one
array. -/
structure Inv (w : World α) (A : AWorld α) : Prop where
  wf : WF w.mem
  none_iff : ∀ x, w.vars x = none ↔ A x = none
  rep : ∀ x d xs c, w.vars x = some d → A x = some (xs, c) → Holds cfg w.mem d xs ∧ d.cap = c
  dist : ∀ x y dx dy, w.vars x = some dx → w.vars y = some dy → x ≠ y → dx.blk = dy.blk → dx.blk = 0
  owned : ∀ b, w.mem.size b ≠ none → ∃ x d, w.vars x = some d ∧ d.blk = b

theorem Inv.init : Inv cfg (World.init : World α) AWorld.init := by
  refine ⟨⟨fun _ _ => rfl, rfl, by simp [World.init]⟩, fun _ => by simp [World.init, AWorld.init],
    ?_, ?_, ?_⟩
  · intro x d xs c h; simp [World.init] at h
  · intro x y dx dy h; simp [World.init] at h
  · intro b h; simp [World.init] at h

theorem Inv.get {w : World α} {A : AWorld α} (h : Inv cfg w A) {x : Nat} {xs : List α} {c : Nat}
    (hx : A x = some (xs, c)) : ∃ d, w.vars x = some d ∧ Holds cfg w.mem d xs ∧ d.cap = c := by
  rcases hv : w.vars x with _ | d
  · rw [(h.none_iff x).mp hv] at hx; cases hx
  · exact ⟨d, rfl, h.rep x d xs c hv hx⟩

/-- `d` is the data of array `a`, or `a` does not exist yet and `d` is null. -/
def IsData (w : World α) (a : Nat) (d : Data) : Prop :=
  w.vars a = some d ∨ (w.vars a = none ∧ d = .null)

/-- Arrays other than the target keep their representation. -/
theorem Inv.other {w : World α} {A : AWorld α} (h : Inv cfg w A) {a : Nat} {d : Data}
    (ha : IsData w a d) {m' : Mem α} {b' : Nat} (hu : Upd w.mem m' d.blk b') {y : Nat} {dy : Data}
    {ys : List α} {c : Nat} (hy : w.vars y = some dy) (hA : A y = some (ys, c)) (hne : y ≠ a) :
    Holds cfg m' dy ys ∧ (dy.blk = b' → dy.blk = 0) := by
  obtain ⟨hh, hc⟩ := h.rep y dy ys c hy hA
  have hsz := hh.size
  have hle := hh.le
  by_cases h0 : dy.blk = 0
  · have hcap := (hh.blk.resolve_right fun h' => h'.1 h0).2
    refine ⟨⟨hh.size, hh.le, .inl ⟨h0, hcap⟩, fun i hi => by omega, fun _ i _ _ => by omega⟩,
      fun _ => h0⟩
  · have halive := (hh.blk.resolve_left fun h' => h0 h'.1).2
    have hd : dy.blk ≠ d.blk := by
      intro he
      rcases ha with ha | ⟨_, ha⟩
      · exact h0 (h.dist y a dy d hy ha hne he)
      · rw [ha] at he; exact h0 he
    obtain ⟨g1, g2⟩ := hu.keep dy.blk (by rw [halive]; simp) hd
    refine ⟨⟨hh.size, hh.le, .inr ⟨h0, by rw [g1]; exact halive⟩, ?_, ?_⟩, ?_⟩
    · rw [g2]; exact hh.cells
    · rw [g2]; exact hh.rest
    · intro he
      rcases hu.new with h' | h'
      · exact absurd (he.trans h') hd
      · rw [← he, halive] at h'; cases h'

/-- A member function (or constructor) changed array `a`. -/
theorem Inv.update {w : World α} {A : AWorld α} (h : Inv cfg w A) {a : Nat} {d : Data}
    (ha : IsData w a d) {s' : St α} {xs' : List α} {c' : Nat}
    (p : Post cfg ⟨w.mem, d⟩ s' xs' c') :
    Inv cfg ⟨s'.mem, upd w.vars a (some s'.d)⟩ (put A a (some (xs', c'))) := by
  have hother := fun {y dy ys c} (hy : w.vars y = some dy) (hA : A y = some (ys, c)) (hne : y ≠ a) =>
    h.other cfg ha p.upd hy hA hne
  have hA : ∀ {y dy}, w.vars y = some dy → ∃ o, A y = some o := by
    intro y dy hy
    rcases hA : A y with _ | o
    · rw [(h.none_iff y).mpr hA] at hy; cases hy
    · exact ⟨o, rfl⟩
  refine ⟨p.wf, ?_, ?_, ?_, ?_⟩
  · intro x
    simp only [upd, put]
    by_cases hx : x = a
    · simp [hx]
    · simp only [hx, if_false]; exact h.none_iff x
  · intro x dx xs c hv hx
    simp only [upd, put] at hv hx ⊢
    by_cases hxa : x = a
    · simp only [hxa, if_true, Option.some.injEq, Prod.mk.injEq] at hv hx
      obtain ⟨h1, h2⟩ := hx
      subst hv h1 h2
      exact ⟨p.holds, p.cap⟩
    · simp only [hxa, if_false] at hv hx
      exact ⟨(hother hv hx hxa).1, (h.rep x dx xs c hv hx).2⟩
  · intro x y dx dy hx hy hne he
    simp only [upd] at hx hy
    by_cases hxa : x = a
    · have hya : y ≠ a := fun h => hne (hxa.trans h.symm)
      simp only [hxa, if_true, Option.some.injEq] at hx
      simp only [hya, if_false] at hy
      obtain ⟨⟨ys, c⟩, hA⟩ := hA hy
      have := (hother hy hA hya).2 (by rw [← he, ← hx])
      rw [he]; exact this
    · simp only [hxa, if_false] at hx
      by_cases hya : y = a
      · simp only [hya, if_true, Option.some.injEq] at hy
        obtain ⟨⟨ys, c⟩, hA⟩ := hA hx
        exact (hother hx hA hxa).2 (by rw [he, ← hy])
      · simp only [hya, if_false] at hy
        exact h.dist x y dx dy hx hy hne he
  · intro b hb
    rcases p.upd.owned b hb with h1 | ⟨h1, h2⟩
    · exact ⟨a, s'.d, by simp [upd], h1.symm⟩
    · obtain ⟨x, dx, hx, hbx⟩ := h.owned b h1
      refine ⟨x, dx, ?_, hbx⟩
      have hxa : x ≠ a := by
        rintro rfl
        rcases ha with ha | ⟨ha, _⟩
        · rw [ha] at hx
          cases hx
          exact h2 hbx.symm
        · rw [ha] at hx; cases hx
      simp [upd, hxa, hx]

/-- The target array is gone (destroyed, or never came into being). -/
theorem Inv.remove {w : World α} {A : AWorld α} (h : Inv cfg w A) {a : Nat} {d : Data}
    (ha : IsData w a d) {m' : Mem α} (hw : WF m') (hu : Upd w.mem m' d.blk 0) :
    Inv cfg ⟨m', upd w.vars a none⟩ (put A a none) := by
  have hA : ∀ {y dy}, w.vars y = some dy → ∃ o, A y = some o := by
    intro y dy hy
    rcases hA : A y with _ | o
    · rw [(h.none_iff y).mpr hA] at hy; cases hy
    · exact ⟨o, rfl⟩
  refine ⟨hw, ?_, ?_, ?_, ?_⟩
  · intro x
    simp only [upd, put]
    by_cases hx : x = a
    · simp [hx]
    · simp only [hx, if_false]; exact h.none_iff x
  · intro x dx xs c hv hx
    simp only [upd, put] at hv hx ⊢
    by_cases hxa : x = a
    · simp [hxa] at hv
    · simp only [hxa, if_false] at hv hx
      exact ⟨(h.other cfg ha hu hv hx hxa).1, (h.rep x dx xs c hv hx).2⟩
  · intro x y dx dy hx hy hne he
    simp only [upd] at hx hy
    by_cases hxa : x = a
    · simp [hxa] at hx
    · by_cases hya : y = a
      · simp [hya] at hy
      · simp only [hxa, hya, if_false] at hx hy
        exact h.dist x y dx dy hx hy hne he
  · intro b hb
    rcases hu.owned b hb with h1 | ⟨h1, h2⟩
    · rw [h1] at hb; exact absurd hw.null hb
    · obtain ⟨x, dx, hx, hbx⟩ := h.owned b h1
      refine ⟨x, dx, ?_, hbx⟩
      have hxa : x ≠ a := by
        rintro rfl
        rcases ha with ha | ⟨ha, _⟩
        · rw [ha] at hx
          cases hx
          exact h2 hbx.symm
        · rw [ha] at hx; cases hx
      simp [upd, hxa, hx]

theorem upd_self {β : Type} (f : Nat → β) (a : Nat) (x : β) (h : f a = x) : upd f a x = f := by
  funext j; simp only [upd]; split
  · rename_i h'; rw [h', h]
  · rfl

theorem put_self {β : Type} (f : Nat → β) (a : Nat) (x : β) (h : f a = x) : put f a x = f :=
  upd_self f a x h

/-! ### Arguments -/

theorem Inv.arg {w : World α} {A : AWorld α} (h : Inv cfg w A) {arg : Arg α} {v : α}
    (hv : argVal A arg = some v) :
    ∃ src, resolve w arg = some src ∧ SrcOk w.mem src v ∧
      (∀ y i, arg = .elem y i → ∃ d, w.vars y = some d ∧ src = .ref d.blk i ∧ d.blk ≠ 0 ∧
        ∃ xs c, A y = some (xs, c) ∧ xs[i]? = some v) ∧
      (∀ u, arg = .val u → src = .val u) := by
  cases arg with
  | val u =>
    simp only [argVal, Option.some.injEq] at hv
    exact ⟨.val u, rfl, hv, by simp, by simp⟩
  | elem y i =>
    simp only [argVal, Option.bind_eq_some_iff] at hv
    obtain ⟨⟨xs, c⟩, hA, hx⟩ := hv
    obtain ⟨d, hd, hh, hc⟩ := h.get cfg hA
    have hx' := hx
    rw [List.getElem?_eq_some_iff] at hx
    obtain ⟨hi, hx⟩ := hx
    have hsz := hh.size
    have hle := hh.le
    simp only at hi hx
    have hb := hh.alive cfg (by omega)
    refine ⟨.ref d.blk i, by simp [resolve, hd], ⟨?_, ?_⟩, ?_, by simp⟩
    · exact (inBounds_iff hb).mpr (by omega)
    · rw [hh.cells i hi, hx]
    · intro y' i' he
      cases he
      refine ⟨d, hd, rfl, ?_, xs, c, hA, hx'⟩
      intro h0; rw [h0, h.wf.null] at hb; cases hb

theorem Inv.arg_foreign {w : World α} {A : AWorld α} (h : Inv cfg w A) {arg : Arg α} {v : α}
    (hv : argVal A arg = some v) {src : Src α} (hs : resolve w arg = some src) {a : Nat} {d : Data}
    (ha : IsData w a d) (hown : ownArg a arg = false) : Foreign d.blk src := by
  obtain ⟨src', h1, h2, h3, h4⟩ := h.arg cfg hv
  rw [hs] at h1
  cases h1
  cases arg with
  | val u => rw [h4 u rfl]; trivial
  | elem y i =>
    obtain ⟨dy, g1, g2, g3, _⟩ := h3 y i rfl
    rw [g2]
    intro he
    have hya : y ≠ a := by simpa [ownArg] using hown
    rcases ha with ha | ⟨_, ha⟩
    · exact g3 (h.dist y a dy d g1 ha hya he)
    · rw [ha] at he; exact g3 he

theorem Inv.args {w : World α} {A : AWorld α} (h : Inv cfg w A) : ∀ {args : List (Arg α)}
    {vs : List α}, argVals A args = some vs →
    ∃ srcs, resolveAll w args = some srcs ∧ SrcsOk w.mem srcs vs ∧ srcs.length = args.length ∧
      (∀ a d, IsData w a d → args.any (ownArg a) = false → ∀ x ∈ srcs, Foreign d.blk x) ∧
      (∀ x ∈ srcs, ∀ b i, x = .ref b i → ∃ y d xs c, w.vars y = some d ∧ d.blk = b ∧
        A y = some (xs, c) ∧ i < xs.length) ∧
      ((∀ x ∈ args, ∃ y i, x = .elem y i) → ∀ x ∈ srcs, ∃ b i, x = .ref b i)
  | [], vs, hv => by
    simp only [argVals, Option.some.injEq] at hv
    subst hv
    exact ⟨[], rfl, trivial, rfl, by simp, by simp, by simp⟩
  | arg :: args, vs, hv => by
    simp only [argVals] at hv
    rcases hv1 : argVal A arg with _ | v
    · simp [hv1] at hv
    rcases hv2 : argVals A args with _ | vs'
    · simp [hv1, hv2] at hv
    simp only [hv1, hv2, Option.some.injEq] at hv
    subst hv
    obtain ⟨src, g1, g2, g3, g4⟩ := h.arg cfg hv1
    obtain ⟨srcs, f1, f2, f3, f4, f5, f6⟩ := h.args hv2
    refine ⟨src :: srcs, by simp [resolveAll, g1, f1], ⟨g2, f2⟩, by simp [f3], ?_, ?_, ?_⟩
    · intro a d hd hany
      simp only [List.any_cons, Bool.or_eq_false_iff] at hany
      intro x hx
      rcases List.mem_cons.mp hx with rfl | hx
      · exact h.arg_foreign cfg hv1 g1 hd hany.1
      · exact f4 a d hd hany.2 x hx
    · intro x hx b i hbi
      rcases List.mem_cons.mp hx with rfl | hx
      · cases arg with
        | val u => rw [g4 u rfl] at hbi; cases hbi
        | elem y j =>
          obtain ⟨d, k1, k2, _, xs, c, k3, k4⟩ := g3 y j rfl
          rw [k2] at hbi
          cases hbi
          rw [List.getElem?_eq_some_iff] at k4
          exact ⟨y, d, xs, c, k1, rfl, k3, k4.1⟩
      · exact f5 x hx b i hbi
    · intro hall x hx
      rcases List.mem_cons.mp hx with rfl | hx
      · obtain ⟨y, i, he⟩ := hall arg (by simp)
        obtain ⟨d, _, k2, _⟩ := g3 y i he
        exact ⟨d.blk, i, k2⟩
      · exact f6 (fun z hz => hall z (by simp [hz])) x hx

theorem argVals_length (A : AWorld α) : ∀ {args : List (Arg α)} {vs : List α},
    argVals A args = some vs → vs.length = args.length
  | [], vs, hv => by simp only [argVals, Option.some.injEq] at hv; subst hv; rfl
  | arg :: args, vs, hv => by
    simp only [argVals] at hv
    rcases hv1 : argVal A arg with _ | v
    · simp [hv1] at hv
    rcases hv2 : argVals A args with _ | vs'
    · simp [hv1, hv2] at hv
    simp only [hv1, hv2, Option.some.injEq] at hv
    subst hv
    simp [argVals_length A hv2]

theorem srcsOk_refs {m : Mem α} {d : Data} {xs : List α} (hh : Holds cfg m d xs) :
    SrcsOk m (refsOf d) xs := by
  have key : ∀ (k o : Nat) (ys : List α), ys.length = k → (∀ i (h : i < ys.length),
      SrcOk m (.ref d.blk (o + i)) ys[i]) → SrcsOk m ((List.range' o k).map (.ref d.blk)) ys := by
    intro k
    induction k with
    | zero => intro o ys h _; rw [List.length_eq_zero_iff.mp h]; trivial
    | succ k ih =>
      intro o ys h hi
      rcases ys with _ | ⟨y, ys⟩
      · simp at h
      · simp only [List.range'_succ, List.map_cons]
        refine ⟨hi 0 (by simp), ih (o + 1) ys (by simpa using h) fun i hi' => ?_⟩
        have := hi (i + 1) (by simp only [List.length_cons]; omega)
        rw [show o + 1 + i = o + (i + 1) by omega]
        exact this
  unfold refsOf
  rw [List.range_eq_range']
  have hsz := hh.size
  have hle := hh.le
  refine key d.size 0 xs hh.size.symm fun i hi => ⟨?_, ?_⟩
  · exact (inBounds_iff (hh.alive cfg (by omega))).mpr (by omega)
  · rw [Nat.zero_add]; exact hh.cells i hi

/-! ### Calls -/

/-- The outcome of a call meets its specification. -/
def Good (w : World α) (A : AWorld α) (op : Op α) (A' : AWorld α) (r : Nat) :
    Res (World α) Nat → Prop
  | .ok r' w' => r' = r ∧ Inv cfg w' A' ∧ (w.mem.ticks = none → w'.mem.ticks = none)
  | .throw w' => w.mem.ticks ≠ none ∧ ∃ A'', afterThrow A op A'' ∧ Inv cfg w' A''
  | .ub => False

theorem good_onNew {w : World α} {A : AWorld α} (h : Inv cfg w A) {op : Op α}
    {f : M (St α) Unit} {xs : List α} {c : Nat} {A' : AWorld α} {r : Nat}
    (hs : create A op.target (xs, c) = some (A', r))
    (hf : wp f ⟨w.mem, .null⟩ (fun _ s' => Post cfg ⟨w.mem, .null⟩ s' xs c)
      (fun s' => Post cfg ⟨w.mem, .null⟩ ⟨s'.mem, .null⟩ [] 0 ∧ w.mem.ticks ≠ none)) :
    Good cfg w A op A' r (onNew w op.target f) := by
  unfold create at hs
  rcases hA : A op.target with _ | o
  · simp only [hA, Option.some.injEq, Prod.mk.injEq] at hs
    obtain ⟨rfl, rfl⟩ := hs
    have hv := (h.none_iff _).mpr hA
    unfold onNew
    rw [hv]
    simp only
    unfold wp at hf
    rcases hr : f ⟨w.mem, .null⟩ with ⟨_, s'⟩ | s' | _
    · rw [hr] at hf
      exact ⟨rfl, h.update cfg (.inr ⟨hv, rfl⟩) hf, hf.ticks⟩
    · rw [hr] at hf
      obtain ⟨p, ht⟩ := hf
      refine ⟨ht, A, by simp [afterThrow, hA], ?_⟩
      have := h.remove cfg (.inr ⟨hv, rfl⟩) (d := .null) p.wf p.upd
      rw [upd_self _ _ _ hv, put_self _ _ _ hA] at this
      exact this
    · rw [hr] at hf; exact hf.elim
  · simp [hA] at hs

theorem good_onVar {w : World α} {A : AWorld α} (h : Inv cfg w A) {op : Op α}
    {f : M (St α) Nat} {xs : List α} {c : Nat} {e : Eff1 α} (hA : A op.target = some (xs, c))
    (hf : ∀ d, w.vars op.target = some d → Holds cfg w.mem d xs → d.cap = c →
      wp f ⟨w.mem, d⟩ (fun r s' => r = e.ret ∧ Post cfg ⟨w.mem, d⟩ s' e.xs e.cap)
        (fun s' => w.mem.ticks ≠ none ∧ ∃ xs' c', Post cfg ⟨w.mem, d⟩ s' xs' c' ∧
          throwContents A xs c xs' op ∧ c ≤ c')) :
    Good cfg w A op (put A op.target (some (e.xs, e.cap))) e.ret (onVar w op.target f) := by
  obtain ⟨d, hd, hh, hc⟩ := h.get cfg hA
  have hf := hf d hd hh hc
  unfold onVar
  rw [hd]
  simp only
  unfold wp at hf
  rcases hr : f ⟨w.mem, d⟩ with ⟨r, s'⟩ | s' | _
  · rw [hr] at hf
    exact ⟨hf.1, h.update cfg (.inl hd) hf.2, hf.2.ticks⟩
  · rw [hr] at hf
    obtain ⟨ht, xs', c', p, h1, h2⟩ := hf
    refine ⟨ht, put A op.target (some (xs', c')), ?_, h.update cfg (.inl hd) p⟩
    simp only [afterThrow, hA]
    exact ⟨xs', c', h1, h2, rfl⟩
  · rw [hr] at hf; exact hf.elim

theorem wp_unit0 {f : A α Unit} {s : St α} {Q : Nat → St α → Prop} {E : St α → Prop}
    (h : wp f s (fun _ s' => Q 0 s') E) : wp (unit0 f) s Q E := by
  unfold unit0
  rw [wp_bind]
  exact h

theorem good_ctorRange {w : World α} {A : AWorld α} (h : Inv cfg w A) {op : Op α}
    {srcs : List (Src α)} {vs : List α} {A' : AWorld α} {r : Nat}
    (hs : create A op.target (vs, vs.length) = some (A', r)) (hv : SrcsOk w.mem srcs vs)
    (hno : w.mem.ticks = none ∨ AllQuiet cfg srcs) :
    Good cfg w A op A' r (onNew w op.target (ctorRange cfg srcs)) :=
  good_onNew cfg h hs (wp_ctorRange cfg h.wf rfl hv hno (fun _ p => p) (fun _ p ht => ⟨p, ht⟩))

theorem quiet_args (ht : cfg.triv = true) {srcs : List (Src α)}
    (h : ∀ x ∈ srcs, ∃ b i, x = .ref b i) : AllQuiet cfg srcs :=
  fun x hx => ⟨ht, h x hx⟩

theorem quiet_refs (ht : cfg.triv = true) (d : Data) : AllQuiet cfg (refsOf d : List (Src α)) := by
  intro x hx
  simp only [refsOf, List.mem_map] at hx
  obtain ⟨i, _, rfl⟩ := hx
  exact ⟨ht, _, _, rfl⟩

end Verif.Arr
