import Verif.Functional.DelegateAddress
import Verif.Functional.DelegateProps

/-! # C104: callables stay where they were constructed -/

set_option autoImplicit false

namespace Verif.Delegate

variable {s s' : St} {a : Spec} {h : Nat → Option Place}

theorem ReachP.reach (r : ReachP s a h) : Reach s a := by
  induction r with
  | init => exact .init
  | step _ hl hs ih => exact .step ih hl hs
  | caught _ hl hs ih => exact .caught ih hl hs

theorem destroyFunctor_keep {ty : Ty} {f : Sto} {t t' : St} (e : destroyFunctor ty f t = some t') :
    t'.objTy = t.objTy ∧ t'.blkObj = t.blkObj ∧ t'.dels = t.dels := by
  have hobj : ∀ o (t t' : St), destroyObj ty o t = some t' → t'.objTy = t.objTy ∧ t'.blkObj = t.blkObj ∧ t'.dels = t.dels := by
    intro o t t' e
    unfold destroyObj at e
    split at e
    · cases e; exact ⟨rfl, rfl, rfl⟩
    · cases e
  unfold destroyFunctor at e
  split at e
  · split at e
    · exact hobj _ _ _ e
    · cases e
  · split at e
    · split at e
      · split at e
        · obtain ⟨t2, e1, rfl⟩ := Option.map_eq_some_iff.mp e
          exact hobj _ _ t2 e1
        · cases e
      · cases e
    · cases e

theorem dtor_keep {d : D} {t t' : St} (e : d.dtor t = some t') :
    t'.objTy = t.objTy ∧ t'.blkObj = t.blkObj ∧ t'.dels = t.dels := by
  unfold D.dtor at e
  split at e
  · exact destroyFunctor_keep e
  · cases e; exact ⟨rfl, rfl, rfl⟩

theorem ofFn_dels (ty : Ty) (isNull : Bool) (s : St) : (D.ofFn ty isNull s).1.dels = s.dels := by
  unfold D.ofFn
  split
  · rfl
  · exact createFunctor_dels ty s

/-- What a step does to the ledgers of objects and blocks. -/
theorem step_ledgers {op : Op} (e : step op s = .ok s') :
    (s'.objTy = s.objTy ∧ s'.blkObj = s.blkObj ∧ ∀ h, places op s h = h) ∨
    ∃ i ty self, (op = .fn i ty false ∧ self = .storage i ∨ op = .assignFn i ty false ∧ self = .temporary) ∧
      (∀ h, places op s h = Function.update h s.next (some (constructedAt ty s self))) ∧
      s'.objTy = (createFunctor ty s).1.objTy ∧ s'.blkObj = (createFunctor ty s).1.blkObj := by
  cases op with
  | default i =>
    left; unfold step at e; dsimp only at e
    split at e
    · cases e; exact ⟨rfl, rfl, fun _ => rfl⟩
    · cases e
  | fn i ty isNull =>
    unfold step at e; dsimp only at e
    split at e
    · cases e
      cases isNull with
      | true => left; exact ⟨rfl, rfl, fun _ => rfl⟩
      | false => right; exact ⟨i, ty, .storage i, .inl ⟨rfl, rfl⟩, fun _ => rfl, rfl, rfl⟩
    · cases e
  | move i j =>
    left; unfold step at e; dsimp only at e
    split at e
    · cases e; exact ⟨rfl, rfl, fun _ => rfl⟩
    · cases e
  | dtor i =>
    left; unfold step at e; dsimp only at e
    split at e
    · split at e
      · rename_i e1
        cases e
        obtain ⟨h1, h2, -⟩ := dtor_keep e1
        exact ⟨h1, h2, fun _ => rfl⟩
      · cases e
    · cases e
  | assignMove i j =>
    left; unfold step at e; dsimp only at e
    split at e
    · split at e
      · split at e
        · rename_i e1
          cases e
          obtain ⟨h1, h2, -⟩ := dtor_keep e1
          exact ⟨h1, h2, fun _ => rfl⟩
        · cases e
      · cases e
    · cases e
  | assignNull i =>
    left; unfold step at e; dsimp only at e
    split at e
    · split at e
      · rename_i e1
        cases e
        unfold D.assignNull at e1
        split at e1
        · obtain ⟨t2, e2, e3⟩ := Option.map_eq_some_iff.mp e1
          cases e3
          obtain ⟨h1, h2, -⟩ := destroyFunctor_keep e2
          exact ⟨h1, h2, fun _ => rfl⟩
        · cases e1; exact ⟨rfl, rfl, fun _ => rfl⟩
      · cases e
    · cases e
  | assignFn i ty isNull =>
    unfold step at e; dsimp only at e
    split at e
    · split at e
      · rename_i e1
        cases e
        obtain ⟨h1, h2, -⟩ := dtor_keep e1
        cases isNull with
        | true => left; exact ⟨h1, h2, fun _ => rfl⟩
        | false => right; exact ⟨i, ty, .temporary, .inr ⟨rfl, rfl⟩, fun _ => rfl, h1, h2⟩
      · cases e
    · cases e
  | swap i j =>
    left; unfold step at e; dsimp only at e
    split at e
    · cases e; exact ⟨rfl, rfl, fun _ => rfl⟩
    · cases e
  | call i =>
    left; unfold step at e; dsimp only at e
    split at e
    · unfold D.call at e
      split at e
      · cases e
      · split at e
        · cases e
        · split at e
          · rename_i e1
            cases e
            unfold invoke at e1
            split at e1
            · split at e1
              · cases e1; exact ⟨rfl, rfl, fun _ => rfl⟩
              · cases e1
            · cases e1
          · cases e
    · cases e

theorem step_badCall {op : Op} (hr : Reach s a) (hl : legal a op) (e : step op s = .badCall s') : s' = s := by
  rcases step_good (reach_good hr) hl with ⟨t, h1, -⟩ | ⟨h1, -⟩
  · rw [h1] at e; cases e
  · rw [h1] at e; cases e; rfl

/-- Every callable that does not fit the storage was constructed in its block. -/
theorem block_places (r : ReachP s a h) :
    ∀ o ty, s.objTy o = some ty → ty.isLocal = false → ∃ b, s.blkObj b = some o ∧ h o = some (.block b) := by
  induction r with
  | init => intro o ty e; cases e
  | caught r hl hs ih => rw [step_badCall r.reach hl hs]; exact ih
  | step r hl hs ih =>
    rename_i s a h op s'
    intro o ty ho hloc
    rcases step_ledgers hs with ⟨e1, e2, e3⟩ | ⟨i, ty', self, -, e3, e1, e2⟩
    · rw [e1] at ho; rw [e2, e3]; exact ih o ty ho hloc
    · have hg := reach_good r.reach
      have f0 := Inv.fresh hg s.next (Nat.le_refl _)
      have f1 := Inv.fresh hg (s.next + 1) (by omega)
      rw [e3]
      by_cases hon : o = s.next
      · subst hon
        have : ty' = ty := by
          rw [e1] at ho
          have : (createFunctor ty' s).1.objTy s.next = some ty' := by
            unfold createFunctor construct; split <;> simp
          rw [this] at ho; exact Option.some.inj ho
        subst this
        refine ⟨s.next + 1, ?_, by simp [constructedAt, hloc]⟩
        rw [e2]; simp [createFunctor, construct, hloc]
      · have ho' : s.objTy o = some ty := by
          rw [e1] at ho
          have : (createFunctor ty' s).1.objTy o = s.objTy o := by
            unfold createFunctor construct; split <;> simp [hon]
          rwa [this] at ho
        obtain ⟨b, hb, hh⟩ := ih o ty ho' hloc
        refine ⟨b, ?_, by rw [Function.update_of_ne hon]; exact hh⟩
        rw [e2]
        have hbn : b ≠ s.next + 1 := by rintro rfl; rw [f1.2] at hb; cases hb
        have : (createFunctor ty' s).1.blkObj b = s.blkObj b := by
          unfold createFunctor construct; split <;> simp [hbn]
        rw [this]; exact hb

theorem calledAt_of_rep {d : D} {i o : Nat} {ty : Ty} (hd : s.dels i = some d) (hr : Rep s d (some o))
    (ho : s.objTy o = some ty) :
    (ty.isLocal = true → calledAt s i = some (.storage i)) ∧
    (ty.isLocal = false → ∃ b, calledAt s i = some (.block b) ∧ s.blkObj b = some o) := by
  obtain ⟨ty', e1, e2, e3, e4, e5⟩ := hr
  rw [ho] at e3; cases e3
  unfold calledAt
  rw [hd]
  rcases e5 with ⟨hl, hs⟩ | ⟨hl, b, hs, hb, hf⟩
  · rw [hl]; simp [hs]
  · rw [hl]; simp [hs, hb]

/-- The operation does not copy the storage of delegate `i`, in or out. -/
def leavesStorage (i : Nat) : Op → Prop
  | .move j k => i ≠ j ∧ i ≠ k
  | .assignMove j k => i ≠ j ∧ i ≠ k
  | .swap j k => i ≠ j ∧ i ≠ k
  | .assignFn j _ _ => i ≠ j
  | _ => True

/-- C104, what holds. The full claim is "a callable is called at the place where it was constructed". It holds for
callables too large or too strictly aligned for the storage, whatever is done with the delegates; and for the others
as long as their delegate was initialised with the callable (`Delegate d(fn)`) and never moved, swapped or assigned
to. Where there is no delegate nothing is called. -/
theorem delegate_place_partial (r : ReachP s a h) :
    (∀ i o ty, a i = some (some o) → s.objTy o = some ty → (16 < ty.size ∨ 8 < ty.align) →
      ∃ b, calledAt s i = some (.block b) ∧ h o = some (.block b)) ∧
    (∀ i ty s', legal a (.fn i ty false) → step (.fn i ty false) s = .ok s' →
      calledAt s' i = places (.fn i ty false) s h s.next) ∧
    (∀ op s' i o, legal a op → step op s = .ok s' → leavesStorage i op → a i = some (some o) →
      spec s.next a op i = some (some o) → calledAt s i = h o → calledAt s' i = places op s h o) ∧
    (∀ i, a i = none → calledAt s i = none) := by
  have hg := reach_good r.reach
  have hcall : ∀ {s a h}, ReachP s a h → ∀ i o ty, a i = some (some o) → s.objTy o = some ty →
      (ty.isLocal = true → calledAt s i = some (.storage i)) ∧
      (ty.isLocal = false → ∃ b, calledAt s i = some (.block b) ∧ h o = some (.block b)) := by
    intro s a h r i o ty hi ho
    have hg := reach_good r.reach
    obtain ⟨d, y, hd, hy, hr⟩ := hg.get (i := i) (by rw [hi]; simp)
    rw [hi] at hy; cases hy
    obtain ⟨h1, h2⟩ := calledAt_of_rep hd hr ho
    refine ⟨h1, fun hl => ?_⟩
    obtain ⟨b, h3, h4⟩ := h2 hl
    obtain ⟨b', h5, h6⟩ := block_places r o ty ho hl
    rw [Inv.blkInj hg b b' o h4 h5] at h3
    exact ⟨b', h3, h6⟩
  refine ⟨?_, ?_, ?_, fun i hi => by unfold calledAt; rw [hg.none hi]⟩
  · intro i o ty hi ho hbig
    exact (hcall r i o ty hi ho).2 (by simp [Ty.isLocal]; omega)
  · intro i ty s' hl hs
    have r' := ReachP.step r hl hs
    obtain ⟨-, ho⟩ := delegate_new_callable r.reach (.inl hs)
    have hi : spec s.next a (.fn i ty false) i = some (some s.next) := by simp [spec]
    obtain ⟨h1, h2⟩ := hcall r' i s.next ty hi ho
    cases hloc : ty.isLocal with
    | true => rw [h1 hloc]; simp [places, constructedAt, hloc]
    | false =>
      obtain ⟨b, h3, h4⟩ := h2 hloc
      rw [h3, h4]
  · intro op s' i o hl hs hleave hi hi' hat
    have r' := ReachP.step r hl hs
    obtain ⟨d, y, hd, hy, hr⟩ := hg.get (i := i) (by rw [hi]; simp)
    rw [hi] at hy; cases hy
    obtain ⟨ty, -, -, ho, -⟩ := hr
    have hon : o ≠ s.next := by
      rintro rfl; rw [(Inv.fresh hg s.next (Nat.le_refl _)).1] at ho; cases ho
    have ho' : s'.objTy o = some ty := by
      rcases step_ledgers hs with ⟨e1, -⟩ | ⟨j, ty', self, -, -, e1, -⟩
      · rw [e1]; exact ho
      · rw [e1]
        have : (createFunctor ty' s).1.objTy o = s.objTy o := by
          unfold createFunctor construct; split <;> simp [hon]
        rw [this]; exact ho
    have hp : places op s h o = h o := by
      rcases step_ledgers hs with ⟨-, -, e3⟩ | ⟨j, ty', self, -, e3, -⟩
      · rw [e3]
      · rw [e3, Function.update_of_ne hon]
    obtain ⟨h1, h2⟩ := hcall r' i o ty hi' ho'
    obtain ⟨g1, g2⟩ := hcall r i o ty hi ho
    cases hloc : ty.isLocal with
    | true => rw [h1 hloc, hp, ← hat, g1 hloc]
    | false =>
      obtain ⟨b, h3, h4⟩ := h2 hloc
      rw [h3, h4]

/-- C104 is false for callables that fit the storage. Whenever such a callable is called where it was constructed,
moving its delegate into another one, or swapping it with another one, makes the other call it at a place where it
was not constructed (`std::function` would have moved or kept the callable). And `d = fn` always does. -/
theorem delegate_place_wrong (r : ReachP s a h) {i : Nat} :
    (∀ j o ty s', a i = some (some o) → s.objTy o = some ty → ty.isLocal = true → calledAt s i = h o → j ≠ i →
      (legal a (.move j i) → step (.move j i) s = .ok s' →
        spec s.next a (.move j i) j = some (some o) ∧ calledAt s' j ≠ places (.move j i) s h o) ∧
      (legal a (.swap j i) → step (.swap j i) s = .ok s' →
        spec s.next a (.swap j i) j = some (some o) ∧ calledAt s' j ≠ places (.swap j i) s h o)) ∧
    (∀ ty s', ty.isLocal = true → legal a (.assignFn i ty false) → step (.assignFn i ty false) s = .ok s' →
      spec s.next a (.assignFn i ty false) i = some (some s.next) ∧
      calledAt s' i ≠ places (.assignFn i ty false) s h s.next) := by
  have hg := reach_good r.reach
  have hcall : ∀ {s a}, Reach s a → ∀ i o ty, a i = some (some o) → s.objTy o = some ty → ty.isLocal = true →
      calledAt s i = some (.storage i) := by
    intro s a r i o ty hi ho hl
    have hg := reach_good r
    obtain ⟨d, y, hd, hy, hr⟩ := hg.get (i := i) (by rw [hi]; simp)
    rw [hi] at hy; cases hy
    exact (calledAt_of_rep hd hr ho).1 hl
  refine ⟨fun j o ty s' hi ho hl hat hj => ⟨fun hleg hs => ?_, fun hleg hs => ?_⟩, fun ty s' hl hleg hs => ?_⟩
  · have hsp : spec s.next a (.move j i) j = some (some o) := by simp [spec, hj, hi]
    refine ⟨hsp, ?_⟩
    have ho' : s'.objTy o = some ty := by
      rcases step_ledgers hs with ⟨e1, -⟩ | ⟨k, ty', self, (⟨e, -⟩ | ⟨e, -⟩), -⟩
      · rw [e1]; exact ho
      · cases e
      · cases e
    have h1 := hcall (.step r.reach hleg hs) j o ty hsp ho' hl
    rw [h1]
    change _ ≠ h o
    rw [← hat, hcall r.reach i o ty hi ho hl]
    intro e; cases e; exact hj rfl
  · have hsp : spec s.next a (.swap j i) j = some (some o) := by
      simp [spec, hj, hi]
    refine ⟨hsp, ?_⟩
    have ho' : s'.objTy o = some ty := by
      rcases step_ledgers hs with ⟨e1, -⟩ | ⟨k, ty', self, (⟨e, -⟩ | ⟨e, -⟩), -⟩
      · rw [e1]; exact ho
      · cases e
      · cases e
    have h1 := hcall (.step r.reach hleg hs) j o ty hsp ho' hl
    rw [h1]
    change _ ≠ h o
    rw [← hat, hcall r.reach i o ty hi ho hl]
    intro e; cases e; exact hj rfl
  · have hsp : spec s.next a (.assignFn i ty false) i = some (some s.next) := by simp [spec]
    refine ⟨hsp, ?_⟩
    obtain ⟨-, ho⟩ := delegate_new_callable r.reach (.inr hs)
    rw [hcall (.step r.reach hleg hs) i s.next ty hsp ho hl]
    simp [places, constructedAt, hl]

/-- What can be brought about from a state. -/
inductive Later (s : St) (a : Spec) : St → Spec → Prop
  | refl : Later s a s a
  | step {t b op t'} : Later s a t b → legal b op → step op t = .ok t' → Later s a t' (spec t.next b op)
  | caught {t b op t'} : Later s a t b → legal b op → Verif.Delegate.step op t = .badCall t' → Later s a t' b

theorem Later.keeps {t : St} {b : Spec} (hr : Reach s a) (h : Later s a t b) :
    Reach t b ∧ ∀ o ty, s.objTy o = some ty → t.objTy o = some ty := by
  induction h with
  | refl => exact ⟨hr, fun o ty h => h⟩
  | caught _ hl hs ih => exact ⟨.caught ih.1 hl hs, by rw [step_badCall ih.1 hl hs]; exact ih.2⟩
  | @step t b op t' _ hl hs ih =>
    refine ⟨.step ih.1 hl hs, fun o ty ho => ?_⟩
    have ho' := ih.2 o ty ho
    rcases step_ledgers hs with ⟨e1, -⟩ | ⟨i, ty', self, -, -, e1, -⟩
    · rw [e1]; exact ho'
    · have f0 := Inv.fresh (reach_good ih.1) t.next (Nat.le_refl _)
      have hne : o ≠ t.next := by rintro rfl; rw [f0.1] at ho'; cases ho'
      rw [e1]
      have : (createFunctor ty' t).1.objTy o = t.objTy o := by
        unfold createFunctor construct; split <;> simp [hne]
      rw [this]; exact ho'

/-- C104, exactly, for callables that fit the storage: whatever is done after delegate `k` was initialised with the callable,
a delegate `i` that has the callable calls it where it was constructed just if `i` is `k`. If the callable was assigned to
a delegate, none ever does. -/
theorem delegate_place_exact (r : Reach s a) {k : Nat} {ty : Ty} (hl : ty.isLocal = true) :
    (∀ s', legal a (.fn k ty false) → step (.fn k ty false) s = .ok s' → ∀ t b i,
      Later s' (spec s.next a (.fn k ty false)) t b → b i = some (some s.next) →
      (calledAt t i = some (constructedAt ty s (.storage k)) ↔ i = k)) ∧
    (∀ s', legal a (.assignFn k ty false) → step (.assignFn k ty false) s = .ok s' → ∀ t b i,
      Later s' (spec s.next a (.assignFn k ty false)) t b → b i = some (some s.next) →
      calledAt t i ≠ some (constructedAt ty s .temporary)) := by
  have hcall : ∀ {s a}, Reach s a → ∀ i o, a i = some (some o) → s.objTy o = some ty → calledAt s i = some (.storage i) := by
    intro s a r i o hi ho
    obtain ⟨d, y, hd, hy, hr⟩ := (reach_good r).get (i := i) (by rw [hi]; simp)
    rw [hi] at hy; cases hy
    exact (calledAt_of_rep hd hr ho).1 hl
  constructor
  · intro s' hleg hs t b i hlat hi
    obtain ⟨-, ho⟩ := delegate_new_callable r (.inl hs)
    obtain ⟨g1, g2⟩ := hlat.keeps (.step r hleg hs)
    rw [hcall g1 i _ hi (g2 _ _ ho)]
    simp [constructedAt, hl]
  · intro s' hleg hs t b i hlat hi
    obtain ⟨-, ho⟩ := delegate_new_callable r (.inr hs)
    obtain ⟨g1, g2⟩ := hlat.keeps (.step r hleg hs)
    rw [hcall g1 i _ hi (g2 _ _ ho)]
    simp [constructedAt, hl]

/-! ### The hypotheses can be met -/

/-- A small callable, constructed in delegate 0 and moved to delegate 1, is called elsewhere than constructed; a big
one is not. -/
example : ∃ s a h, ReachP s a h ∧ a 1 = some (some 0) ∧ a 2 = some (some 1) ∧
    (calledAt s 1, h 0) = (some (.storage 1), some (.storage 0)) ∧
    (calledAt s 2, h 1) = (some (.block 2), some (.block 2)) := by
  refine ⟨_, _, _, .step (op := .fn 2 big false) (.step (op := .move 1 0) (.step (op := .fn 0 small false) .init rfl rfl)
    ⟨by decide +kernel, by decide +kernel⟩ rfl) (by unfold legal; decide +kernel) rfl, ?_, ?_, ?_, ?_⟩ <;> decide +kernel

/-- A small callable moved away and back again. -/
example : ∃ s' t b, step (.fn 0 small false) .init = .ok s' ∧ Later s' (spec 0 .init (.fn 0 small false)) t b ∧
    b 0 = some (some 0) ∧ b 1 = some none ∧ calledAt t 0 = some (.storage 0) := by
  refine ⟨_, _, _, rfl, .step (op := .assignMove 0 1) (.step (op := .move 1 0) .refl ⟨by decide +kernel, by decide +kernel⟩ rfl)
    ⟨by decide +kernel, by decide +kernel⟩ rfl, ?_, ?_, ?_⟩ <;> decide +kernel

end Verif.Delegate
