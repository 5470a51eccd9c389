import Verif.Functional.DelegateNested
import Verif.Functional.DelegateProps

/-! # C151: callables that use the delegate they run through -/

set_option autoImplicit false

namespace Verif.Delegate

variable {s s' : St} {a a' : Spec}

/-! ### Lemmas -/

theorem nested_reach {fr : List Frame} (h : Nested s a fr) : Reach s a := by
  induction h with
  | init => exact .init
  | enter _ hl hs _ ih => exact ih.step hl hs
  | failed _ hl hs ih => exact ih.caught hl hs
  | op _ hl _ hs ih => exact ih.step hl hs
  | leave _ ih => exact ih

theorem during_reach {ok : Spec → Op → Prop} (h0 : Reach s a) (h : During ok s a s' a') : Reach s' a' := by
  induction h with
  | refl => exact h0
  | call _ hl hs ih =>
    rcases hs with hs | hs
    · exact ih.step hl hs
    · exact ih.caught hl hs
  | op _ hl _ _ hs ih => exact ih.step hl hs

theorem frameOf_spec (h : Reach s a) {i o : Nat} (hi : a i = some (some o)) :
    ∃ ty, s.objTy o = some ty ∧
      ((ty.isLocal = true ∧ frameOf s i = some ⟨o, .storage i⟩) ∨
       (ty.isLocal = false ∧ ∃ b, s.blkObj b = some o ∧ frameOf s i = some ⟨o, .block b⟩)) := by
  obtain ⟨d, x, hd, hx, hr⟩ := (reach_good h).get (i := i) (by rw [hi]; simp)
  rw [hi] at hx; cases hx
  obtain ⟨ty, h1, h2, h3, h4, h5⟩ := hr
  refine ⟨ty, h3, ?_⟩
  rcases h5 with ⟨e1, e2⟩ | ⟨e1, b, e2, e3, e4⟩
  · left; exact ⟨e1, by simp [frameOf, hd, h2, handleOf, e1, e2]⟩
  · right; exact ⟨e1, b, e3, by simp [frameOf, hd, h2, handleOf, e1, e2, e3, e4]⟩

/-- What is never undone: a callable keeps its type and its block, and destroyed ones stay destroyed. -/
structure Mono (s s' : St) : Prop where
  blk : ∀ b o, s.blkObj b = some o → s'.blkObj b = some o
  ty : ∀ o ty, s.objTy o = some ty → s'.objTy o = some ty
  dt : ∀ o, s.dtors o ≤ s'.dtors o

theorem Mono.refl (s : St) : Mono s s := ⟨fun _ _ => id, fun _ _ => id, fun _ => le_refl _⟩

theorem Mono.trans {s1 s2 s3 : St} (h : Mono s1 s2) (h' : Mono s2 s3) : Mono s1 s3 :=
  ⟨fun b o e => h'.blk b o (h.blk b o e), fun o t e => h'.ty o t (h.ty o t e),
    fun o => (h.dt o).trans (h'.dt o)⟩

theorem Mono.set {s1 s2 : St} (h : Mono s1 s2) (i : Nat) (d : Option D) : Mono s1 (s2.set i d) :=
  ⟨h.blk, h.ty, h.dt⟩

theorem destroyObj_mono {ty : Ty} {o : Nat} (h : destroyObj ty o s = some s') : Mono s s' := by
  unfold destroyObj at h
  split at h
  · cases h
    refine ⟨fun _ _ => id, fun _ _ => id, fun o' => ?_⟩
    by_cases e : o' = o
    · subst e; simp
    · simp [e]
  · cases h

theorem destroyFunctor_mono {ty : Ty} {f : Sto} (h : destroyFunctor ty f s = some s') : Mono s s' := by
  unfold destroyFunctor at h
  split at h
  · split at h
    · exact destroyObj_mono h
    · cases h
  · split at h
    · split at h
      · split at h
        · rw [Option.map_eq_some_iff] at h
          obtain ⟨s1, h1, rfl⟩ := h
          have := destroyObj_mono h1
          exact ⟨this.blk, this.ty, this.dt⟩
        · cases h
      · cases h
    · cases h

theorem dtor_mono {d : D} (h : d.dtor s = some s') : Mono s s' := by
  unfold D.dtor at h
  split at h
  · exact destroyFunctor_mono h
  · cases h; exact .refl _

theorem ofFn_mono (hg : Good s a) (ty : Ty) (isNull : Bool) : Mono s (D.ofFn ty isNull s).1 := by
  have f0 := hg.fresh s.next (le_refl _)
  have f1 := hg.fresh (s.next + 1) (by omega)
  have ht : ∀ o ty', s.objTy o = some ty' → o ≠ s.next := by
    rintro o ty' h rfl; rw [f0.1] at h; cases h
  have hb : ∀ b o, s.blkObj b = some o → b ≠ s.next + 1 := by
    rintro b o h rfl
    simp [f1] at h
  unfold D.ofFn
  split
  · exact .refl _
  · simp only [createFunctor, construct]
    split
    · refine ⟨fun _ _ => id, fun o ty' h => ?_, fun _ => le_refl _⟩
      simp [ht o ty' h, h]
    · refine ⟨fun b o h => ?_, fun o ty' h => ?_, fun _ => le_refl _⟩
      · simp [hb b o h, h]
      · simp [ht o ty' h, h]

theorem step_mono {op : Op} (hg : Good s a) (h : step op s = .ok s') : Mono s s' := by
  cases op with
  | default i =>
    simp only [step] at h
    split at h
    · cases h; exact (Mono.refl s).set _ _
    · cases h
  | fn i ty n =>
    simp only [step] at h
    split at h
    · cases h; exact (ofFn_mono hg ty n).set _ _
    · cases h
  | move i j =>
    simp only [step] at h
    split at h
    · cases h; exact ((Mono.refl s).set _ _).set _ _
    · cases h
  | dtor i =>
    simp only [step] at h
    split at h
    · split at h
      · rename_i h1; cases h; exact (dtor_mono h1).set _ _
      · cases h
    · cases h
  | assignMove i j =>
    simp only [step] at h
    split at h
    · split at h
      · split at h
        · rename_i h1; cases h
          exact Mono.trans (((Mono.refl s).set _ _).set _ _) (dtor_mono h1)
        · cases h
      · cases h
    · cases h
  | assignNull i =>
    simp only [step] at h
    split at h
    · split at h
      · rename_i s1 d1 h1
        cases h
        unfold D.assignNull at h1
        split at h1
        · rw [Option.map_eq_some_iff] at h1
          obtain ⟨s2, h2, h3⟩ := h1
          cases h3
          exact (destroyFunctor_mono h2).set _ _
        · cases h1; exact (Mono.refl s).set _ _
      · cases h
    · cases h
  | assignFn i ty n =>
    simp only [step] at h
    split at h
    · split at h
      · rename_i h1; cases h
        exact ((ofFn_mono hg ty n).set _ _).trans (dtor_mono h1)
      · cases h
    · cases h
  | swap i j =>
    simp only [step] at h
    split at h
    · cases h; exact ((Mono.refl s).set _ _).set _ _
    · cases h
  | call i =>
    simp only [step] at h
    split at h
    · unfold D.call at h
      split at h
      · cases h
      · split at h
        · cases h
        · split at h
          · rename_i h1; cases h
            unfold invoke at h1
            split at h1
            · split at h1
              · cases h1; exact ⟨fun _ _ => id, fun _ _ => id, fun _ => le_refl _⟩
              · cases h1
            · cases h1
          · cases h
    · cases h

theorem badCall_eq {op : Op} (h : step op s = .badCall s') (hg : Good s a) (hl : legal a op) : s' = s := by
  rcases step_good hg hl with ⟨s1, h1, -⟩ | ⟨h1, -⟩
  · rw [h1] at h; cases h
  · rw [h1] at h; cases h; rfl

theorem during_mono {ok : Spec → Op → Prop} (h0 : Reach s a) (h : During ok s a s' a') : Mono s s' := by
  induction h with
  | refl => exact .refl _
  | call hd hl hs ih =>
    have hg := reach_good (during_reach h0 hd)
    rcases hs with hs | hs
    · exact ih.trans (step_mono hg hs)
    · rw [badCall_eq hs hg hl]; exact ih
  | op hd hl _ _ hs ih => exact ih.trans (step_mono (reach_good (during_reach h0 hd)) hs)

/-- While a delegate holds a callable, a call through it finds it usable. -/
theorem usable_of_held (h : Reach s a) {i o : Nat} (hi : a i = some (some o)) :
    (∀ ty, s.objTy o = some ty → ty.isLocal = true → s.usable ⟨o, .storage i⟩) ∧
    (∀ b, s.blkObj b = some o → s.usable ⟨o, .block b⟩) := by
  have hg := reach_good h
  obtain ⟨d, x, hd, hx, hr⟩ := hg.get (i := i) (by rw [hi]; simp)
  rw [hi] at hx; cases hx
  obtain ⟨ty, h1, h2, h3, h4, h5⟩ := hr
  constructor
  · intro ty' ht hl
    rw [h3] at ht; cases ht
    rcases h5 with ⟨e1, e2⟩ | ⟨e1, -⟩
    · exact ⟨by simp [St.objAt, hd, e2], h4, trivial⟩
    · rw [hl] at e1; cases e1
  · intro b hb
    refine ⟨hb, h4, ?_⟩
    show s.frees b = 0
    rw [(hg.blk b o hb).1, h4]

theorem spec_untouched (n : Nat) {i : Nat} {op : Op} (h : ¬ touches i op) : spec n a op i = a i := by
  cases op <;> simp only [touches, not_or] at h <;> simp only [spec]
  case default j => rw [Function.update_of_ne (Ne.symm h)]
  case fn j _ _ => rw [Function.update_of_ne (Ne.symm h)]
  case move j k => rw [Function.update_of_ne (Ne.symm h.2), Function.update_of_ne (Ne.symm h.1)]
  case dtor j => rw [Function.update_of_ne (Ne.symm h)]
  case assignMove j k =>
    split
    · rfl
    · rw [Function.update_of_ne (Ne.symm h.2), Function.update_of_ne (Ne.symm h.1)]
  case assignNull j => rw [Function.update_of_ne (Ne.symm h)]
  case assignFn j _ _ => rw [Function.update_of_ne (Ne.symm h)]
  case swap j k => rw [Function.update_of_ne (Ne.symm h.2), Function.update_of_ne (Ne.symm h.1)]

/-- A callable stays held unless the delegate that holds it is ended or overwritten. -/
theorem spec_held (n o : Nat) {op : Op} (hl : legal a op) (h : ¬ discards a o op) (hh : ∃ j, a j = some (some o)) :
    ∃ j, spec n a op j = some (some o) := by
  obtain ⟨j, hj⟩ := hh
  cases op <;> simp only [discards] at h <;> simp only [legal] at hl <;> simp only [spec]
  case default i =>
    exact ⟨j, by rw [Function.update_of_ne (by rintro rfl; rw [hj] at hl; cases hl)]; exact hj⟩
  case fn i _ _ =>
    exact ⟨j, by rw [Function.update_of_ne (by rintro rfl; rw [hj] at hl; cases hl)]; exact hj⟩
  case move i k =>
    have hij : j ≠ i := by rintro rfl; rw [hj] at hl; cases hl.1
    by_cases e : j = k
    · subst e
      exact ⟨i, by rw [Function.update_of_ne (Ne.symm hij)]; simpa using hj⟩
    · exact ⟨j, by rw [Function.update_of_ne e, Function.update_of_ne hij]; exact hj⟩
  case dtor i => exact ⟨j, by rw [Function.update_of_ne (by rintro rfl; exact h hj)]; exact hj⟩
  case assignMove i k =>
    split
    · exact ⟨j, hj⟩
    · rename_i hik
      have hij : j ≠ i := by rintro rfl; exact h ⟨hj, hik⟩
      by_cases e : j = k
      · subst e
        exact ⟨i, by rw [Function.update_of_ne (Ne.symm hij)]; simpa using hj⟩
      · exact ⟨j, by rw [Function.update_of_ne e, Function.update_of_ne hij]; exact hj⟩
  case assignNull i => exact ⟨j, by rw [Function.update_of_ne (by rintro rfl; exact h hj)]; exact hj⟩
  case assignFn i _ _ => exact ⟨j, by rw [Function.update_of_ne (by rintro rfl; exact h hj)]; exact hj⟩
  case swap i k =>
    by_cases e1 : j = k
    · subst e1
      by_cases e2 : i = j
      · subst e2; exact ⟨i, by simpa using hj⟩
      · exact ⟨i, by rw [Function.update_of_ne e2]; simpa using hj⟩
    · by_cases e2 : j = i
      · subst e2; exact ⟨k, by simpa using hj⟩
      · exact ⟨j, by rw [Function.update_of_ne e1, Function.update_of_ne e2]; exact hj⟩
  case call i => exact ⟨j, hj⟩

/-- What the operations that discard a callable leave. -/
theorem spec_discarded (h : Reach s a) {o : Nat} {op : Op} (hd : discards a o op) (hn : s.next ≠ o) :
    ∀ j, spec s.next a op j ≠ some (some o) := by
  have hu := (reach_good h).uniq
  have huniq : ∀ i j, a i = some (some o) → a j = some (some o) → i = j := fun i j h1 h2 => by
    have := hu (some i) (some j) o h1 h2
    simpa using this
  have key : ∀ i j (x : Option (Option Nat)), a i = some (some o) → x ≠ some (some o) →
      Function.update a i x j ≠ some (some o) := by
    intro i j x hi hx
    by_cases e : j = i
    · subst e; simpa using hx
    · rw [Function.update_of_ne e]
      intro hc; exact e (huniq _ _ hc hi)
  intro j
  cases op <;> simp only [discards] at hd
  case dtor i => exact key i j _ hd (by simp)
  case assignNull i => exact key i j _ hd (by simp)
  case assignFn i t n =>
    refine key i j _ hd ?_
    cases n
    · simpa using hn
    · simp
  case assignMove i k =>
    simp only [spec, if_neg hd.2]
    by_cases e : j = k
    · subst e; simp
    · rw [Function.update_of_ne e]
      refine key i j _ hd.1 fun hc => hd.2 (huniq _ _ hd.1 hc)

/-! ### C151 -/

/-- C151 (what holds). A call of a delegate that holds the callable `o` runs `o`, which can read its captured values
at once and, as long as no other operation than a call is applied to that delegate, whatever else happens, nested
calls of the same delegate included. A callable too large for the delegate's storage (more than 16 bytes, or aligned
to more than 8) can do so under the weaker condition that the delegate that holds it, which may change, is not ended
or overwritten. All the guarantees about delegates (C43 to C46) hold meanwhile. Missing: a callable that replaces,
empties, moves, swaps or destroys its own delegate (`running_discard_wrong`, `running_swap_wrong`). -/
theorem running_usable_partial {fr : List Frame} (h : Nested s a fr) {i o : Nat} (hi : a i = some (some o)) :
    ∃ s1 f, step (.call i) s = .ok s1 ∧ frameOf s i = some f ∧ Nested s1 a (f :: fr) ∧ f.obj = o ∧
      s1.calls = o :: s.calls ∧ s1.usable f ∧
      (∀ s' a', During (fun _ op => ¬ touches i op) s1 a s' a' → s'.usable f ∧ Reach s' a') ∧
      (∀ ty, s.objTy o = some ty → (16 < ty.size ∨ 8 < ty.align) →
        ∀ s' a', During (fun a op => ¬ discards a o op) s1 a s' a' → s'.usable f ∧ Reach s' a') := by
  have hr := nested_reach h
  have hl : legal a (.call i) := by simp [legal, hi]
  obtain ⟨d, hd, -, hc, -⟩ := delegate_calls hr hi
  obtain ⟨ty, hty, hf⟩ := frameOf_spec hr hi
  have hr1 : Reach { s with calls := o :: s.calls } a := hr.step hl hc
  obtain ⟨f, hf1, hfo, hfu, hfl⟩ : ∃ f, frameOf s i = some f ∧ f.obj = o ∧
      (∀ s' a', Reach s' a' → Mono s s' → a' i = some (some o) → s'.usable f) ∧
      (ty.isLocal = false → ∀ s' a', Reach s' a' → Mono s s' → (∃ j, a' j = some (some o)) → s'.usable f) := by
    rcases hf with ⟨e1, e2⟩ | ⟨e1, b, e2, e3⟩
    · refine ⟨_, e2, rfl, fun s' a' g1 g2 g3 => ?_, fun e => by rw [e1] at e; cases e⟩
      exact (usable_of_held g1 g3).1 ty (g2.ty _ _ hty) e1
    · refine ⟨_, e3, rfl, fun s' a' g1 g2 g3 => ?_, fun _ s' a' g1 g2 ⟨j, g3⟩ => ?_⟩
      · exact (usable_of_held g1 g3).2 b (g2.blk _ _ e2)
      · exact (usable_of_held g1 g3).2 b (g2.blk _ _ e2)
  have hm1 : Mono s { s with calls := o :: s.calls } := step_mono (reach_good hr) hc
  refine ⟨_, f, hc, hf1, .enter h hl hc hf1, hfo, rfl, hfu _ _ hr1 hm1 hi, ?_, ?_⟩
  · intro s' a' hdu
    have hr' := during_reach hr1 hdu
    refine ⟨hfu _ _ hr' (hm1.trans (during_mono hr1 hdu)) ?_, hr'⟩
    clear hr'
    induction hdu with
    | refl => exact hi
    | call _ _ _ ih => exact ih
    | op _ _ _ hok _ ih => rw [spec_untouched _ hok]; exact ih
  · intro ty' ht' hbig s' a' hdu
    rw [hty] at ht'; cases ht'
    have hnl : ty.isLocal = false := by simp [Ty.isLocal]; omega
    have hr' := during_reach hr1 hdu
    refine ⟨hfl hnl _ _ hr' (hm1.trans (during_mono hr1 hdu)) ?_, hr'⟩
    clear hr'
    induction hdu with
    | refl => exact ⟨i, hi⟩
    | call _ _ _ ih => exact ih
    | op _ hl' _ hok _ ih => exact spec_held _ _ hl' hok ih

/-- C151. Whatever the state, a callable that replaces, empties or destroys the delegate that holds it is destroyed
by that while it runs: from then on it cannot read its captured values. -/
theorem running_discard_wrong {fr : List Frame} (h : Nested s a fr) {i o : Nat} (hi : a i = some (some o))
    {s1 : St} {f : Frame} (hc : step (.call i) s = .ok s1) (hf : frameOf s i = some f) {op : Op}
    (hop : op = .assignNull i ∨ (∃ ty n, op = .assignFn i ty n) ∨ (∃ j, op = .assignMove i j ∧ j ≠ i) ∨ op = .dtor i)
    (hl : legal a op) :
    ∃ s2, step op s1 = .ok s2 ∧ s2.dtors o = 1 ∧
      ∀ s' a', During (fun _ _ => True) s2 (spec s1.next a op) s' a' → ¬ s'.usable f := by
  have hr := nested_reach h
  have hr1 : Reach s1 a := hr.step (by simp [legal, hi]) hc
  have hg1 := reach_good hr1
  obtain ⟨ty, hty, hf'⟩ := frameOf_spec hr hi
  have hfo : f.obj = o := by
    rcases hf' with ⟨-, e⟩ | ⟨-, b, -, e⟩ <;> (rw [e] at hf; cases hf; rfl)
  have hd : discards a o op := by
    rcases hop with rfl | ⟨t, n, rfl⟩ | ⟨j, rfl, hj⟩ | rfl
    · exact hi
    · exact hi
    · exact ⟨hi, hj.symm⟩
    · exact hi
  have hty1 := (step_mono (reach_good hr) hc).ty _ _ hty
  have hne : s1.next ≠ o := by
    rintro rfl
    rw [(hg1.fresh _ (le_refl _)).1] at hty1; cases hty1
  rcases step_good hg1 hl with ⟨s2, h1, h2, -⟩ | ⟨-, h1⟩
  · have hr2 : Reach s2 (spec s1.next a op) := hr1.step hl h1
    have hty2 := (step_mono hg1 h1).ty _ _ hty1
    have hdt : s2.dtors o = 1 := by
      rcases delegate_destroys_once hr2 hty2 with ⟨-, j, hj, -⟩ | ⟨h3, -⟩
      · exact absurd hj (spec_discarded hr1 hd hne j)
      · exact h3
    refine ⟨s2, h1, hdt, fun s' a' hdu hu => ?_⟩
    have := (during_mono hr2 hdu).dt o
    have hz : s'.dtors o = 0 := by rw [← hfo]; exact hu.2.1
    omega
  · rcases hop with rfl | ⟨t, n, rfl⟩ | ⟨j, rfl, hj⟩ | rfl <;> simp [callsEmpty] at h1

/-- C151. A callable stored in the delegate itself that swaps its delegate with another one that holds something is
displaced: it is not destroyed, but at the address it runs at there is now what the other delegate held. -/
theorem running_swap_wrong {fr : List Frame} (h : Nested s a fr) {i j o y : Nat} {ty : Ty}
    (hi : a i = some (some o)) (hj : a j = some (some y)) (hij : i ≠ j)
    (hty : s.objTy o = some ty) (hsmall : ty.size ≤ 16 ∧ ty.align ≤ 8)
    {s1 : St} {f : Frame} (hc : step (.call i) s = .ok s1) (hf : frameOf s i = some f) :
    ∃ s2, step (.swap i j) s1 = .ok s2 ∧ s2.dtors o = 0 ∧ ¬ s2.usable f := by
  have hr := nested_reach h
  have hr1 : Reach s1 a := hr.step (by simp [legal, hi]) hc
  have hg1 := reach_good hr1
  have hlt : ty.isLocal = true := by simp [Ty.isLocal, hsmall]
  obtain ⟨ty', hty', hf'⟩ := frameOf_spec hr hi
  rw [hty] at hty'; cases hty'
  rcases hf' with ⟨-, hf'⟩ | ⟨e, -⟩
  swap
  · rw [hlt] at e; cases e
  rw [hf'] at hf; cases hf
  obtain ⟨di, xi, hdi, hxi, hri⟩ := hg1.get (i := i) (by rw [hi]; simp)
  rw [hi] at hxi; cases hxi
  obtain ⟨dj, xj, hdj, hxj, hrj⟩ := hg1.get (i := j) (by rw [hj]; simp)
  rw [hj] at hxj; cases hxj
  have hyo : y ≠ o := by
    rintro rfl
    have := hg1.uniq (some i) (some j) y hi hj
    simp only [Option.some.injEq] at this
    exact hij this
  obtain ⟨ti, -, -, -, hd0, -⟩ := hri
  refine ⟨(s1.set i (some (D.swap di dj).1)).set j (some (D.swap di dj).2), by simp only [step, hdi, hdj], hd0, ?_⟩
  intro hu
  have hu1 := hu.1
  obtain ⟨tj, -, -, -, -, hst⟩ := hrj
  rcases hst with ⟨-, e⟩ | ⟨-, b, e, -⟩
  · simp [St.objAt, St.set, hij, D.swap, e, hyo] at hu1
  · simp [St.objAt, St.set, hij, D.swap, e] at hu1

/-! ### The hypotheses are met -/

/-- A small and a large callable type. -/
def smallTy : Ty := ⟨1, 8, 8⟩
def largeTy : Ty := ⟨2, 64, 8⟩

/-- Two delegates, one holding a small and one a large callable. -/
def two : St :=
  match step (.fn 0 smallTy false) .init with
  | .ok s =>
    match step (.fn 1 largeTy false) s with
    | .ok s => s
    | _ => .init
  | _ => .init

def twoSpec : Spec := spec 1 (spec 0 .init (.fn 0 smallTy false)) (.fn 1 largeTy false)

theorem two_nested : Nested two twoSpec [] := by
  have h1 : Nested _ _ [] := Nested.op (op := .fn 0 smallTy false) .init rfl (by simp) rfl
  exact Nested.op (op := .fn 1 largeTy false) h1 rfl (by simp) rfl

example : twoSpec 0 = some (some 0) ∧ twoSpec 1 = some (some 1) ∧ frameOf two 0 = some ⟨0, .storage 0⟩ ∧
    frameOf two 1 = some ⟨1, .block 2⟩ ∧ two.objTy 0 = some smallTy ∧ two.objTy 1 = some largeTy := by
  decide +kernel

/-- The large callable moves its own delegate away while running, which it survives. -/
example : ∃ s2, step (.move 7 1) two = .ok s2 ∧ s2.usable ⟨1, .block 2⟩ :=
  ⟨_, rfl, by unfold St.usable; decide +kernel⟩

example : ¬ discards twoSpec 1 (.move 7 1) ∧ touches 1 (.move 7 1) ∧ legal twoSpec (.move 7 1) := by
  unfold discards touches legal; decide +kernel

end Verif.Delegate
