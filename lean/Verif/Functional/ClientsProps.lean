import Verif.Functional.Clients
import Verif.Functional.DelegateProps
import Mathlib.Data.List.Nodup
import Mathlib.Data.List.GetD

/-! C172: signals and a queue of tasks built from delegates. -/

set_option autoImplicit false

namespace Verif.Delegate

/-! ### Specification -/

/-- `name` gives the callables that exist or existed, in the order in which they were handed over: `tys` are their types. -/
def Names (s : St) (name : Nat → Nat) (tys : List Ty) : Prop :=
  (∀ j < tys.length, ∀ k < tys.length, name j = name k → j = k) ∧
  (∀ k, k < tys.length → s.objTy (name k) = tys[k]?) ∧
  ∀ o, s.objTy o ≠ none → ∃ k < tys.length, name k = o

/-- All callables are destroyed and all blocks freed, each once. -/
def AllGone (s : St) : Prop :=
  (∀ o, s.objTy o ≠ none → s.dtors o = 1) ∧ ∀ b, s.blkObj b ≠ none → s.frees b = 1

/-- A signal: for each place the listener in it, by its number; the types of all listeners so far; the listeners called so
far. -/
structure Signal where
  places : List (Option Nat)
  tys : List Ty
  called : List Nat

/-- The listener takes the first free place. -/
def place (k : Nat) : List (Option Nat) → List (Option Nat)
  | [] => []
  | none :: l => some k :: l
  | some j :: l => some j :: place k l

/-- A listener for which there is no place is not taken; sending calls the listeners in the order of their places. -/
def Signal.next (f : Signal) : SigOp → Signal
  | .connect ty => if none ∈ f.places then ⟨place f.tys.length f.places, f.tys ++ [ty], f.called⟩ else f
  | .disconnect i => { f with places := f.places.set i none }
  | .emit => { f with called := f.called ++ f.places.filterMap id }

/-- The tasks accepted so far and how many of them were run. -/
structure Tasks where
  tys : List Ty
  done : Nat

/-- A task is accepted if fewer than `n` are waiting; running runs the next one, if there is one. -/
def Tasks.next (n : Nat) (t : Tasks) : TaskOp → Tasks
  | .submit ty => if t.tys.length < t.done + n then { t with tys := t.tys ++ [ty] } else t
  | .run => if t.done < t.tys.length then { t with done := t.done + 1 } else t

/-! ### The callables of a state -/

theorem destroyFunctor_objTy {ty : Ty} {f : Sto} {s s' : St} (h : destroyFunctor ty f s = some s') : s'.objTy = s.objTy := by
  have key : ∀ o (s s' : St), destroyObj ty o s = some s' → s'.objTy = s.objTy := by
    intro o s s' h
    unfold destroyObj at h
    split at h
    · cases h; rfl
    · cases h
  unfold destroyFunctor at h
  split at h
  · split at h
    · exact key _ _ _ h
    · cases h
  · split at h
    · split at h
      · split at h
        · rw [Option.map_eq_some_iff] at h
          obtain ⟨t, ht, rfl⟩ := h
          have := key _ _ _ ht
          exact this
        · cases h
      · cases h
    · cases h

theorem dtor_objTy {d : D} {s s' : St} (h : d.dtor s = some s') : s'.objTy = s.objTy := by
  unfold D.dtor at h
  split at h
  · exact destroyFunctor_objTy h
  · cases h; rfl

theorem call_objTy {d : D} {s s' : St} (h : d.call s = .ok s') : s'.objTy = s.objTy := by
  unfold D.call at h
  split at h
  · cases h
  · split at h
    · cases h
    · split at h
      · next hi =>
        cases h
        unfold invoke at hi
        split at hi
        · split at hi
          · cases hi; rfl
          · cases hi
        · cases hi
      · cases h

theorem createFunctor_objTy (ty : Ty) (s : St) :
    (createFunctor ty s).1.objTy = Function.update s.objTy s.next (some ty) := by
  unfold createFunctor construct; split <;> rfl

theorem step_objTy {op : Op} {s s' : St} (h : step op s = .ok s') :
    s'.objTy = match op with
      | .assignFn _ ty false => Function.update s.objTy s.next (some ty)
      | .fn _ ty false => Function.update s.objTy s.next (some ty)
      | _ => s.objTy := by
  cases op with
  | default i => simp only [step] at h; split at h <;> cases h; rfl
  | fn i ty isNull =>
    simp only [step] at h
    split at h
    · cases h
      cases isNull with
      | true => rfl
      | false => exact createFunctor_objTy ty s
    · cases h
  | move i j => simp only [step] at h; split at h <;> cases h; rfl
  | dtor i =>
    simp only [step] at h
    split at h
    · split at h
      · next e => cases h; have := dtor_objTy e; exact this
      · cases h
    · cases h
  | assignMove i j =>
    simp only [step] at h
    split at h
    · split at h
      · split at h
        · next e => cases h; have := dtor_objTy e; exact this
        · cases h
      · cases h
    · cases h
  | assignNull i =>
    simp only [step] at h
    split at h
    · split at h
      · next e =>
        cases h
        unfold D.assignNull at e
        split at e
        · rw [Option.map_eq_some_iff] at e
          obtain ⟨t, ht, e⟩ := e
          cases e
          have := destroyFunctor_objTy ht
          exact this
        · cases e; rfl
      · cases h
    · cases h
  | assignFn i ty isNull =>
    simp only [step] at h
    split at h
    · split at h
      · next e =>
        cases h
        have := dtor_objTy e
        cases isNull with
        | true => exact this
        | false => exact this.trans (createFunctor_objTy ty s)
      · cases h
    · cases h
  | swap i j => simp only [step] at h; split at h <;> cases h; rfl
  | call i =>
    simp only [step] at h
    split at h
    · exact call_objTy h
    · cases h

/-- The callables that exist or existed are `ns`, of types `tys`. -/
structure Named (s : St) (a : Spec) (ns : List Nat) (tys : List Ty) : Prop where
  good : Good s a
  nodup : ns.Nodup
  types : ns.map s.objTy = tys.map some
  all : ∀ o, s.objTy o ≠ none → o ∈ ns

section
variable {s : St} {a : Spec} {ns : List Nat} {tys : List Ty}

theorem Named.len (h : Named s a ns tys) : ns.length = tys.length := by
  have := congrArg List.length h.types; simpa using this

theorem Named.ty (h : Named s a ns tys) {o : Nat} (ho : o ∈ ns) : ∃ ty, s.objTy o = some ty := by
  have : s.objTy o ∈ tys.map some := h.types ▸ List.mem_map_of_mem ho
  obtain ⟨ty, -, e⟩ := List.mem_map.mp this
  exact ⟨ty, e.symm⟩

theorem Named.bool (h : Named s a ns tys) {i : Nat} {x : Option Nat} (hi : a i = some x) :
    ∃ d, s.dels i = some d ∧ d.toBool = x.isSome := by
  obtain ⟨d, y, hd, hy, hr⟩ := h.good.get (i := i) (by rw [hi]; simp)
  rw [hi] at hy; cases hy
  refine ⟨d, hd, ?_⟩
  unfold D.toBool
  cases x with
  | none => rw [show d.manager = none from hr]; rfl
  | some o => obtain ⟨ty, e, -⟩ := hr; rw [e]; rfl

theorem Named.once (h : Named s a ns tys) {o : Nat} (ho : o ∈ ns) :
    (s.dtors o = 0 ∧ ∃ i, a i = some (some o)) ∨ (s.dtors o = 1 ∧ ∀ i, a i ≠ some (some o)) := by
  obtain ⟨ty, hty⟩ := h.ty ho
  have held : ∀ i, a i = some (some o) → s.dtors o = 0 := fun i hi => by
    obtain ⟨d, x, -, hx, hr⟩ := h.good.get (i := i) (by rw [hi]; simp)
    rw [hi] at hx; cases hx
    obtain ⟨ty', -, h0⟩ := hr.held
    exact h0
  rcases Inv.led h.good o ty hty with ⟨k, hk⟩ | h1
  · cases k with
    | none => cases hk
    | some i => exact .inl ⟨held i hk, i, hk⟩
  · exact .inr ⟨h1, fun i hi => by have := held i hi; omega⟩

theorem Named.step (h : Named s a ns tys) {op : Op} (hl : legal a op) (hc : ¬callsEmpty a op)
    (hn : ∀ i ty b, op ≠ .fn i ty b ∧ op ≠ .assignFn i ty b) :
    ∃ s', step op s = .ok s' ∧ Named s' (spec s.next a op) ns tys ∧ s'.calls = invoked a op s.calls := by
  rcases step_good h.good hl with ⟨s', e1, e2, e3, -⟩ | ⟨-, e⟩
  · have ho : s'.objTy = s.objTy := by
      have := step_objTy e1
      rw [this]
      cases op <;> first | rfl | exact absurd rfl (hn _ _ _).1 | exact absurd rfl (hn _ _ _).2
    exact ⟨s', e1, ⟨e2, h.nodup, by rw [ho]; exact h.types, by rw [ho]; exact h.all⟩, e3⟩
  · exact absurd e hc

theorem Named.assignFn (h : Named s a ns tys) {i : Nat} (hi : a i ≠ none) (ty : Ty) :
    ∃ s', Delegate.step (.assignFn i ty false) s = .ok s' ∧
      Named s' (Function.update a i (some (some s.next))) (ns ++ [s.next]) (tys ++ [ty]) ∧ s'.calls = s.calls := by
  rcases step_good h.good (op := .assignFn i ty false) hi with ⟨s', e1, e2, e3, -⟩ | ⟨-, e⟩
  · have ho : s'.objTy = Function.update s.objTy s.next (some ty) := step_objTy e1
    have fresh : s.next ∉ ns := fun hm => by
      obtain ⟨t, ht⟩ := h.ty hm
      rw [(Inv.fresh h.good s.next le_rfl).1] at ht; cases ht
    refine ⟨s', e1, ⟨e2, ?_, ?_, ?_⟩, e3⟩
    · exact List.nodup_append.mpr ⟨h.nodup, List.nodup_singleton _, fun x hx y hy => by
        rw [List.mem_singleton] at hy; subst hy; rintro rfl; exact fresh hx⟩
    · rw [List.map_append, List.map_append, ← h.types, ho]
      congr 1
      · refine List.map_congr_left fun x hx => ?_
        rw [Function.update_of_ne]; rintro rfl; exact fresh hx
      · simp
    · intro o h'
      rw [ho] at h'
      by_cases e : o = s.next
      · rw [e]; simp
      · rw [Function.update_of_ne e] at h'
        exact List.mem_append_left _ (h.all o h')
  · exact absurd e id

theorem Named.names (h : Named s a ns tys) : Names s (fun k => ns.getD k 0) tys := by
  have hl := h.len
  refine ⟨fun j hj k hk e => ?_, fun k hk => ?_, fun o ho => ?_⟩
  · simp only [List.getD_eq_getElem _ 0 (show j < ns.length by omega), List.getD_eq_getElem _ 0 (show k < ns.length by omega)] at e
    exact (h.nodup.getElem_inj_iff).mp e
  · have hk' : k < ns.length := by omega
    show s.objTy (ns.getD k 0) = _
    rw [List.getD_eq_getElem _ 0 hk']
    have := congrArg (·[k]?) h.types
    simp only [List.getElem?_map, List.getElem?_eq_getElem hk', Option.map_some, List.getElem?_eq_getElem hk] at this
    rw [List.getElem?_eq_getElem hk]
    simpa using this
  · obtain ⟨k, hk, e⟩ := List.getElem_of_mem (h.all o ho)
    exact ⟨k, by omega, by show ns.getD k 0 = o; rw [List.getD_eq_getElem _ 0 hk]; exact e⟩

/-! ### Beginning and end -/

theorem named_init : Named .init .init [] [] :=
  ⟨good_init, List.nodup_nil, rfl, fun _ h => absurd rfl h⟩

theorem declare_ok (m : Nat) : ∀ (i : Nat) (s : St) (a : Spec), Named s a ns tys → (∀ j, i ≤ j → a j = none) →
    ∃ s' a', declare m i s = .ok s' ∧ Named s' a' ns tys ∧ s'.calls = s.calls ∧
      ∀ j, a' j = if i ≤ j ∧ j < i + m then some none else a j := by
  induction m with
  | zero => intro i s a h _; exact ⟨s, a, rfl, h, rfl, fun j => by rw [if_neg (by omega)]⟩
  | succ m ih =>
    intro i s a h ha
    obtain ⟨s1, e1, h1, c1⟩ := h.step (op := .default i) (ha i le_rfl) id (fun _ _ _ => ⟨nofun, nofun⟩)
    obtain ⟨s', a', e2, h2, c2, hj⟩ := ih (i + 1) s1 _ h1 (fun j hj => by
      show Function.update a i _ j = none
      rw [Function.update_of_ne (by omega)]; exact ha j (by omega))
    refine ⟨s', a', by rw [declare, e1]; exact e2, h2, c2.trans c1, fun j => ?_⟩
    rw [hj j]
    show (if _ then _ else Function.update a i (some none) j) = _
    by_cases e : j = i
    · subst e; rw [if_neg (by omega), if_pos (by omega), Function.update_self]
    · rw [Function.update_of_ne e]
      by_cases e' : i + 1 ≤ j ∧ j < i + 1 + m
      · rw [if_pos e', if_pos (by omega)]
      · rw [if_neg e', if_neg (by omega)]

theorem release_ok (m : Nat) : ∀ (i : Nat) (s : St) (a : Spec), Named s a ns tys → (∀ j, i ≤ j → j < i + m → a j ≠ none) →
    ∃ s' a', release m i s = .ok s' ∧ Named s' a' ns tys ∧ s'.calls = s.calls ∧ s'.objTy = s.objTy ∧
      ∀ j, a' j = if i ≤ j ∧ j < i + m then none else a j := by
  induction m with
  | zero => intro i s a h _; exact ⟨s, a, rfl, h, rfl, rfl, fun j => by rw [if_neg (by omega)]⟩
  | succ m ih =>
    intro i s a h ha
    obtain ⟨s1, e1, h1, c1⟩ := h.step (op := .dtor i) (ha i le_rfl (by omega)) id (fun _ _ _ => ⟨nofun, nofun⟩)
    obtain ⟨s', a', e2, h2, c2, o2, hj⟩ := ih (i + 1) s1 _ h1 (fun j hj hj' => by
      show Function.update a i _ j ≠ none
      rw [Function.update_of_ne (by omega)]; exact ha j (by omega) (by omega))
    refine ⟨s', a', by rw [release, e1]; exact e2, h2, c2.trans c1, o2.trans (step_objTy e1), fun j => ?_⟩
    rw [hj j]
    show (if _ then _ else Function.update a i none j) = _
    by_cases e : j = i
    · subst e; rw [if_neg (by omega), if_pos (by omega), Function.update_self]
    · rw [Function.update_of_ne e]
      by_cases e' : i + 1 ≤ j ∧ j < i + 1 + m
      · rw [if_pos e', if_pos (by omega)]
      · rw [if_neg e', if_neg (by omega)]

theorem Named.gone (h : Named s a ns tys) (ha : ∀ i o, a i ≠ some (some o)) : AllGone s := by
  have h1 : ∀ o, s.objTy o ≠ none → s.dtors o = 1 := fun o ho => by
    rcases h.once (h.all o ho) with ⟨-, i, hi⟩ | ⟨h1, -⟩
    · exact absurd hi (ha i o)
    · exact h1
  refine ⟨h1, fun b hb => ?_⟩
  obtain ⟨o, ho⟩ := Option.ne_none_iff_exists'.mp hb
  obtain ⟨e, ty, ht, -⟩ := Inv.blk h.good b o ho
  rw [e]; exact h1 o (by rw [ht]; simp)

end

/-! ### Signals -/

/-- The state of the array and of the specification. -/
structure SI (n : Nat) (s : St) (a : Spec) (ns : List Nat) (f : Signal) : Prop where
  named : Named s a ns f.tys
  size : f.places.length = n
  held : ∀ i, a i = f.places[i]?.map (·.map fun k => ns.getD k 0)
  small : ∀ k, some k ∈ f.places → k < ns.length
  calls : s.calls.reverse = f.called.map fun k => ns.getD k 0
  past : ∀ k ∈ f.called, k < ns.length

theorem place_set (k : Nat) : ∀ l : List (Option Nat), none ∈ l → ∃ i, l[i]? = some none ∧ place k l = l.set i (some k) := by
  intro l
  induction l with
  | nil => intro h; cases h
  | cons x l ih =>
    intro h
    cases x with
    | none => exact ⟨0, rfl, rfl⟩
    | some j =>
      rcases List.mem_cons.mp h with h | h
      · cases h
      · obtain ⟨i, h1, h2⟩ := ih h
        exact ⟨i + 1, h1, by show some j :: place k l = _; rw [h2]; rfl⟩

/-- Which place `connect` finds. -/
theorem connect_eq {n : Nat} {s : St} {a : Spec} {ns : List Nat} {f : Signal} (h : SI n s a ns f) (ty : Ty) (k : Nat) (m : Nat) :
    ∀ i, i + m = n →
      (none ∈ f.places.drop i → ∃ j, f.places[j]? = some none ∧ connect ty m i s = step (.assignFn j ty false) s ∧
        f.places.take i ++ place k (f.places.drop i) = f.places.set j (some k)) ∧
      (none ∉ f.places.drop i → connect ty m i s = .ok s) := by
  induction m with
  | zero =>
    intro i hi
    have : f.places.drop i = [] := List.drop_eq_nil_of_le (by rw [h.size]; omega)
    rw [this]
    exact ⟨nofun, fun _ => rfl⟩
  | succ m ih =>
    intro i hi
    have hlt : i < f.places.length := by rw [h.size]; omega
    have hd : f.places.drop i = f.places[i] :: f.places.drop (i + 1) := List.drop_eq_getElem_cons hlt
    have ha := h.held i
    rw [List.getElem?_eq_getElem hlt, Option.map_some] at ha
    obtain ⟨d, hd1, hd2⟩ := h.named.bool ha
    obtain ⟨i1, i2⟩ := ih (i + 1) (by omega)
    rw [connect, hd1]
    cases hp : f.places[i] with
    | none =>
      rw [hp] at hd2 hd
      have hb : d.toBool = false := hd2
      refine ⟨fun _ => ⟨i, by rw [List.getElem?_eq_getElem hlt, hp], by simp [hb], ?_⟩, fun hn => ?_⟩
      · rw [hd]
        show _ ++ some k :: _ = _
        rw [List.set_eq_take_append_cons_drop, if_pos hlt]
      · rw [hd] at hn; exact absurd List.mem_cons_self hn
    | some j =>
      rw [hp] at hd2 hd
      have hb : d.toBool = true := hd2
      simp only [hb, if_true]
      rw [hd]
      refine ⟨fun hn => ?_, fun hn => i2 fun hm => hn (List.mem_cons_of_mem _ hm)⟩
      obtain ⟨q, q1, q2, q3⟩ := i1 (by
        rcases List.mem_cons.mp hn with e | e
        · cases e
        · exact e)
      refine ⟨q, q1, q2, ?_⟩
      rw [← q3, List.take_succ_eq_append_getElem hlt, hp, List.append_assoc]; rfl

theorem emit_eq {n : Nat} {ns : List Nat} {f : Signal} (m : Nat) : ∀ (i : Nat) (s : St) (a : Spec), i + m = n →
    Named s a ns f.tys → f.places.length = n → (∀ i, a i = f.places[i]?.map (·.map fun k => ns.getD k 0)) →
    ∃ s', emit m i s = .ok s' ∧ Named s' a ns f.tys ∧
      s'.calls.reverse = s.calls.reverse ++ ((f.places.drop i).filterMap id).map fun k => ns.getD k 0 := by
  induction m with
  | zero =>
    intro i s a hi h hsz hh
    have : f.places.drop i = [] := List.drop_eq_nil_of_le (by rw [hsz]; omega)
    rw [this]
    exact ⟨s, rfl, h, by simp⟩
  | succ m ih =>
    intro i s a hi h hsz hh
    have hlt : i < f.places.length := by rw [hsz]; omega
    have hd : f.places.drop i = f.places[i] :: f.places.drop (i + 1) := List.drop_eq_getElem_cons hlt
    have ha := hh i
    rw [List.getElem?_eq_getElem hlt, Option.map_some] at ha
    obtain ⟨d, hd1, hd2⟩ := h.bool ha
    rw [emit, hd1, hd]
    cases hp : f.places[i] with
    | none =>
      rw [hp] at hd2
      have hb : d.toBool = false := hd2
      obtain ⟨s', e1, e2, e3⟩ := ih (i + 1) s a (by omega) h hsz hh
      exact ⟨s', by simp only [hb]; exact e1, e2, by rw [e3]; rfl⟩
    | some j =>
      rw [hp] at hd2 ha
      have hb : d.toBool = true := hd2
      obtain ⟨s1, c1, c2, c3⟩ := h.step (op := .call i) (by show a i ≠ none; rw [ha]; simp)
        (by show ¬(a i = some none); rw [ha]; simp) (fun _ _ _ => ⟨nofun, nofun⟩)
      obtain ⟨s', e1, e2, e3⟩ := ih (i + 1) s1 a (by omega) c2 hsz hh
      refine ⟨s', by simp only [hb, if_true]; rw [c1]; exact e1, e2, ?_⟩
      rw [e3, c3]
      simp only [invoked, ha, Option.map_some, List.reverse_cons]
      rw [List.append_assoc]; rfl

theorem getD_append_left' (ns : List Nat) (x k : Nat) (h : k < ns.length) : (ns ++ [x]).getD k 0 = ns.getD k 0 :=
  List.getD_append _ _ _ _ h

theorem signal_step {n : Nat} {s : St} {a : Spec} {ns : List Nat} {f : Signal} (h : SI n s a ns f) (op : SigOp)
    (hop : ∀ i, op = .disconnect i → i < n) :
    ∃ s' a' ns', sigStep n s op = .ok s' ∧ SI n s' a' ns' (f.next op) := by
  cases op with
  | connect ty =>
    obtain ⟨c1, c2⟩ := connect_eq h ty f.tys.length n 0 (by omega)
    rw [List.drop_zero, List.take_zero, List.nil_append] at c1
    rw [List.drop_zero] at c2
    by_cases hn : none ∈ f.places
    · obtain ⟨j, j1, j2, j3⟩ := c1 hn
      have haj : a j = some none := by rw [h.held j, j1]; rfl
      obtain ⟨s', e1, e2, e3⟩ := h.named.assignFn (i := j) (by rw [haj]; simp) ty
      refine ⟨s', Function.update a j (some (some s.next)), ns ++ [s.next], by show connect ty n 0 s = _; rw [j2]; exact e1, ?_⟩
      have hlen := h.named.len
      have hj : j < f.places.length := by
        by_contra hc
        rw [List.getElem?_eq_none (by omega)] at j1; cases j1
      rw [Signal.next, if_pos hn, j3]
      refine ⟨e2, by simpa using h.size, fun i => ?_, fun k hk => ?_, ?_, fun k hk => ?_⟩
      · show Function.update a j (some (some s.next)) i = (f.places.set j (some f.tys.length))[i]?.map _
        by_cases e : i = j
        · subst e
          rw [Function.update_self, List.getElem?_set_self hj, ← hlen]
          simp
        · rw [Function.update_of_ne e, List.getElem?_set_ne (fun e' => e e'.symm), h.held i]
          by_cases hi : i < f.places.length
          · rw [List.getElem?_eq_getElem hi, Option.map_some, Option.map_some]
            cases hp : f.places[i] with
            | none => rfl
            | some k =>
              have := h.small k (by rw [← hp]; exact List.getElem_mem hi)
              rw [Option.map_some, Option.map_some, getD_append_left' ns _ k this]
          · rw [List.getElem?_eq_none (by omega)]; rfl
      · rw [List.length_append, List.length_singleton]
        rcases List.mem_or_eq_of_mem_set hk with hk | hk
        · have := h.small k hk; omega
        · cases hk; omega
      · rw [e3, h.calls]
        exact List.map_congr_left fun k hk => (getD_append_left' ns _ k (h.past k hk)).symm
      · rw [List.length_append, List.length_singleton]; have := h.past k hk; omega
    · refine ⟨s, a, ns, c2 hn, ?_⟩
      rw [Signal.next, if_neg hn]; exact h
  | disconnect i =>
    have hi : i < f.places.length := by rw [h.size]; exact hop i rfl
    obtain ⟨s', e1, e2, e3⟩ := h.named.step (op := .assignNull i)
      (by show a i ≠ none; rw [h.held i, List.getElem?_eq_getElem hi]; simp) id (fun _ _ _ => ⟨nofun, nofun⟩)
    refine ⟨s', _, ns, e1, e2, by simpa [Signal.next] using h.size, fun j => ?_, fun k hk => ?_, ?_, h.past⟩
    · show Function.update a i (some none) j = (f.places.set i none)[j]?.map _
      by_cases e : j = i
      · subst e; rw [Function.update_self, List.getElem?_set_self hi]; rfl
      · rw [Function.update_of_ne e, List.getElem?_set_ne (fun e' => e e'.symm), h.held j]
    · rcases List.mem_or_eq_of_mem_set hk with hk | hk
      · exact h.small k hk
      · cases hk
    · rw [e3]; exact h.calls
  | emit =>
    obtain ⟨s', e1, e2, e3⟩ := emit_eq n 0 s a (by omega) h.named h.size h.held
    refine ⟨s', a, ns, e1, e2, h.size, h.held, h.small, ?_, fun k hk => ?_⟩
    · rw [e3, h.calls, List.drop_zero]; show _ = List.map _ (f.called ++ _); rw [List.map_append]
    · rcases List.mem_append.mp hk with hk | hk
      · exact h.past k hk
      · obtain ⟨x, hx, e⟩ := List.mem_filterMap.mp hk
        have e' : x = some k := e
        exact h.small k (e' ▸ hx)

/-- C172. A signal: whatever listeners are connected and disconnected, and whenever the signal is sent, the listeners called are
the connected ones, each once and in the order of their places; a listener is destroyed when it is disconnected and not before;
at the end each is destroyed once and its storage freed once. -/
theorem signals_result (n : Nat) (ops : List SigOp) (hops : ∀ i, SigOp.disconnect i ∈ ops → i < n) :
    let f := ops.foldl Signal.next ⟨List.replicate n none, [], []⟩
    ∃ s name, (declare n 0 .init).andThen (sigRun n ops) = .ok s ∧ Names s name f.tys ∧
      s.calls.reverse = f.called.map name ∧
      (∀ k < f.tys.length, s.dtors (name k) = if some k ∈ f.places then 0 else 1) ∧
      ∃ s', release n 0 s = .ok s' ∧ s'.calls = s.calls ∧ s'.objTy = s.objTy ∧ AllGone s' := by
  intro f
  have run : ∀ (ops : List SigOp) (s : St) (a : Spec) (ns : List Nat) (f : Signal), (∀ i, SigOp.disconnect i ∈ ops → i < n) →
      SI n s a ns f → ∃ s' a' ns', sigRun n ops s = .ok s' ∧ SI n s' a' ns' (ops.foldl Signal.next f) := by
    intro ops
    induction ops with
    | nil => intro s a ns f _ h; exact ⟨s, a, ns, rfl, h⟩
    | cons op ops ih =>
      intro s a ns f hops h
      obtain ⟨s1, a1, ns1, e1, h1⟩ := signal_step h op (fun i e => hops i (e ▸ List.mem_cons_self))
      obtain ⟨s', a', ns', e2, h2⟩ := ih s1 a1 ns1 _ (fun i hi => hops i (List.mem_cons_of_mem _ hi)) h1
      exact ⟨s', a', ns', by rw [sigRun, e1]; exact e2, h2⟩
  obtain ⟨s0, a0, d1, d2, d3, d4⟩ := declare_ok n 0 .init .init named_init (fun _ _ => rfl)
  obtain ⟨s, a, ns, r1, r2⟩ := run ops s0 a0 [] ⟨List.replicate n none, [], []⟩ hops
    ⟨d2, List.length_replicate, fun i => by
      rw [d4 i]
      by_cases hi : i < n
      · rw [if_pos (by omega), List.getElem?_eq_getElem (by simpa using hi)]; simp
      · rw [if_neg (by omega), List.getElem?_eq_none (by simpa using hi)]; rfl,
      fun k hk => by simp at hk, by rw [d3]; rfl, nofun⟩
  obtain ⟨s', a', l1, l2, l3, l4, l5⟩ := release_ok n 0 s a r2.named (fun j _ hj => by
    rw [r2.held j, List.getElem?_eq_getElem (by rw [r2.size]; omega)]; simp)
  refine ⟨s, fun k => ns.getD k 0, by rw [d1]; exact r1, r2.named.names, r2.calls, fun k hk => ?_, s', l1, l3, l4,
    l2.gone fun i o hi => ?_⟩
  · have hlen := r2.named.len
    have hk' : k < ns.length := by rw [hlen]; exact hk
    have e : ns.getD k 0 = ns[k] := List.getD_eq_getElem _ 0 hk'
    show s.dtors (ns.getD k 0) = _
    rw [e]
    rcases r2.named.once (List.getElem_mem hk') with ⟨h0, i, hi⟩ | ⟨h1, hi⟩
    · rw [h0, if_pos]
      rw [r2.held i] at hi
      cases hp : (ops.foldl Signal.next ⟨List.replicate n none, [], []⟩).places[i]? with
      | none => rw [hp] at hi; cases hi
      | some x =>
        rw [hp] at hi
        cases x with
        | none => cases hi
        | some j =>
          simp only [Option.map_some, Option.some.injEq] at hi
          have hj := r2.small j (List.mem_of_getElem? hp)
          rw [List.getD_eq_getElem _ 0 hj] at hi
          have : j = k := (r2.named.nodup.getElem_inj_iff).mp hi
          rw [← this]; exact List.mem_of_getElem? hp
    · rw [h1, if_neg]
      intro hm
      obtain ⟨i, hlt, hp⟩ := List.getElem_of_mem hm
      apply hi i
      rw [r2.held i, List.getElem?_eq_getElem hlt, hp, Option.map_some, Option.map_some, e]
  · rw [l5 i] at hi
    split at hi
    · cases hi
    · rw [r2.held i, List.getElem?_eq_none (by rw [r2.size]; omega)] at hi; cases hi

/-! ### A queue of tasks -/

/-- The state of the ring and of the specification. -/
structure TI (n : Nat) (s : St) (a : Spec) (ns : List Nat) (r : Ring) (t : Tasks) : Prop where
  named : Named s a ns t.tys
  le : t.done ≤ ns.length
  room : ns.length ≤ t.done + n
  head : r.head = t.done % n
  count : r.count = ns.length - t.done
  held : ∀ k, t.done ≤ k → k < ns.length → a (k % n) = some (some (ns.getD k 0))
  free : ∀ i < n, (∀ k, t.done ≤ k → k < ns.length → k % n ≠ i) → a i = some none
  others : ∀ i, n ≤ i → a i = none
  calls : s.calls.reverse = (List.range t.done).map fun k => ns.getD k 0

theorem mod_inj {n j k d : Nat} (h1 : d ≤ j) (h2 : d ≤ k) (h3 : j < d + n) (h4 : k < d + n) (h : j % n = k % n) : j = k := by
  have key : ∀ j k, d ≤ j → j ≤ k → k < d + n → j % n = k % n → j = k := by
    intro j k h1 h2 h3 h
    obtain ⟨c, hc⟩ : n ∣ k - j := Nat.dvd_of_mod_eq_zero (Nat.sub_mod_eq_zero_of_mod_eq h.symm)
    rcases Nat.eq_zero_or_pos c with rfl | hp
    · omega
    · have : n ≤ n * c := Nat.le_mul_of_pos_right _ hp
      omega
  rcases Nat.le_total j k with hjk | hjk
  · exact key j k h1 hjk h4 h
  · exact (key k j h2 hjk h3 h.symm).symm

theorem TI.live {n : Nat} {s : St} {a : Spec} {ns : List Nat} {r : Ring} {t : Tasks} (h : TI n s a ns r t) {i : Nat} (hi : i < n) :
    a i ≠ none := by
  by_cases hk : ∃ k, t.done ≤ k ∧ k < ns.length ∧ k % n = i
  · obtain ⟨k, h1, h2, rfl⟩ := hk
    rw [h.held k h1 h2]; simp
  · rw [h.free i hi fun k h1 h2 e => hk ⟨k, h1, h2, e⟩]; simp

theorem submit_ok {n : Nat} (hn : 0 < n) {s : St} {a : Spec} {ns : List Nat} {r : Ring} {t : Tasks} (h : TI n s a ns r t) (ty : Ty) :
    ∃ s' a' ns', (submit n ty r s).1 = .ok s' ∧ TI n s' a' ns' (submit n ty r s).2 (t.next n (.submit ty)) := by
  have hlen := h.named.len
  have hle := h.le
  have hroom := h.room
  have hc := h.count
  unfold submit
  by_cases hf : r.count = n
  · simp only [if_pos hf]
    refine ⟨s, a, ns, rfl, ?_⟩
    rw [Tasks.next, if_neg (by omega)]; exact h
  · simp only [if_neg hf]
    have hlt : ns.length < t.done + n := by omega
    have hpos : (r.head + r.count) % n = ns.length % n := by
      rw [h.head, Nat.mod_add_mod, hc, Nat.add_sub_cancel' hle]
    rw [hpos]
    have hm : ns.length % n < n := Nat.mod_lt _ hn
    obtain ⟨s', e1, e2, e3⟩ := h.named.assignFn (i := ns.length % n) (h.live hm) ty
    refine ⟨s', Function.update a (ns.length % n) (some (some s.next)), ns ++ [s.next], e1, ?_⟩
    rw [Tasks.next, if_pos (by omega)]
    refine ⟨e2, by simp; omega, by simp; omega, h.head, by simp; omega, fun k k1 k2 => ?_, fun i hi hk => ?_, fun i hi => ?_, ?_⟩
    · rw [List.length_append, List.length_singleton] at k2
      by_cases e : k = ns.length
      · rw [e, Function.update_self]; simp
      · have hk : k < ns.length := by omega
        rw [Function.update_of_ne (fun e' => e (mod_inj (d := t.done) k1 hle (by omega) hlt e')), h.held k k1 hk,
          getD_append_left' ns _ k hk]
    · rw [List.length_append, List.length_singleton] at hk
      rw [Function.update_of_ne (fun e => hk ns.length hle (by omega) e.symm)]
      exact h.free i hi fun k k1 k2 => hk k k1 (by omega)
    · rw [Function.update_of_ne (by omega)]; exact h.others i hi
    · rw [e3, h.calls]
      refine List.map_congr_left fun k hk => (getD_append_left' ns _ k ?_).symm
      have := List.mem_range.mp hk; omega

theorem runOne_ok {n : Nat} (hn : 0 < n) {s : St} {a : Spec} {ns : List Nat} {r : Ring} {t : Tasks} (h : TI n s a ns r t) :
    ∃ s' a', (runOne n r s).1 = .ok s' ∧ TI n s' a' ns (runOne n r s).2 (t.next n .run) := by
  have hlen := h.named.len
  have hle := h.le
  have hroom := h.room
  have hc := h.count
  unfold runOne
  by_cases hf : r.count = 0
  · simp only [if_pos hf]
    refine ⟨s, a, rfl, ?_⟩
    rw [Tasks.next, if_neg (by omega)]; exact h
  · simp only [if_neg hf]
    have hlt : t.done < ns.length := by omega
    have hm : t.done % n < n := Nat.mod_lt _ hn
    have hh : a (t.done % n) = some (some (ns.getD t.done 0)) := h.held _ le_rfl hlt
    rw [h.head]
    obtain ⟨s1, e1, f1, c1⟩ := h.named.step (op := .move n (t.done % n)) ⟨h.others n le_rfl, by rw [hh]; simp⟩ id
      (fun _ _ _ => ⟨nofun, nofun⟩)
    have hn1 : spec s.next a (.move n (t.done % n)) n = some (some (ns.getD t.done 0)) := by
      show Function.update (Function.update a n _) (t.done % n) _ n = _
      rw [Function.update_of_ne (by omega), Function.update_self, hh]
    obtain ⟨s2, e2, f2, c2⟩ := f1.step (op := .call n) (by show _ ≠ none; rw [hn1]; simp)
      (by show ¬(_ = some none); rw [hn1]; simp) (fun _ _ _ => ⟨nofun, nofun⟩)
    obtain ⟨s3, e3, f3, c3⟩ := f2.step (op := .dtor n) (by show spec s.next a (.move n (t.done % n)) n ≠ none; rw [hn1]; simp) id
      (fun _ _ _ => ⟨nofun, nofun⟩)
    have ha3 : ∀ i, spec s2.next (spec s1.next (spec s.next a (.move n (t.done % n))) (.call n)) (.dtor n) i =
        if i = n then none else if i = t.done % n then some none else a i := by
      intro i
      show Function.update (Function.update (Function.update a n _) (t.done % n) (some none)) n none i = _
      by_cases e : i = n
      · subst e; rw [Function.update_self, if_pos rfl]
      · rw [Function.update_of_ne e, if_neg e]
        by_cases e' : i = t.done % n
        · rw [e', Function.update_self, if_pos rfl]
        · rw [Function.update_of_ne e', Function.update_of_ne e, if_neg e']
    refine ⟨s3, spec s2.next (spec s1.next (spec s.next a (.move n (t.done % n))) (.call n)) (.dtor n), by rw [e1]; show (Res.andThen (step _ s1) _) = _; rw [e2]; exact e3, ?_⟩
    rw [Tasks.next, if_pos (by omega)]
    refine ⟨f3, hlt, by show _ ≤ t.done + 1 + n; omega, by show _ = (t.done + 1) % n; rw [Nat.mod_add_mod],
      by show _ - 1 = _ - (t.done + 1); omega, fun k k1 k2 => ?_, fun i hi hk => ?_, fun i hi => ?_, ?_⟩
    · have k1' : t.done + 1 ≤ k := k1
      have := Nat.mod_lt k hn
      rw [ha3, if_neg (by omega), if_neg (fun e => by
        have := mod_inj (d := t.done) (by omega) le_rfl (by omega) (by omega) e; omega), h.held k (by omega) k2]
    · rw [ha3, if_neg (by omega)]
      split
      · rfl
      · next e =>
        refine h.free i hi fun k k1 k2 => ?_
        by_cases e' : k = t.done
        · rw [e']; exact fun e'' => e e''.symm
        · exact hk k (by show t.done + 1 ≤ k; omega) k2
    · rw [ha3]
      split
      · rfl
      · rw [if_neg (by omega)]; exact h.others i hi
    · rw [c3, c2, c1]
      simp only [invoked, hn1, List.reverse_cons, h.calls]
      rw [List.range_succ, List.map_append]; rfl

/-- C172. A queue of tasks: whatever is submitted and whenever tasks are run, the tasks run are the tasks accepted, in this
order and each once; a task is destroyed as soon as it was run, and only then; at the end those still waiting are destroyed too, so
that each is destroyed once and its storage freed once. -/
theorem tasks_result {n : Nat} (hn : 0 < n) (ops : List TaskOp) :
    let t := ops.foldl (Tasks.next n) ⟨[], 0⟩
    ∃ s name, (declare n 0 .init).andThen (taskRun n ops ⟨0, 0⟩) = .ok s ∧ Names s name t.tys ∧
      s.calls.reverse = (List.range t.done).map name ∧
      (∀ k < t.tys.length, s.dtors (name k) = if k < t.done then 1 else 0) ∧
      t.done ≤ t.tys.length ∧ t.tys.length ≤ t.done + n ∧
      ∃ s', release n 0 s = .ok s' ∧ s'.calls = s.calls ∧ s'.objTy = s.objTy ∧ AllGone s' := by
  intro t
  have run : ∀ (ops : List TaskOp) (s : St) (a : Spec) (ns : List Nat) (r : Ring) (t : Tasks), TI n s a ns r t →
      ∃ s' a' ns' r', taskRun n ops r s = .ok s' ∧ TI n s' a' ns' r' (ops.foldl (Tasks.next n) t) := by
    intro ops
    induction ops with
    | nil => intro s a ns r t h; exact ⟨s, a, ns, r, rfl, h⟩
    | cons op ops ih =>
      intro s a ns r t h
      cases op with
      | submit ty =>
        obtain ⟨s1, a1, ns1, e1, h1⟩ := submit_ok hn h ty
        obtain ⟨s', a', ns', r', e2, h2⟩ := ih s1 a1 ns1 _ _ h1
        exact ⟨s', a', ns', r', by rw [taskRun, e1]; exact e2, h2⟩
      | run =>
        obtain ⟨s1, a1, e1, h1⟩ := runOne_ok hn h
        obtain ⟨s', a', ns', r', e2, h2⟩ := ih s1 a1 ns _ _ h1
        exact ⟨s', a', ns', r', by rw [taskRun, e1]; exact e2, h2⟩
  obtain ⟨s0, a0, d1, d2, d3, d4⟩ := declare_ok n 0 .init .init named_init (fun _ _ => rfl)
  obtain ⟨s, a, ns, r, r1, r2⟩ := run ops s0 a0 [] ⟨0, 0⟩ ⟨[], 0⟩
    ⟨d2, le_rfl, Nat.zero_le _, (Nat.zero_mod n).symm, rfl, fun k _ hk => absurd hk (Nat.not_lt_zero _),
      fun i hi _ => by rw [d4 i, if_pos (by omega)], fun i hi => by rw [d4 i, if_neg (by omega)]; rfl, by rw [d3]; rfl⟩
  obtain ⟨s', a', l1, l2, l3, l4, l5⟩ := release_ok n 0 s a r2.named (fun j _ hj => r2.live (by omega))
  have hlen := r2.named.len
  refine ⟨s, fun k => ns.getD k 0, by rw [d1]; exact r1, r2.named.names, r2.calls, fun k hk => ?_, ?_, ?_, s', l1, l3, l4,
    l2.gone fun i o hi => ?_⟩
  · have hk' : k < ns.length := by rw [hlen]; exact hk
    have e : ns.getD k 0 = ns[k] := List.getD_eq_getElem _ 0 hk'
    show s.dtors (ns.getD k 0) = _
    rw [e]
    rcases r2.named.once (List.getElem_mem hk') with ⟨h0, i, hi⟩ | ⟨h1, hi⟩
    · rw [h0, if_neg]
      intro hd
      by_cases hin : i < n
      · by_cases hj : ∃ j, t.done ≤ j ∧ j < ns.length ∧ j % n = i
        · obtain ⟨j, j1, j2, rfl⟩ := hj
          rw [r2.held j j1 j2, List.getD_eq_getElem _ 0 j2] at hi
          simp only [Option.some.injEq] at hi
          have : j = k := (r2.named.nodup.getElem_inj_iff).mp hi
          omega
        · rw [r2.free i hin fun j j1 j2 e => hj ⟨j, j1, j2, e⟩] at hi; simp at hi
      · rw [r2.others i (by omega)] at hi; cases hi
    · rw [h1, if_pos]
      by_contra hd
      exact hi (k % n) (by rw [r2.held k (by show t.done ≤ k; omega) hk', e])
  · have := r2.le; rw [hlen] at this; exact this
  · have := r2.room; rw [hlen] at this; exact this
  · rw [l5 i] at hi
    split at hi
    · cases hi
    · rw [r2.others i (by omega)] at hi; cases hi

/-! ### Cases -/

/-- Two places: a third listener finds no place until one is disconnected, and then takes that place. -/
example (ty : Ty) : ([.connect ty, .connect ty, .emit, .connect ty, .disconnect 0, .connect ty, .emit] : List SigOp).foldl
    Signal.next ⟨List.replicate 2 none, [], []⟩ = ⟨[some 2, some 1], [ty, ty, ty], [0, 1, 2, 1]⟩ := rfl

/-- A queue for two tasks: the third is turned away at first, then accepted. -/
example (ty : Ty) : ([.submit ty, .submit ty, .submit ty, .run, .submit ty, .run] : List TaskOp).foldl
    (Tasks.next 2) ⟨[], 0⟩ = ⟨[ty, ty, ty], 2⟩ := rfl

end Verif.Delegate
