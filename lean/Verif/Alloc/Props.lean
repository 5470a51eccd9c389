import Verif.Alloc.Model
import Mathlib.Tactic.Cases

/-! # Blocks go back to the allocator they came from -/

set_option autoImplicit false

namespace Verif.Alloc

variable {t : Traits}

/-- The world with an object in hand (`tmp`): every block alive is the storage of exactly one object and comes from an
allocator equal to that object's. -/
structure Inv (t : Traits) (w : W) (tmp : Option Obj) : Prop where
  own : ∀ x o b, w.objs x = some o → o.blk = some b → w.owner b = some o.alloc
  ownT : ∀ o b, tmp = some o → o.blk = some b → w.owner b = some o.alloc
  inj : ∀ x y o p b, w.objs x = some o → w.objs y = some p → o.blk = some b → p.blk = some b → x = y
  injT : ∀ x o p b, w.objs x = some o → tmp = some p → o.blk = some b → p.blk = some b → False
  fresh : ∀ b, w.next ≤ b → w.owner b = none
  all : ∀ b, w.owner b ≠ none → (∃ x o, w.objs x = some o ∧ o.blk = some b) ∨ ∃ o, tmp = some o ∧ o.blk = some b
  eq : t.alwaysEqual = true → ∀ x o, w.objs x = some o → o.alloc = t.dflt
  eqT : t.alwaysEqual = true → ∀ o, tmp = some o → o.alloc = t.dflt

theorem Inv.empty : Inv t W.empty none := by
  constructor <;> intros <;> simp_all [W.empty]

theorem inv_make {w : W} (h : Inv t w none) {a : Nat} (ha : t.alwaysEqual = true → a = t.dflt) :
    Inv t (make a w).2 (some (make a w).1) := by
  have hne : ∀ x o b, w.objs x = some o → o.blk = some b → b ≠ w.next := by
    intro x o b h1 h2 h3
    have := h.own x o b h1 h2
    rw [h3, h.fresh _ (Nat.le_refl _)] at this
    cases this
  refine ⟨?_, ?_, h.inj, ?_, ?_, ?_, h.eq, ?_⟩
  · intro x o b h1 h2
    show upd w.owner w.next (some a) b = _
    unfold upd
    rw [if_neg (hne x o b h1 h2)]
    exact h.own x o b h1 h2
  · rintro o b h1 h2
    cases h1; cases h2
    show upd w.owner w.next (some a) w.next = _
    unfold upd; rw [if_pos rfl]; rfl
  · rintro x o p b h1 h2 h3 h4
    cases h2; cases h4
    exact hne x o _ h1 h3 rfl
  · intro b hb
    have hb : w.next + 1 ≤ b := hb
    show upd w.owner w.next (some a) b = _
    unfold upd
    rw [if_neg (by omega)]
    exact h.fresh b (by omega)
  · intro b hb
    change upd w.owner w.next (some a) b ≠ none at hb
    unfold upd at hb
    split at hb
    · rename_i e
      exact .inr ⟨_, rfl, by rw [e]; rfl⟩
    · rcases h.all b hb with h | ⟨o, h, -⟩
      · exact .inl h
      · cases h
  · rintro h1 o h2
    cases h2
    exact ha h1

theorem inv_put {w : W} {o : Obj} (h : Inv t w (some o)) {x : Nat} (hx : w.objs x = none) :
    Inv t (put x (some o) w) none := by
  have key : ∀ y p, (put x (some o) w).objs y = some p → (y = x ∧ p = o) ∨ (y ≠ x ∧ w.objs y = some p) := by
    intro y p hp
    change upd w.objs x (some o) y = _ at hp
    unfold upd at hp
    split at hp
    · rename_i e; cases hp; exact .inl ⟨e, rfl⟩
    · rename_i e; exact .inr ⟨e, hp⟩
  refine ⟨?_, (by rintro _ _ h; cases h), ?_, (by rintro _ _ _ _ _ h; cases h), h.fresh, ?_, ?_, (by rintro _ _ h; cases h)⟩
  · intro y p b hp hb
    rcases key y p hp with ⟨-, rfl⟩ | ⟨-, h1⟩
    · exact h.ownT _ b rfl hb
    · exact h.own y p b h1 hb
  · intro y z p q b hp hq hb hc
    rcases key y p hp with ⟨rfl, rfl⟩ | ⟨-, h1⟩ <;> rcases key z q hq with ⟨rfl, rfl⟩ | ⟨-, h2⟩
    · rfl
    · exact (h.injT z q _ b h2 rfl hc hb).elim
    · exact (h.injT y p _ b h1 rfl hb hc).elim
    · exact h.inj y z p q b h1 h2 hb hc
  · intro b hb
    left
    rcases h.all b hb with ⟨y, p, h1, h2⟩ | ⟨p, h1, h2⟩
    · refine ⟨y, p, ?_, h2⟩
      show upd w.objs x (some o) y = _
      unfold upd
      rw [if_neg (by rintro rfl; rw [hx] at h1; cases h1)]
      exact h1
    · cases h1
      exact ⟨x, o, by show upd w.objs x (some o) x = _; unfold upd; rw [if_pos rfl], h2⟩
  · intro he y p hp
    rcases key y p hp with ⟨-, rfl⟩ | ⟨-, h1⟩
    · exact h.eqT he _ rfl
    · exact h.eq he y p h1

theorem inv_take {w : W} (h : Inv t w none) {x : Nat} {o : Obj} (hx : w.objs x = some o) : Inv t (put x none w) (some o) := by
  have key : ∀ y p, (put x none w).objs y = some p → y ≠ x ∧ w.objs y = some p := by
    intro y p hp
    change upd w.objs x none y = _ at hp
    unfold upd at hp
    split at hp
    · cases hp
    · rename_i e; exact ⟨e, hp⟩
  refine ⟨fun y p b hp hb => h.own y p b (key y p hp).2 hb, ?_, fun y z p q b hp hq hb hc =>
    h.inj y z p q b (key y p hp).2 (key z q hq).2 hb hc, ?_, h.fresh, ?_, fun he y p hp => h.eq he y p (key y p hp).2, ?_⟩
  · rintro p b hp hb; cases hp; exact h.own x o b hx hb
  · rintro y p q b hp hq hb hc
    cases hq
    exact (key y p hp).1 (h.inj y x p o b (key y p hp).2 hx hb hc)
  · intro b hb
    rcases h.all b hb with ⟨y, p, h1, h2⟩ | ⟨_, h1, -⟩
    · by_cases e : y = x
      · subst e; rw [hx] at h1; cases h1
        exact .inr ⟨o, rfl, h2⟩
      · refine .inl ⟨y, p, ?_, h2⟩
        show upd w.objs x none y = _
        unfold upd; rw [if_neg e]; exact h1
    · cases h1
  · rintro he p hp; cases hp; exact h.eq he x o hx

/-- An object without storage may be dropped or taken out of nowhere. -/
theorem inv_drop {w : W} {a : Nat} (h : Inv t w (some ⟨a, none⟩)) : Inv t w none := by
  refine ⟨h.own, (by rintro _ _ h; cases h), h.inj, (by rintro _ _ _ _ _ h; cases h), h.fresh, ?_, h.eq, (by rintro _ _ h; cases h)⟩
  intro b hb
  rcases h.all b hb with h | ⟨o, h1, h2⟩
  · exact .inl h
  · cases h1; cases h2

theorem inv_null {w : W} {a : Nat} (h : Inv t w none) (ha : t.alwaysEqual = true → a = t.dflt) : Inv t w (some ⟨a, none⟩) := by
  refine ⟨h.own, ?_, h.inj, ?_, h.fresh, ?_, h.eq, ?_⟩
  · rintro o b h1 h2; cases h1; cases h2
  · rintro x o p b _ h1 _ h2; cases h1; cases h2
  · intro b hb
    rcases h.all b hb with h | ⟨o, h1, -⟩
    · exact .inl h
    · cases h1
  · rintro he o h1; cases h1; exact ha he

/-- The object in hand is exchanged with a named one. -/
theorem inv_exchange {w : W} {o p : Obj} (h : Inv t w (some p)) {x : Nat} (hx : w.objs x = some o) :
    Inv t (put x (some p) w) (some o) := by
  have key : ∀ y q, (put x (some p) w).objs y = some q → (y = x ∧ q = p) ∨ (y ≠ x ∧ w.objs y = some q) := by
    intro y q hq
    change upd w.objs x (some p) y = _ at hq
    unfold upd at hq
    split at hq
    · rename_i e; cases hq; exact .inl ⟨e, rfl⟩
    · rename_i e; exact .inr ⟨e, hq⟩
  refine ⟨?_, ?_, ?_, ?_, h.fresh, ?_, ?_, ?_⟩
  · intro y q b hq hb
    rcases key y q hq with ⟨-, rfl⟩ | ⟨-, h1⟩
    · exact h.ownT _ b rfl hb
    · exact h.own y q b h1 hb
  · rintro q b hq hb; cases hq; exact h.own x o b hx hb
  · intro y z q r b hq hr hb hc
    rcases key y q hq with ⟨rfl, rfl⟩ | ⟨-, h1⟩ <;> rcases key z r hr with ⟨rfl, rfl⟩ | ⟨-, h2⟩
    · rfl
    · exact (h.injT z r _ b h2 rfl hc hb).elim
    · exact (h.injT y q _ b h1 rfl hb hc).elim
    · exact h.inj y z q r b h1 h2 hb hc
  · rintro y q r b hq hr hb hc
    cases hr
    rcases key y q hq with ⟨rfl, rfl⟩ | ⟨e, h1⟩
    · exact h.injT _ o _ b hx rfl hc hb
    · exact e (h.inj y x q o b h1 hx hb hc)
  · intro b hb
    rcases h.all b hb with ⟨y, q, h1, h2⟩ | ⟨q, h1, h2⟩
    · by_cases e : y = x
      · subst e; rw [hx] at h1; cases h1
        exact .inr ⟨o, rfl, h2⟩
      · refine .inl ⟨y, q, ?_, h2⟩
        show upd w.objs x (some p) y = _
        unfold upd; rw [if_neg e]; exact h1
    · cases h1
      exact .inl ⟨x, p, by show upd w.objs x (some p) x = _; unfold upd; rw [if_pos rfl], h2⟩
  · intro he y q hq
    rcases key y q hq with ⟨-, rfl⟩ | ⟨-, h1⟩
    · exact h.eqT he _ rfl
    · exact h.eq he y q h1
  · rintro he q hq; cases hq; exact h.eq he x o hx

/-- The destructor of the object in hand. -/
theorem inv_destroy {w : W} {o : Obj} (h : Inv t w (some o)) :
    ∃ f, destroy o w = .ok { w with owner := f } ∧ Inv t { w with owner := f } none := by
  obtain ⟨a, b⟩ := o
  cases b with
  | none => exact ⟨w.owner, rfl, inv_drop h⟩
  | some b =>
    have hb : w.owner b = some a := h.ownT _ b rfl rfl
    refine ⟨upd w.owner b none, ?_, ?_⟩
    · show deallocate a b w = _
      unfold deallocate
      rw [if_pos hb]
    · have hne : ∀ x p c, w.objs x = some p → p.blk = some c → c ≠ b := by
        rintro x p c h1 h2 rfl
        exact h.injT x p _ c h1 rfl h2 rfl
      refine ⟨?_, (by rintro _ _ h; cases h), h.inj, (by rintro _ _ _ _ _ h; cases h), ?_, ?_, h.eq, (by rintro _ _ h; cases h)⟩
      · intro x p c h1 h2
        show upd w.owner b none c = _
        unfold upd; rw [if_neg (hne x p c h1 h2)]
        exact h.own x p c h1 h2
      · intro c hc
        show upd w.owner b none c = _
        unfold upd
        split
        · rfl
        · exact h.fresh c hc
      · intro c hc
        change upd w.owner b none c ≠ none at hc
        unfold upd at hc
        split at hc
        · exact absurd rfl hc
        · rename_i e
          rcases h.all c hc with h | ⟨p, h1, h2⟩
          · exact .inl h
          · cases h1; cases h2; exact absurd rfl e

/-- Under the invariant a swap exchanges the two objects, if it compiles. -/
theorem swap_cases {o p : Obj} (h : t.alwaysEqual = true → o.alloc = p.alloc) :
    swap t o p = .ok (p, o) ∨ swap t o p = .misuse := by
  obtain ⟨a, b⟩ := o
  obtain ⟨c, d⟩ := p
  unfold swap
  split
  · exact .inl rfl
  · split
    · rename_i he
      have : a = c := h he
      subst this
      exact .inl rfl
    · exact .inr rfl

/-- What a call must not do: give an array with an allocator unequal to the default one new storage for a range; and
allocators of a type of which all are equal are equal. -/
def Fine (t : Traits) (w : W) (op : Op) : Prop :=
  (t.alwaysEqual = true → ∀ x a, (op = .ctorAlloc x a ∨ op = .ctorFill x a) → a = t.dflt) ∧
  ∀ x o, op = .insertRange x true → w.objs x = some o → o.alloc = t.dflt

/-- Tests of the result of a call. -/
def Good (t : Traits) : Res W → Prop
  | .ok w => Inv t w none
  | .wrong => False
  | .misuse => True

theorem regrow_good {w : W} (h : Inv t w none) {x : Nat} {o : Obj} (hx : w.objs x = some o) :
    Good t (do let (o, w) ← regrow o w; pure (put x (some o) w)) := by
  have h1 := inv_make h (a := o.alloc) fun he => h.eq he x o hx
  have h2 := inv_exchange h1 (o := o) (x := x) hx
  obtain ⟨f, h3, h4⟩ := inv_destroy h2
  have e : regrow o w = .ok ((make o.alloc w).1, { (make o.alloc w).2 with owner := f }) := by
    have h3' : release o.alloc o.blk (make o.alloc w).2 = .ok { (make o.alloc w).2 with owner := f } := by
      have : release o.alloc o.blk (put x (some (make o.alloc w).1) (make o.alloc w).2) =
          .ok { put x (some (make o.alloc w).1) (make o.alloc w).2 with owner := f } := h3
      revert this
      unfold release
      cases o.blk with
      | none => intro h; cases h; rfl
      | some b =>
        simp only [deallocate]
        intro h
        split at h
        · rename_i hc
          cases h
          exact if_pos hc
        · cases h
    show Res.bind (release o.alloc o.blk (make o.alloc w).2) _ = _
    rw [h3']
    rfl
  show Good t (Res.bind (regrow o w) _)
  rw [e]
  exact h4

theorem regrowRange_eq {o : Obj} (ho : o.alloc = t.dflt) (w : W) : regrowRange t o w = regrow o w := by
  obtain ⟨a, b⟩ := o
  have : a = t.dflt := ho
  subst this
  rfl

theorem get_cases (x : Nat) (w : W) : (∃ o, w.objs x = some o ∧ get x w = .ok o) ∨ get x w = .misuse := by
  unfold get
  cases h : w.objs x with
  | none => exact .inr rfl
  | some o => exact .inl ⟨o, rfl, rfl⟩

theorem absent_cases (x : Nat) (w : W) : (w.objs x = none ∧ absent x w = .ok ()) ∨ absent x w = .misuse := by
  unfold absent
  cases h : w.objs x with
  | none => exact .inl ⟨rfl, rfl⟩
  | some o => exact .inr rfl

theorem ok_bind {σ τ : Type} (s : σ) (f : σ → Res τ) : ((Res.ok s : Res σ) >>= f) = f s := rfl
theorem misuse_bind {σ τ : Type} (f : σ → Res τ) : ((Res.misuse : Res σ) >>= f) = .misuse := rfl

/-- A temporary is swapped with a named object and destroyed. -/
theorem swap_destroy_good {w : W} {tmp : Obj} (h : Inv t w (some tmp)) {x : Nat} {o : Obj} (hx : w.objs x = some o) :
    Good t (do
      let (tmp, o) ← swap t tmp o
      let w ← destroy tmp w
      pure (put x (some o) w)) := by
  rcases swap_cases (t := t) (o := tmp) (p := o) (fun he => by rw [h.eqT he tmp rfl, h.eq he x o hx]) with e | e
  · rw [e, ok_bind]
    obtain ⟨f, h3, h4⟩ := inv_destroy (inv_exchange h hx)
    have h3' : destroy o w = .ok { w with owner := f } := by
      obtain ⟨a, b⟩ := o
      revert h3
      unfold destroy release
      cases b with
      | none => intro h; cases h; rfl
      | some b =>
        simp only [deallocate]
        intro h
        split at h
        · rename_i hc
          cases h
          exact if_pos hc
        · cases h
    show Good t (destroy o w >>= fun w => pure (put x (some tmp) w))
    rw [h3', ok_bind]
    exact h4
  · rw [e, misuse_bind]
    trivial

theorem exec_good {w : W} (h : Inv t w none) {op : Op} (hop : Fine t w op) : Good t (exec t w op) := by
  cases op with
  | ctor x =>
    show Good t (absent x w >>= fun _ => pure (put x (some ⟨t.dflt, none⟩) w))
    rcases absent_cases x w with ⟨hx, e⟩ | e
    · rw [e, ok_bind]; exact inv_put (inv_null h fun _ => rfl) hx
    · rw [e, misuse_bind]; trivial
  | ctorAlloc x a =>
    show Good t (absent x w >>= fun _ => pure (put x (some ⟨a, none⟩) w))
    rcases absent_cases x w with ⟨hx, e⟩ | e
    · rw [e, ok_bind]; exact inv_put (inv_null h fun he => hop.1 he x a (.inl rfl)) hx
    · rw [e, misuse_bind]; trivial
  | ctorFill x a =>
    show Good t (absent x w >>= fun _ => pure (put x (some (make a w).1) (make a w).2))
    rcases absent_cases x w with ⟨hx, e⟩ | e
    · rw [e, ok_bind]; exact inv_put (inv_make h fun he => hop.1 he x a (.inr rfl)) hx
    · rw [e, misuse_bind]; trivial
  | ctorCopy x y =>
    show Good t (absent x w >>= fun _ => get y w >>= fun p => pure (put x (some (make p.alloc w).1) (make p.alloc w).2))
    rcases absent_cases x w with ⟨hx, e⟩ | e
    · rw [e, ok_bind]
      rcases get_cases y w with ⟨p, hy, e⟩ | e
      · rw [e, ok_bind]; exact inv_put (inv_make h fun he => h.eq he y p hy) hx
      · rw [e, misuse_bind]; trivial
    · rw [e, misuse_bind]; trivial
  | ctorMove x y =>
    show Good t (absent x w >>= fun _ => get y w >>= fun p =>
      pure (put x (some ⟨p.alloc, p.blk⟩) (put y (some ⟨p.alloc, none⟩) w)))
    rcases absent_cases x w with ⟨hx, e⟩ | e
    · rw [e, ok_bind]
      rcases get_cases y w with ⟨p, hy, e⟩ | e
      · rw [e, ok_bind]
        refine inv_put (inv_exchange (inv_null h fun he => h.eq he y p hy) hy) ?_
        show upd w.objs y _ x = none
        unfold upd
        rw [if_neg (by rintro rfl; rw [hx] at hy; cases hy)]
        exact hx
      · rw [e, misuse_bind]; trivial
    · rw [e, misuse_bind]; trivial
  | dtor x =>
    show Good t (get x w >>= fun o => destroy o w >>= fun w => pure (put x none w))
    rcases get_cases x w with ⟨o, hx, e⟩ | e
    · rw [e, ok_bind]
      obtain ⟨f, h3, h4⟩ := inv_destroy (inv_take h hx)
      have h3' : destroy o w = .ok { w with owner := f } := by
        obtain ⟨a, b⟩ := o
        revert h3
        unfold destroy release
        cases b with
        | none => intro h; cases h; rfl
        | some b =>
          simp only [deallocate]
          intro h
          split at h
          · rename_i hc
            cases h
            exact if_pos hc
          · cases h
      rw [h3', ok_bind]
      exact h4
    · rw [e, misuse_bind]; trivial
  | assignCopy x y =>
    show Good t (get x w >>= fun o => get y w >>= fun p => swap t (make p.alloc w).1 o >>= fun r =>
      destroy r.1 (make p.alloc w).2 >>= fun w => pure (put x (some r.2) w))
    rcases get_cases x w with ⟨o, hx, e⟩ | e
    · rw [e, ok_bind]
      rcases get_cases y w with ⟨p, hy, e⟩ | e
      · rw [e, ok_bind]
        exact swap_destroy_good (inv_make h fun he => h.eq he y p hy) (x := x) hx
      · rw [e, misuse_bind]; trivial
    · rw [e, misuse_bind]; trivial
  | assignMove x y =>
    show Good t (get y w >>= fun p => get x (put y (some ⟨p.alloc, none⟩) w) >>= fun o => swap t ⟨p.alloc, p.blk⟩ o >>= fun r =>
      destroy r.1 (put y (some ⟨p.alloc, none⟩) w) >>= fun w => pure (put x (some r.2) w))
    rcases get_cases y w with ⟨p, hy, e⟩ | e
    · rw [e, ok_bind]
      rcases get_cases x (put y (some ⟨p.alloc, none⟩) w) with ⟨o, hx, e⟩ | e
      · rw [e, ok_bind]
        exact swap_destroy_good (inv_exchange (inv_null h fun he => h.eq he y p hy) hy) (x := x) hx
      · rw [e, misuse_bind]; trivial
    · rw [e, misuse_bind]; trivial
  | assignList x =>
    show Good t (get x w >>= fun o => swap t (make t.dflt w).1 o >>= fun r =>
      destroy r.1 (make t.dflt w).2 >>= fun w => pure (put x (some r.2) w))
    rcases get_cases x w with ⟨o, hx, e⟩ | e
    · rw [e, ok_bind]
      exact swap_destroy_good (inv_make h fun _ => rfl) (x := x) hx
    · rw [e, misuse_bind]; trivial
  | swap x y =>
    show Good t (get x w >>= fun o => get y w >>= fun p => Verif.Alloc.swap t o p >>= fun r =>
      pure (if x = y then w else put y (some r.2) (put x (some r.1) w)))
    rcases get_cases x w with ⟨o, hx, e⟩ | e
    · rw [e, ok_bind]
      rcases get_cases y w with ⟨p, hy, e⟩ | e
      · rw [e, ok_bind]
        rcases swap_cases (t := t) (o := o) (p := p) (fun he => by rw [h.eq he x o hx, h.eq he y p hy]) with e | e
        · rw [e, ok_bind]
          by_cases hxy : x = y
          · show Good t (.ok (if x = y then w else _))
            rw [if_pos hxy]; exact h
          · show Good t (.ok (if x = y then w else _))
            rw [if_neg hxy]
            -- take x, exchange with y, put at x
            have h1 := inv_take h hx
            have hy' : (put x none w).objs y = some p := by
              show upd w.objs x none y = _
              unfold upd; rw [if_neg (Ne.symm hxy)]; exact hy
            have h2 := inv_exchange h1 hy'
            have h3 := inv_put h2 (x := x) (by
              show upd (upd w.objs x none) y (some o) x = none
              unfold upd; rw [if_neg hxy, if_pos rfl])
            have e2 : put x (some p) (put y (some o) (put x none w)) = put y (some o) (put x (some p) w) := by
              unfold put
              congr 1
              funext j
              show upd (upd (upd w.objs x none) y (some o)) x (some p) j = upd (upd w.objs x (some p)) y (some o) j
              unfold upd
              by_cases h1 : j = x
              · subst h1; simp [hxy]
              · simp [h1]
            rw [e2] at h3
            exact h3
        · rw [e, misuse_bind]; trivial
      · rw [e, misuse_bind]; trivial
    · rw [e, misuse_bind]; trivial
  | one x grows =>
    show Good t (get x w >>= fun o => if grows then (do let (o, w) ← regrow o w; pure (put x (some o) w)) else pure w)
    rcases get_cases x w with ⟨o, hx, e⟩ | e
    · rw [e, ok_bind]
      cases grows
      · exact h
      · exact regrow_good h hx
    · rw [e, misuse_bind]; trivial
  | insertRange x grows =>
    show Good t (get x w >>= fun o => if grows then (do let (o, w) ← regrowRange t o w; pure (put x (some o) w)) else pure w)
    rcases get_cases x w with ⟨o, hx, e⟩ | e
    · rw [e, ok_bind]
      cases grows
      · exact h
      · simp only [if_true]
        rw [regrowRange_eq (hop.2 x o rfl hx)]
        exact regrow_good h hx
    · rw [e, misuse_bind]; trivial

/-- Every call of the program, in the state in which it runs, is as `Fine` says. -/
def FineAll (t : Traits) : W → List Op → Prop
  | _, [] => True
  | w, op :: ops => Fine t w op ∧ ∀ w', exec t w op = .ok w' → FineAll t w' ops

theorem run_good : ∀ (ops : List Op) {w : W}, Inv t w none → FineAll t w ops → Good t (run t w ops)
  | [], _, h, _ => h
  | op :: ops, w, h, hf => by
    show Good t (exec t w op >>= fun w => run t w ops)
    have h1 := exec_good h hf.1
    cases e : exec t w op with
    | ok w' => rw [e] at h1; rw [ok_bind]; exact run_good ops h1 (hf.2 w' e)
    | wrong => rw [e] at h1; exact h1.elim
    | misuse => trivial

/-- C125. No program of arrays gives a block to an allocator unequal to the one that made it, and when the program has ended
every block alive is the storage of exactly one array, whose allocator made it; provided that no array with an allocator
unequal to a default-constructed one gets new storage from `insert(pos, first, last)`. -/
theorem allocators_array_partial (ops : List Op) (hf : FineAll t W.empty ops) :
    run t W.empty ops ≠ .wrong ∧
    ∀ w, run t W.empty ops = .ok w →
      (∀ b a, w.owner b = some a → ∃ x o, w.objs x = some o ∧ o.blk = some b ∧ o.alloc = a) ∧
      (∀ x y o p b, w.objs x = some o → w.objs y = some p → o.blk = some b → p.blk = some b → x = y) ∧
      ((∀ x, w.objs x = none) → ∀ b, w.owner b = none) := by
  have h := run_good ops (Inv.empty (t := t)) hf
  refine ⟨fun e => by rw [e] at h; exact h, fun w e => ?_⟩
  rw [e] at h
  have h : Inv t w none := h
  have h1 : ∀ b a, w.owner b = some a → ∃ x o, w.objs x = some o ∧ o.blk = some b ∧ o.alloc = a := by
    intro b a hb
    rcases h.all b (by rw [hb]; simp) with ⟨x, o, h1, h2⟩ | ⟨o, h1, -⟩
    · exact ⟨x, o, h1, h2, by have := h.own x o b h1 h2; rw [hb] at this; exact (Option.some.inj this).symm⟩
    · cases h1
  refine ⟨h1, h.inj, fun hn b => ?_⟩
  cases hb : w.owner b with
  | none => rfl
  | some a =>
    obtain ⟨x, o, h2, -⟩ := h1 b a hb
    rw [hn x] at h2
    cases h2

/-! ### Which allocator an array has -/

/-- The allocators of the arrays after a call, in terms of those before it. -/
def allocAfter (t : Traits) (f : Nat → Option Nat) : Op → Nat → Option Nat
  | .ctor x => fun z => if z = x then some t.dflt else f z
  | .ctorAlloc x a => fun z => if z = x then some a else f z
  | .ctorFill x a => fun z => if z = x then some a else f z
  | .ctorCopy x y => fun z => if z = x then f y else f z
  | .ctorMove x y => fun z => if z = x then f y else f z
  | .dtor x => fun z => if z = x then none else f z
  | .assignCopy x y => fun z => if z = x then f y else f z
  | .assignMove x y => fun z => if z = x then f y else f z
  | .assignList x => fun z => if z = x then some t.dflt else f z
  | .swap x y => fun z => if z = x then f y else if z = y then f x else f z
  | .one _ _ => f
  | .insertRange _ _ => f

/-- The allocator of an array. -/
def allocOf (w : W) (x : Nat) : Option Nat := (w.objs x).map (·.alloc)

theorem allocOf_put (x : Nat) (o : Option Obj) (w : W) (z : Nat) :
    allocOf (put x o w) z = if z = x then o.map (·.alloc) else allocOf w z := by
  show (upd w.objs x o z).map _ = _
  unfold upd
  split <;> rfl

theorem allocOf_some {w : W} {x : Nat} {o : Obj} (h : w.objs x = some o) : allocOf w x = some o.alloc := by
  unfold allocOf; rw [h]; rfl

theorem release_objs {a : Nat} {b : Option Nat} {w w' : W} (h : release a b w = .ok w') : w'.objs = w.objs := by
  unfold release at h
  cases b with
  | none => cases h; rfl
  | some b =>
    simp only [deallocate] at h
    split at h
    · cases h; rfl
    · cases h

theorem exec_alloc {w w' : W} (h : Inv t w none) {op : Op} (hop : Fine t w op) (e : exec t w op = .ok w') (z : Nat) :
    allocOf w' z = allocAfter t (allocOf w) op z := by
  -- a swap of a temporary with `x`, and destruction of the temporary
  have key : ∀ (w1 : W) (tmp o : Obj) (x : Nat), w1.objs x = some o → (t.alwaysEqual = true → tmp.alloc = o.alloc) →
      (swap t tmp o >>= fun r => destroy r.1 w1 >>= fun w => pure (put x (some r.2) w)) = .ok w' →
      allocOf w' z = if z = x then some tmp.alloc else allocOf w1 z := by
    intro w1 tmp o x hx he e
    rcases swap_cases (t := t) (o := tmp) (p := o) he with e1 | e1
    · rw [e1, ok_bind] at e
      cases e2 : destroy o w1 with
      | ok w2 =>
        replace e : (destroy o w1 >>= fun w => pure (put x (some tmp) w)) = .ok w' := e
        rw [e2, ok_bind] at e
        cases e
        rw [allocOf_put]
        have := release_objs e2
        unfold allocOf
        rw [this]; rfl
      | wrong =>
        replace e : (destroy o w1 >>= fun w => pure (put x (some tmp) w)) = .ok w' := e
        rw [e2] at e; cases e
      | misuse =>
        replace e : (destroy o w1 >>= fun w => pure (put x (some tmp) w)) = .ok w' := e
        rw [e2] at e; cases e
    · rw [e1] at e; cases e
  have grow : ∀ (o : Obj) (x : Nat), w.objs x = some o →
      (regrow o w >>= fun r => pure (put x (some r.1) r.2)) = .ok w' → allocOf w' z = allocOf w z := by
    intro o x hx e
    replace e : ((release o.alloc o.blk (make o.alloc w).2 >>= fun w2 => pure ((make o.alloc w).1, w2)) >>= fun r =>
      pure (put x (some r.1) r.2)) = .ok w' := e
    cases e2 : release o.alloc o.blk (make o.alloc w).2 with
    | ok w2 =>
      rw [e2, ok_bind] at e
      cases e
      rw [allocOf_put]
      have := release_objs e2
      split
      · rename_i hz; subst hz; rw [allocOf_some hx]; rfl
      · unfold allocOf; rw [this]; rfl
    | wrong => rw [e2] at e; cases e
    | misuse => rw [e2] at e; cases e
  cases op with
  | ctor x =>
    rcases absent_cases x w with ⟨hx, ea⟩ | ea
    · replace e : (absent x w >>= fun _ => pure (put x (some ⟨t.dflt, none⟩) w)) = .ok w' := e
      rw [ea, ok_bind] at e; cases e; exact allocOf_put ..
    · replace e : (absent x w >>= fun _ => pure (put x (some ⟨t.dflt, none⟩) w)) = .ok w' := e
      rw [ea] at e; cases e
  | ctorAlloc x a =>
    replace e : (absent x w >>= fun _ => pure (put x (some ⟨a, none⟩) w)) = .ok w' := e
    rcases absent_cases x w with ⟨hx, ea⟩ | ea
    · rw [ea, ok_bind] at e; cases e; exact allocOf_put ..
    · rw [ea] at e; cases e
  | ctorFill x a =>
    replace e : (absent x w >>= fun _ => pure (put x (some (make a w).1) (make a w).2)) = .ok w' := e
    rcases absent_cases x w with ⟨hx, ea⟩ | ea
    · rw [ea, ok_bind] at e; cases e; rw [allocOf_put]; rfl
    · rw [ea] at e; cases e
  | ctorCopy x y =>
    replace e : (absent x w >>= fun _ => get y w >>= fun p =>
      pure (put x (some (make p.alloc w).1) (make p.alloc w).2)) = .ok w' := e
    rcases absent_cases x w with ⟨hx, ea⟩ | ea
    · rw [ea, ok_bind] at e
      rcases get_cases y w with ⟨p, hy, eg⟩ | eg
      · rw [eg, ok_bind] at e; cases e; rw [allocOf_put]
        show _ = if z = x then allocOf w y else _
        rw [allocOf_some hy]; rfl
      · rw [eg] at e; cases e
    · rw [ea] at e; cases e
  | ctorMove x y =>
    replace e : (absent x w >>= fun _ => get y w >>= fun p =>
      pure (put x (some ⟨p.alloc, p.blk⟩) (put y (some ⟨p.alloc, none⟩) w))) = .ok w' := e
    rcases absent_cases x w with ⟨hx, ea⟩ | ea
    · rw [ea, ok_bind] at e
      rcases get_cases y w with ⟨p, hy, eg⟩ | eg
      · rw [eg, ok_bind] at e; cases e; rw [allocOf_put, allocOf_put]
        show _ = if z = x then allocOf w y else _
        rw [allocOf_some hy]
        by_cases hz : z = y
        · subst hz; rw [if_pos rfl, allocOf_some hy]; rfl
        · rw [if_neg hz]; rfl
      · rw [eg] at e; cases e
    · rw [ea] at e; cases e
  | dtor x =>
    replace e : (get x w >>= fun o => destroy o w >>= fun w => pure (put x none w)) = .ok w' := e
    rcases get_cases x w with ⟨o, hx, eg⟩ | eg
    · rw [eg, ok_bind] at e
      cases e2 : destroy o w with
      | ok w2 =>
        rw [e2, ok_bind] at e; cases e; rw [allocOf_put]
        have := release_objs e2
        unfold allocOf allocAfter
        rw [this]; rfl
      | wrong => rw [e2] at e; cases e
      | misuse => rw [e2] at e; cases e
    · rw [eg] at e; cases e
  | assignCopy x y =>
    replace e : (get x w >>= fun o => get y w >>= fun p => swap t (make p.alloc w).1 o >>= fun r =>
      destroy r.1 (make p.alloc w).2 >>= fun w => pure (put x (some r.2) w)) = .ok w' := e
    rcases get_cases x w with ⟨o, hx, eg⟩ | eg
    · rw [eg, ok_bind] at e
      rcases get_cases y w with ⟨p, hy, eg⟩ | eg
      · rw [eg, ok_bind] at e
        rw [key (make p.alloc w).2 (make p.alloc w).1 o x hx (fun he => by
          show p.alloc = _; rw [h.eq he x o hx, h.eq he y p hy]) e]
        show _ = if z = x then allocOf w y else _
        rw [allocOf_some hy]; rfl
      · rw [eg] at e; cases e
    · rw [eg] at e; cases e
  | assignMove x y =>
    replace e : (get y w >>= fun p => get x (put y (some ⟨p.alloc, none⟩) w) >>= fun o => swap t ⟨p.alloc, p.blk⟩ o >>= fun r =>
      destroy r.1 (put y (some ⟨p.alloc, none⟩) w) >>= fun w => pure (put x (some r.2) w)) = .ok w' := e
    rcases get_cases y w with ⟨p, hy, eg⟩ | eg
    · rw [eg, ok_bind] at e
      have h2 := inv_exchange (inv_null h (a := p.alloc) fun he => h.eq he y p hy) hy
      rcases get_cases x (put y (some ⟨p.alloc, none⟩) w) with ⟨o, hx, eg⟩ | eg
      · rw [eg, ok_bind] at e
        rw [key _ _ o x hx (fun he => by rw [h2.eq he x o hx, ← h.eq he y p hy]) e, allocOf_put]
        show _ = if z = x then allocOf w y else _
        rw [allocOf_some hy]
        by_cases hz : z = y
        · subst hz; rw [if_pos rfl, allocOf_some hy]; rfl
        · rw [if_neg hz]
      · rw [eg] at e; cases e
    · rw [eg] at e; cases e
  | assignList x =>
    replace e : (get x w >>= fun o => swap t (make t.dflt w).1 o >>= fun r =>
      destroy r.1 (make t.dflt w).2 >>= fun w => pure (put x (some r.2) w)) = .ok w' := e
    rcases get_cases x w with ⟨o, hx, eg⟩ | eg
    · rw [eg, ok_bind] at e
      rw [key (make t.dflt w).2 (make t.dflt w).1 o x hx (fun he => by rw [h.eq he x o hx]; rfl) e]
      rfl
    · rw [eg] at e; cases e
  | swap x y =>
    replace e : (get x w >>= fun o => get y w >>= fun p => Verif.Alloc.swap t o p >>= fun r =>
      pure (if x = y then w else put y (some r.2) (put x (some r.1) w))) = .ok w' := e
    rcases get_cases x w with ⟨o, hx, eg⟩ | eg
    · rw [eg, ok_bind] at e
      rcases get_cases y w with ⟨p, hy, eg⟩ | eg
      · rw [eg, ok_bind] at e
        rcases swap_cases (t := t) (o := o) (p := p) (fun he => by rw [h.eq he x o hx, h.eq he y p hy]) with e1 | e1
        · rw [e1, ok_bind] at e
          cases e
          show allocOf (if x = y then w else put y (some o) (put x (some p) w)) z =
            if z = x then allocOf w y else if z = y then allocOf w x else _
          by_cases hxy : x = y
          · subst hxy
            rw [if_pos rfl]
            by_cases hz : z = x
            · subst hz; rw [if_pos rfl]
            · rw [if_neg hz, if_neg hz]
          · rw [if_neg hxy, allocOf_put, allocOf_put, allocOf_some hx, allocOf_some hy]
            by_cases hz : z = x
            · subst hz; rw [if_neg hxy, if_pos rfl, if_pos rfl]; rfl
            · rw [if_neg hz, if_neg hz]; rfl
        · rw [e1] at e; cases e
      · rw [eg] at e; cases e
    · rw [eg] at e; cases e
  | one x grows =>
    replace e : (get x w >>= fun o => if grows then (do let (o, w) ← regrow o w; pure (put x (some o) w)) else pure w) = .ok w' := e
    rcases get_cases x w with ⟨o, hx, eg⟩ | eg
    · rw [eg, ok_bind] at e
      cases grows
      · cases e; rfl
      · exact grow o x hx e
    · rw [eg] at e; cases e
  | insertRange x grows =>
    replace e : (get x w >>= fun o =>
      if grows then (do let (o, w) ← regrowRange t o w; pure (put x (some o) w)) else pure w) = .ok w' := e
    rcases get_cases x w with ⟨o, hx, eg⟩ | eg
    · rw [eg, ok_bind] at e
      cases grows
      · cases e; rfl
      · simp only [if_true] at e
        rw [regrowRange_eq (hop.2 x o rfl hx)] at e
        exact grow o x hx e
    · rw [eg] at e; cases e

/-- C125. An array uses the allocator it was given, copies and moved arrays that of their source; assignment takes over the
allocator of the source, `swap` exchanges the allocators, and no other call changes one. (Assignment of an initializer list
replaces the allocator by a default-constructed one.) -/
theorem allocators_array_kept_partial (ops : List Op) (op : Op) (hf : FineAll t W.empty (ops ++ [op])) (w w' : W)
    (h1 : run t W.empty ops = .ok w) (h2 : exec t w op = .ok w') (x : Nat) :
    allocOf w' x = allocAfter t (allocOf w) op x := by
  have key : ∀ (ops : List Op) (w0 : W), Inv t w0 none → FineAll t w0 (ops ++ [op]) → run t w0 ops = .ok w →
      Inv t w none ∧ Fine t w op := by
    intro ops
    induction ops with
    | nil => intro w0 h hf e; cases e; exact ⟨h, hf.1⟩
    | cons o ops ih =>
      intro w0 h hf e
      have h3 := exec_good h hf.1
      replace e : (exec t w0 o >>= fun w => run t w ops) = .ok w := e
      cases e1 : exec t w0 o with
      | ok w1 => rw [e1] at h3; rw [e1, ok_bind] at e; exact ih w1 h3 (hf.2 w1 e1) e
      | wrong => rw [e1] at e; cases e
      | misuse => rw [e1] at e; cases e
  obtain ⟨hi, hfi⟩ := key ops W.empty Inv.empty hf h1
  exact exec_alloc hi hfi h2 x

theorem deallocate_wrong {a b : Nat} {c : Option Nat} {w : W} (h : w.owner b = c) (hc : c ≠ some a) :
    deallocate a b w = .wrong := by
  unfold deallocate
  rw [h, if_neg hc]

/-- C125. Disagreement, and the proviso above is needed in every state: after any program, `insert(pos, first, last)` that needs
new storage takes it from a default-constructed allocator. If the allocator of the array is another one, the old storage goes to
the wrong allocator at once, or, if there was none, the new storage will, in the destructor. -/
theorem allocators_array_wrong (ops : List Op) (hf : FineAll t W.empty ops) (w : W) (hw : run t W.empty ops = .ok w)
    (x : Nat) (o : Obj) (hx : w.objs x = some o) (ha : o.alloc ≠ t.dflt) :
    (o.blk ≠ none → run t w [.insertRange x true] = .wrong) ∧
    (o.blk = none → run t w [.insertRange x true, .dtor x] = .wrong) := by
  have inv : Inv t w none := by
    have := run_good ops Inv.empty hf
    rw [hw] at this; exact this
  have hg : get x w = .ok o := by unfold get; rw [hx]
  obtain ⟨a, b⟩ := o
  constructor
  · intro hb
    cases b with
    | none => exact absurd rfl hb
    | some b =>
      have ho : w.owner b = some a := inv.own x _ b hx rfl
      have hlt : b ≠ w.next := by
        intro e; have := inv.fresh b (by omega); rw [ho] at this; cases this
      show ((get x w >>= fun o => (regrowRange t o w >>= fun r => pure (put x (some r.1) r.2))) >>= fun w => .ok w) = _
      rw [hg, ok_bind]
      have e : regrowRange t ⟨a, some b⟩ w = .wrong := by
        show Res.bind (deallocate t.dflt b _) _ = _
        rw [deallocate_wrong (c := some a) (by simp [upd, hlt, ho])
          (fun e => ha (Option.some.inj e))]
        rfl
      rw [e]; rfl
  · intro hb
    cases hb
    have e : regrowRange t ⟨a, none⟩ w = .ok (⟨a, some w.next⟩, (allocate t.dflt w).2) := rfl
    show ((get x w >>= fun o => (regrowRange t o w >>= fun r => pure (put x (some r.1) r.2))) >>= fun w =>
      exec t w (.dtor x) >>= fun w => .ok w) = _
    rw [hg, ok_bind, e, ok_bind]
    show (exec t (put x (some ⟨a, some w.next⟩) (allocate t.dflt w).2) (.dtor x) >>= fun w => Res.ok w) = _
    have e2 : exec t (put x (some ⟨a, some w.next⟩) (allocate t.dflt w).2) (.dtor x) = .wrong := by
      show (get x _ >>= fun o => destroy o _ >>= fun w => pure (put x none w)) = _
      have : get x (put x (some ⟨a, some w.next⟩) (allocate t.dflt w).2) = .ok ⟨a, some w.next⟩ := by
        simp [get, put, upd]
      rw [this, ok_bind]
      show Res.bind (deallocate a w.next _) _ = _
      rw [deallocate_wrong (c := some t.dflt) (by simp [put, allocate, upd])
        (fun e => ha (Option.some.inj e).symm)]
      rfl
    rw [e2]; rfl

/-- The cases of both kinds come about. -/
example : (∃ w, run ⟨true, false, 7⟩ W.empty [.ctorFill 0 3] = .ok w ∧ w.objs 0 = some ⟨3, some 0⟩ ∧
      FineAll ⟨true, false, 7⟩ W.empty [.ctorFill 0 3]) ∧
    ∃ w, run ⟨true, false, 7⟩ W.empty [.ctorAlloc 0 3] = .ok w ∧ w.objs 0 = some ⟨3, none⟩ ∧
      FineAll ⟨true, false, 7⟩ W.empty [.ctorAlloc 0 3] := by
  refine ⟨⟨_, rfl, rfl, ?_, fun _ _ => trivial⟩, ⟨_, rfl, rfl, ?_, fun _ _ => trivial⟩⟩ <;>
    exact ⟨fun h => absurd h (by decide), fun x o h => absurd h (by simp)⟩

/-! ### The hypotheses can be met -/

section Examples

/-- Arenas that are swapped with their containers; number 7 is the default one. -/
def arena : Traits := ⟨true, false, 7⟩

def outcome {σ : Type} : Res σ → Nat
  | .ok _ => 0
  | .wrong => 1
  | .misuse => 2

def demo : List Op :=
  [.ctorFill 0 3, .one 0 true, .ctorCopy 1 0, .ctor 2, .insertRange 2 true, .assignMove 2 0, .swap 1 2, .assignList 1, .dtor 0,
    .dtor 1, .dtor 2]

example : outcome (run arena W.empty demo) = 0 := by decide +kernel

example : FineAll arena W.empty demo := by
  refine ⟨⟨by simp [arena], by simp⟩, fun w h => ?_⟩; cases h
  refine ⟨⟨by simp [arena], by simp⟩, fun w h => ?_⟩; cases h
  refine ⟨⟨by simp [arena], by simp⟩, fun w h => ?_⟩; cases h
  refine ⟨⟨by simp [arena], by simp⟩, fun w h => ?_⟩; cases h
  refine ⟨⟨by simp [arena], fun x o h1 h2 => ?_⟩, fun w h => ?_⟩
  · cases h1; cases h2; rfl
  cases h
  refine ⟨⟨by simp [arena], by simp⟩, fun w h => ?_⟩; cases h
  refine ⟨⟨by simp [arena], by simp⟩, fun w h => ?_⟩; cases h
  refine ⟨⟨by simp [arena], by simp⟩, fun w h => ?_⟩; cases h
  refine ⟨⟨by simp [arena], by simp⟩, fun w h => ?_⟩; cases h
  refine ⟨⟨by simp [arena], by simp⟩, fun w h => ?_⟩; cases h
  refine ⟨⟨by simp [arena], by simp⟩, fun w h => ?_⟩; cases h
  trivial

-- without `propagate_on_container_swap` assignments do not compile
example : outcome (run ⟨false, false, 7⟩ W.empty [.ctorFill 0 3, .ctorFill 1 4, .assignCopy 0 1]) = 2 := by decide +kernel

end Examples

end Verif.Alloc
