import Verif.Functional.Init

/-!
# What a delegate and a binder can be made from

C135: a delegate can be made from, and assigned, every callable expression, and is copied or moved from a delegate of its own
type. Of the code this is true for rvalues only; what each expression does is stated exactly.
-/

set_option autoImplicit false

namespace Verif.FnInit

open Verif.Types

/-- The class, with any qualifiers. -/
def IsSelf (self : Nat) (t : Ty) : Prop := ∃ c v, t = .cls c v self

/-- `std::nullptr_t`, with any qualifiers. -/
def IsNull (t : Ty) : Prop := ∃ c v, t = .fund c v .nullptr

/-- The type of an expression is no reference. -/
def NoRef (t : Ty) : Prop := ∀ u, t ≠ .lref u ∧ t ≠ .rref u

/-- What a delegate can store: something that can be moved (or copied) in, copied and called. -/
def Storable (P : Prog) (t : Ty) : Prop :=
  P.constructible t ⟨t, .xvalue⟩ = true ∧ P.constructible t ⟨t, .lvalue⟩ = true ∧ P.invocable t = true

theorem different_iff (e : Expr) (self : Nat) (h : NoRef e.ty) :
    cDifferentFromSelf (deduce e) (.cls false false self) = false ↔ IsSelf self e.ty := by
  obtain ⟨t, cat⟩ := e
  have hd : removeCvref (deduce ⟨t, cat⟩) = removeCv t := by
    unfold deduce removeCvref
    split
    · rfl
    · have := h
      cases t with
      | lref u => exact absurd rfl (h u).1
      | rref u => exact absurd rfl (h u).2
      | _ => rfl
  unfold cDifferentFromSelf
  rw [hd, Bool.not_eq_false', decide_eq_true_iff]
  unfold IsSelf
  cases t with
  | cls c v k =>
    simp only [removeCv, Ty.cls.injEq, true_and]
    exact ⟨fun h => ⟨c, v, rfl, rfl, h.symm⟩, fun ⟨_, _, _, _, h⟩ => h.symm⟩
  | _ => simp [removeCv]

theorem toSelf_other (P : Prog) (self : Nat) (rv : Bool) (e : Expr) (h : ¬ IsSelf self e.ty) :
    toSelf P self rv e ≠ some .identity := by
  obtain ⟨t, cat⟩ := e
  unfold toSelf
  cases t with
  | cls c v k =>
    have hk : k ≠ self := fun hk => h ⟨c, v, by rw [hk]⟩
    simp only [hk, if_false]
    split
    · split
      · simp
      · split <;> simp
    · split <;> simp
  | _ =>
    simp only
    split <;> simp

theorem key_other (P : Prog) (self : Nat) (e : Expr) (h : ¬ IsSelf self e.ty) (c : Cand) (hc : c = .copy ∨ c = .move) :
    ∀ k, key P self e c = some k → 8 ≤ k := by
  intro k hk
  rcases hc with rfl | rfl
  all_goals
    simp only [key, Option.map_eq_some_iff] at hk
    obtain ⟨r, hr, rfl⟩ := hk
    cases r
    · exact absurd hr (toSelf_other P self _ e h)
    · simp only [Rank.num]; omega
    · simp only [Rank.num]; omega

theorem template_key (P : Prog) (self : Nat) (e : Expr) (hr : NoRef e.ty) :
    (IsSelf self e.ty → key P self e .template = none) ∧ (¬ IsSelf self e.ty → key P self e .template = some 1) := by
  have := different_iff e self hr
  constructor
  · intro h
    simp [key, this.2 h]
  · intro h
    have hd : cDifferentFromSelf (deduce e) (.cls false false self) = true := by
      by_contra hd
      exact h (this.1 (by simpa using hd))
    simp [key, hd]

theorem choose_other (P : Prog) (self : Nat) (e : Expr) (hr : NoRef e.ty) (h : ¬ IsSelf self e.ty) :
    choose P self e [.copy, .move, .template] = some .template ∧ choose P self e [.template] = some .template ∧
    (IsNull e.ty → choose P self e [.copy, .move, .null, .template] = some .null) ∧
    (¬ IsNull e.ty → choose P self e [.copy, .move, .null, .template] = some .template) := by
  have ht := (template_key P self e hr).2 h
  have hcp := key_other P self e h .copy (.inl rfl)
  have hmv := key_other P self e h .move (.inr rfl)
  have hn1 : IsNull e.ty → key P self e .null = some 0 := by
    rintro ⟨c, v, hn⟩
    simp [key, toNullptr, hn, Rank.num]
  have hn2 : ¬ IsNull e.ty → ∀ k, key P self e .null = some k → 8 ≤ k := by
    intro hn k hk
    simp only [key, Option.map_eq_some_iff] at hk
    obtain ⟨r, hr, rfl⟩ := hk
    cases r
    · exfalso
      obtain ⟨t, cat⟩ := e
      unfold toNullptr at hr
      cases t with
      | fund c v f =>
        cases f with
        | nullptr => exact hn ⟨c, v, rfl⟩
        | _ => simp at hr
      | _ => simp at hr
    · simp only [Rank.num]; omega
    · simp only [Rank.num]; omega
  have b1 : ∀ k, key P self e .copy = some k → ¬ k < 1 ∧ 1 < k ∧ 0 < k := fun k hk => by have := hcp k hk; omega
  have b2 : ∀ k, key P self e .move = some k → ¬ k < 1 ∧ 1 < k ∧ 0 < k := fun k hk => by have := hmv k hk; omega
  have b3 : ¬ IsNull e.ty → ∀ k, key P self e .null = some k → ¬ k < 1 ∧ 1 < k := fun hn k hk => by
    have := hn2 hn k hk; omega
  clear hcp hmv hn2
  refine ⟨?_, ?_, fun hn => ?_, fun hn => ?_⟩
  · rcases hkc : key P self e .copy with _ | kc <;> rcases hkm : key P self e .move with _ | km <;>
      simp_all [choose, List.find?]
  · simp [choose, List.find?, ht]
  · have hn := hn1 hn
    rcases hkc : key P self e .copy with _ | kc <;> rcases hkm : key P self e .move with _ | km <;>
      simp_all [choose, List.find?]
  · have hn := b3 hn
    rcases hkc : key P self e .copy with _ | kc <;> rcases hkm : key P self e .move with _ | km <;>
      rcases hkn : key P self e .null with _ | kn <;> simp_all [choose, List.find?]

theorem choose_self (P : Prog) (self : Nat) (c v : Bool) (cat : Cat) (n : Bool) :
    choose P self ⟨.cls c v self, cat⟩ (if n then [.copy, .move, .null, .template] else [.copy, .move, .template]) =
      if v then none else if c || cat = .lvalue then some .copy else some .move := by
  cases n <;> cases c <;> cases v <;> cases cat <;>
    simp [choose, List.find?, key, toSelf, toNullptr, Rank.num, isConst, cDifferentFromSelf, deduce, removeCvref, removeRef,
      removeCv]

theorem elided_iff (self : Nat) (e : Expr) : elided self e = true ↔ IsSelf self e.ty ∧ e.cat = .prvalue := by
  obtain ⟨t, cat⟩ := e
  unfold elided IsSelf
  cases t with
  | cls c v k =>
    simp only [Bool.and_eq_true, decide_eq_true_eq, Ty.cls.injEq]
    exact ⟨fun ⟨h, h'⟩ => ⟨⟨c, v, rfl, rfl, h⟩, h'⟩, fun ⟨⟨_, _, _, _, h⟩, h'⟩ => ⟨h, h'⟩⟩
  | _ => simp

theorem elided_other (self : Nat) (e : Expr) (h : ¬ IsSelf self e.ty) : elided self e = false := by
  by_contra hf
  exact h ((elided_iff self e).1 (by simpa using hf)).1

theorem managerCompiles_iff (P : Prog) (t : Ty) : managerCompiles P t = true ↔ NoRef t ∧ Storable P t := by
  cases t with
  | lref u => exact ⟨fun h => by simp [managerCompiles] at h, fun h => absurd rfl (h.1 u).1⟩
  | rref u => exact ⟨fun h => by simp [managerCompiles] at h, fun h => absurd rfl (h.1 u).2⟩
  | _ => simp [managerCompiles, NoRef, Storable, and_assoc]

/-- C135: what `Delegate d(e)` does, for every expression. A temporary of its own type is the delegate
itself; it moves from another rvalue delegate of its own type; it stores an rvalue
of another type, with its qualifiers, if that can be constructed from an rvalue and from an lvalue of its type and called; it
does not compile for all other expressions. -/
theorem delegate_construct_exact (P : Prog) (self : Nat) (e : Expr) (hr : NoRef e.ty) :
    (construct P self e = .same ↔ e.cat = .prvalue ∧ IsSelf self e.ty) ∧
    (construct P self e = .moved ↔ e.cat = .xvalue ∧ e.ty = .cls false false self) ∧
    (∀ t, construct P self e = .wraps t ↔ e.cat ≠ .lvalue ∧ e.ty = t ∧ ¬ IsSelf self t ∧ Storable P t) ∧
    construct P self e ≠ .emptied ∧ construct P self e ≠ .copied := by
  by_cases h : IsSelf self e.ty
  · obtain ⟨c, v, ht⟩ := h
    obtain ⟨t, cat⟩ := e
    simp only at ht
    subst ht
    have hc := choose_self P self c v cat false
    simp only [Bool.false_eq_true, if_false] at hc
    unfold construct
    rw [hc]
    have hs : IsSelf self (.cls c v self) := ⟨c, v, rfl⟩
    cases v <;> cases c <;> cases cat <;> simp [hs, elided]
  · have hc := (choose_other P self e hr h).1
    unfold construct
    rw [hc, elided_other self e h, if_neg Bool.false_ne_true]
    simp only
    obtain ⟨t, cat⟩ := e
    have hns : t ≠ .cls false false self := fun ht => h ⟨_, _, ht⟩
    by_cases hl : cat = .lvalue
    · subst hl
      simp [deduce, managerCompiles]
    · have hm := managerCompiles_iff P t
      by_cases hs : Storable P t
      · have := hm.2 ⟨hr, hs⟩
        simp only [deduce, hl, if_false, this, if_true]
        refine ⟨by simp [show ¬ IsSelf self t from h], by simp [hns], fun t' => ?_, by simp, by simp⟩
        simp only [Init.wraps.injEq, ne_eq, not_false_eq_true, true_and, hl]
        constructor
        · rintro rfl; exact ⟨rfl, h, hs⟩
        · exact fun h => h.1
      · have : managerCompiles P t = false := by
          by_contra hf
          exact hs (hm.1 (by simpa using hf)).2
        simp only [deduce, hl, if_false, this]
        refine ⟨by simp [show ¬ IsSelf self t from h], by simp [hns], fun t' => ?_, by simp, by simp⟩
        simp only [Bool.false_eq_true, if_false, reduceCtorEq, false_iff]
        rintro ⟨-, rfl, -, h'⟩
        exact hs h'

/-- C135: what `d = e` does, for every expression: the same, except that `nullptr`, of any category, makes the delegate
empty. -/
theorem delegate_assign_exact (P : Prog) (self : Nat) (e : Expr) (hr : NoRef e.ty) :
    (assign P self e = .emptied ↔ IsNull e.ty) ∧
    (assign P self e = .moved ↔ e.cat ≠ .lvalue ∧ e.ty = .cls false false self) ∧
    (∀ t, assign P self e = .wraps t ↔ e.cat ≠ .lvalue ∧ e.ty = t ∧ ¬ IsSelf self t ∧ ¬ IsNull t ∧ Storable P t) ∧
    assign P self e ≠ .copied ∧ assign P self e ≠ .same := by
  by_cases h : IsSelf self e.ty
  · obtain ⟨c, v, ht⟩ := h
    obtain ⟨t, cat⟩ := e
    simp only at ht
    subst ht
    have hc := choose_self P self c v cat true
    simp only [if_true] at hc
    have hs : IsSelf self (.cls c v self) := ⟨c, v, rfl⟩
    have hn : ¬ IsNull (.cls c v self) := by rintro ⟨_, _, h⟩; cases h
    have h1 : construct P self ⟨.cls true false self, .lvalue⟩ = .illFormed := by
      have := choose_self P self true false .lvalue false
      simp only [Bool.false_eq_true, if_false] at this
      simp [construct, this, elided]
    have h2 : construct P self ⟨.cls false false self, .xvalue⟩ = .moved := by
      have := choose_self P self false false .xvalue false
      simp only [Bool.false_eq_true, if_false] at this
      simp [construct, this, elided]
    unfold assign
    rw [hc]
    cases v <;> cases c <;> cases cat <;> simp [h1, h2, hn, hs]
  · have hc := (choose_other P self e hr h).2.2
    by_cases hn : IsNull e.ty
    · unfold assign
      rw [hc.1 hn]
      refine ⟨by simp [hn], ?_, fun t => ?_, by simp, by simp⟩
      · simp only [reduceCtorEq, false_iff]
        rintro ⟨-, ht⟩
        exact h ⟨_, _, ht⟩
      · simp only [reduceCtorEq, false_iff]
        rintro ⟨-, rfl, -, hn', -⟩
        exact hn' hn
    · unfold assign
      rw [hc.2 hn]
      have hx := delegate_construct_exact P self (forwarded e) hr
      have hcat : (forwarded e).cat ≠ .lvalue ↔ e.cat ≠ .lvalue := by
        unfold forwarded; cases e.cat <;> simp
      have hpr : (forwarded e).cat ≠ .prvalue := by unfold forwarded; cases e.cat <;> simp
      simp only
      refine ⟨⟨fun hh => absurd hh hx.2.2.2.1, fun hh => absurd hh hn⟩, ?_, fun t => ?_, hx.2.2.2.2,
        fun hh => hpr (hx.1.1 hh).1⟩
      · rw [hx.2.1]
        constructor
        · rintro ⟨-, ht⟩; exact absurd ⟨_, _, ht⟩ h
        · rintro ⟨-, ht⟩; exact absurd ⟨_, _, ht⟩ h
      · rw [hx.2.2.1 t, hcat]
        constructor
        · rintro ⟨h1, h2, h3, h4⟩
          have h2' : e.ty = t := h2
          exact ⟨h1, h2', h3, h2' ▸ hn, h4⟩
        · rintro ⟨h1, h2, h3, -, h4⟩
          exact ⟨h1, h2, h3, h4⟩

/-- C135: no delegate stores a delegate of its own type, however it is made or assigned. -/
theorem delegate_never_nested (P : Prog) (self : Nat) (e : Expr) (hr : NoRef e.ty) (c v : Bool) :
    construct P self e ≠ .wraps (.cls c v self) ∧ assign P self e ≠ .wraps (.cls c v self) := by
  constructor
  · intro h
    exact (((delegate_construct_exact P self e hr).2.2.1 _).1 h).2.2.1 ⟨c, v, rfl⟩
  · intro h
    exact (((delegate_assign_exact P self e hr).2.2.1 _).1 h).2.2.1 ⟨c, v, rfl⟩

/-- C135, the part that holds: every rvalue callable that can be moved and copied can be stored, by construction and by
assignment, and rvalue delegates are moved. Missing: lvalues, callables that cannot be copied, and copies. -/
theorem delegate_init_partial (P : Prog) (self : Nat) (t : Ty) (cat : Cat) (hr : NoRef t) (hc : cat ≠ .lvalue) :
    (¬ IsSelf self t → Storable P t → construct P self ⟨t, cat⟩ = .wraps t ∧ (¬ IsNull t → assign P self ⟨t, cat⟩ = .wraps t)) ∧
    construct P self ⟨.cls false false self, .xvalue⟩ = .moved ∧ construct P self ⟨.cls false false self, .prvalue⟩ = .same ∧
    assign P self ⟨.cls false false self, cat⟩ = .moved ∧
    assign P self ⟨.fund false false .nullptr, cat⟩ = .emptied := by
  have hd : NoRef (.cls false false self) := fun u => by simp
  refine ⟨fun hs hst => ⟨((delegate_construct_exact P self ⟨t, cat⟩ hr).2.2.1 t).2 ⟨hc, rfl, hs, hst⟩, fun hn =>
    ((delegate_assign_exact P self ⟨t, cat⟩ hr).2.2.1 t).2 ⟨hc, rfl, hs, hn, hst⟩⟩, ?_, ?_, ?_, ?_⟩
  · exact (delegate_construct_exact P self ⟨_, .xvalue⟩ hd).2.1.2 ⟨rfl, rfl⟩
  · exact (delegate_construct_exact P self ⟨_, .prvalue⟩ hd).1.2 ⟨rfl, _, _, rfl⟩
  · exact (delegate_assign_exact P self ⟨_, cat⟩ hd).2.1.2 ⟨hc, rfl⟩
  · exact (delegate_assign_exact P self ⟨.fund false false .nullptr, cat⟩ (fun u => by simp)).1.2 ⟨_, _, rfl⟩

/-- C135 is false of the code: nothing named can be stored, neither a function nor an object, however callable and copyable, and
no delegate can be copied, other than a temporary, which is the new one itself. Neither construction nor assignment compiles. -/
theorem delegate_init_wrong (P : Prog) (self : Nat) (t : Ty) (hr : NoRef t) (hn : ¬ IsNull t) :
    construct P self ⟨t, .lvalue⟩ = .illFormed ∧ assign P self ⟨t, .lvalue⟩ = .illFormed ∧
    (∀ cat, cat ≠ .prvalue → construct P self ⟨.cls true false self, cat⟩ = .illFormed) ∧
    (∀ cat, assign P self ⟨.cls true false self, cat⟩ = .illFormed) := by
  have key : ∀ e : Expr, NoRef e.ty → ¬ IsNull e.ty →
      (e.cat = .lvalue ∨ e.ty = .cls true false self) →
      (e.cat ≠ .prvalue → construct P self e = .illFormed) ∧ assign P self e = .illFormed := by
    intro e hr hn he
    have h1 := delegate_construct_exact P self e hr
    have h2 := delegate_assign_exact P self e hr
    constructor
    · intro hp
      cases hx : construct P self e with
      | illFormed => rfl
      | same => exact absurd (h1.1.1 hx).1 hp
      | copied => exact absurd hx h1.2.2.2.2
      | emptied => exact absurd hx h1.2.2.2.1
      | moved =>
        obtain ⟨a, b⟩ := h1.2.1.1 hx
        rcases he with he | he
        · rw [he] at a; simp at a
        · rw [he] at b; simp at b
      | wraps t =>
        obtain ⟨a, b, c, -⟩ := (h1.2.2.1 t).1 hx
        rcases he with he | he
        · exact absurd he a
        · exact absurd ⟨_, _, b.symm.trans he⟩ c
    · cases hx : assign P self e with
      | illFormed => rfl
      | same => exact absurd hx h2.2.2.2.2
      | copied => exact absurd hx h2.2.2.2.1
      | emptied => exact absurd (h2.1.1 hx) hn
      | moved =>
        obtain ⟨a, b⟩ := h2.2.1.1 hx
        rcases he with he | he
        · exact absurd he a
        · rw [he] at b; simp at b
      | wraps t =>
        obtain ⟨a, b, c, -⟩ := (h2.2.2.1 t).1 hx
        rcases he with he | he
        · exact absurd he a
        · exact absurd ⟨_, _, b.symm.trans he⟩ c
  have hs : ∀ cat : Cat, NoRef (Expr.mk (.cls true false self) cat).ty ∧ ¬ IsNull (Expr.mk (.cls true false self) cat).ty :=
    fun cat => ⟨fun u => by simp, by rintro ⟨_, _, h⟩; cases h⟩
  exact ⟨(key ⟨t, .lvalue⟩ hr hn (.inl rfl)).1 (by simp), (key ⟨t, .lvalue⟩ hr hn (.inl rfl)).2,
    fun cat hp => (key _ (hs cat).1 (hs cat).2 (.inr rfl)).1 hp, fun cat => (key _ (hs cat).1 (hs cat).2 (.inr rfl)).2⟩

/-- C135: a binder made from a binder of its own type and nothing else is that binder if it is a temporary, else a copy, or is moved from if that is an rvalue and not
`const`; made from anything else, by way of the bound arguments too, it stores a callable constructed from the argument, if
there is a constructor and there are as many bound arguments as the type says; with bound arguments it is never made from a binder of its own type. -/
theorem bind_construct_exact (P : Prog) (self : Nat) (fn : Ty) (m n : Nat) (e : Expr) (hr : NoRef e.ty) :
    (bindConstruct P self fn m n e = .copied ↔
      n = 0 ∧ ((e.ty = .cls true false self ∧ e.cat ≠ .prvalue) ∨ (e.ty = .cls false false self ∧ e.cat = .lvalue))) ∧
    (bindConstruct P self fn m n e = .moved ↔ n = 0 ∧ e.ty = .cls false false self ∧ e.cat = .xvalue) ∧
    (bindConstruct P self fn m n e = .same ↔ n = 0 ∧ IsSelf self e.ty ∧ e.cat = .prvalue) ∧
    (∀ t, bindConstruct P self fn m n e = .wraps t ↔ t = fn ∧ ¬ IsSelf self e.ty ∧ n = m ∧
      P.constructible fn ⟨e.ty, if e.cat = .lvalue then .lvalue else .xvalue⟩ = true) ∧
    bindConstruct P self fn m n e ≠ .emptied := by
  by_cases h : IsSelf self e.ty
  · have h' := h
    obtain ⟨c, v, ht⟩ := h
    obtain ⟨t, cat⟩ := e
    simp only at ht
    subst ht
    have hc := choose_self P self c v cat false
    simp only [Bool.false_eq_true, if_false] at hc
    have hk := (template_key P self ⟨.cls c v self, cat⟩ hr).1 h'
    simp only at h'
    unfold bindConstruct
    by_cases hn : n = 0
    · rw [if_pos hn, hc]
      cases v <;> cases c <;> cases cat <;> simp [hn, h', elided]
    · rw [if_neg hn]
      have : choose P self ⟨.cls c v self, cat⟩ [.template] = none := by simp [choose, List.find?, hk]
      rw [this]
      simp [hn, h', elided]
  · have hc := choose_other P self e hr h
    have hns : ∀ c v, e.ty ≠ .cls c v self := fun c v ht => h ⟨_, _, ht⟩
    have : choose P self e (if n = 0 then [.copy, .move, .template] else [.template]) = some .template := by
      split
      · exact hc.1
      · exact hc.2.1
    unfold bindConstruct
    rw [this, elided_other self e h, Bool.and_false, if_neg Bool.false_ne_true]
    simp only [hns, h]
    have he : ∀ t : Ty, fn = t ↔ t = fn := fun t => eq_comm
    have hf : P.constructible fn ⟨e.ty, if e.cat = .lvalue then .lvalue else .xvalue⟩ = P.constructible fn (forwarded e) := rfl
    rw [hf]
    by_cases hm : n = m <;> cases hcc : P.constructible fn (forwarded e) <;> simp [he, hm]

/-- C135: the signature deduced for a delegate made from one callable is that of its only call operator, or of the function,
whatever its `const`, `&` and `noexcept`; there is none if the call operator is `volatile`, needs an rvalue or takes `...`. -/
theorem delegate_deduction_exact (s : Sig) (q : Quals) (ne : Bool) :
    (deduceSig (.object [(s, q)]) = if s.ellipsis = false ∧ q.volatile = false ∧ q.rref = false then some s else none) ∧
    (deduceSig (.pointer s ne) = if s.ellipsis = false then some s else none) := by
  obtain ⟨r, ps, el⟩ := s
  obtain ⟨c, v, l, rr, n⟩ := q
  cases el <;> cases v <;> cases rr <;> cases c <;> cases l <;> simp [deduceSig, guideHelper]

/-- A program: class 0 is the delegate, class 1 derives from it, class 2 is a lambda, class 3 is a lambda that can only be
moved, functions convert to pointers. -/
def demo : Prog where
  derives a b := a == 1 && b == 0
  converts _ _ := true
  toNull e := e.ty == .fund false false .int
  constructible t e := match t with
    | .cls _ _ 3 => e.cat != .lvalue
    | .cls .. | .ptr .. => true
    | _ => false
  invocable t := match t with
    | .cls .. => true
    | .ptr _ _ (.fn _) => true
    | _ => false

/-- Non-vacuity: a temporary lambda, `&f`, an object of a derived class, `std::move(d)`, `nullptr`; a named lambda, `f`, a
move-only lambda, `0`, `d`. -/
example : construct demo 0 ⟨.cls false false 2, .prvalue⟩ = .wraps (.cls false false 2) ∧
    construct demo 0 ⟨.ptr false false (.fn 7), .prvalue⟩ = .wraps (.ptr false false (.fn 7)) ∧
    assign demo 0 ⟨.cls true false 1, .xvalue⟩ = .wraps (.cls true false 1) ∧
    assign demo 0 ⟨.cls false false 0, .xvalue⟩ = .moved ∧ construct demo 0 ⟨.cls true false 0, .prvalue⟩ = .same ∧
    assign demo 0 ⟨.fund true false .nullptr, .lvalue⟩ = .emptied ∧
    construct demo 0 ⟨.cls false false 2, .lvalue⟩ = .illFormed ∧ construct demo 0 ⟨.fn 7, .lvalue⟩ = .illFormed ∧
    construct demo 0 ⟨.cls false false 3, .prvalue⟩ = .illFormed ∧ assign demo 0 ⟨.fund false false .int, .prvalue⟩ = .illFormed ∧
    assign demo 0 ⟨.cls false false 0, .lvalue⟩ = .illFormed ∧
    bindConstruct demo 0 (.cls false false 2) 2 0 ⟨.cls false false 0, .lvalue⟩ = .copied ∧
    bindConstruct demo 0 (.cls false false 2) 2 2 ⟨.cls false false 2, .lvalue⟩ = .wraps (.cls false false 2) := by
  decide

/-- Non-vacuity: the lambda can be stored. -/
example : NoRef (.cls false false 2) ∧ ¬ IsSelf 0 (.cls false false 2) ∧ ¬ IsNull (.cls false false 2) ∧
    Storable demo (.cls false false 2) := by
  refine ⟨fun u => by simp, ?_, ?_, by unfold Storable; decide⟩
  · rintro ⟨c, v, h⟩; simp at h
  · rintro ⟨c, v, h⟩; cases h

end Verif.FnInit
