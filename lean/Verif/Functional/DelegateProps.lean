import Verif.Functional.DelegateSpec
import Mathlib.Logic.Equiv.Basic
import Mathlib.Tactic.Linarith

/-! # Properties of `Delegate` -/

set_option autoImplicit false

namespace Verif.Delegate

/-! ### The invariant -/

/-- The delegate `d` holds the callable `h` (or none). -/
def Rep (s : St) (d : D) : Option Nat → Prop
  | none => d.manager = none
  | some o => ∃ ty, d.manager = some ty ∧ d.callable = some ty ∧ s.objTy o = some ty ∧ s.dtors o = 0 ∧
      ((ty.isLocal = true ∧ d.storage = .inl o) ∨
        (ty.isLocal = false ∧ ∃ b, d.storage = .ptr b ∧ s.blkObj b = some o ∧ s.frees b = 0))

/-- `g` gives the live delegates, including (at `none`) a temporary. -/
structure Inv (s : St) (g : Option Nat → Option D) (a : Option Nat → Option (Option Nat)) : Prop where
  live : ∀ k, g k = none ↔ a k = none
  rep : ∀ k d h, g k = some d → a k = some h → Rep s d h
  uniq : ∀ k l o, a k = some (some o) → a l = some (some o) → k = l
  led : ∀ o ty, s.objTy o = some ty → (∃ k, a k = some (some o)) ∨ s.dtors o = 1
  blk : ∀ b o, s.blkObj b = some o → s.frees b = s.dtors o ∧ ∃ ty, s.objTy o = some ty ∧ ty.isLocal = false
  blkEx : ∀ o ty, s.objTy o = some ty → ty.isLocal = false → ∃ b, s.blkObj b = some o
  blkInj : ∀ b b' o, s.blkObj b = some o → s.blkObj b' = some o → b = b'
  obj0 : ∀ o, s.objTy o = none → s.dtors o = 0
  blk0 : ∀ b, s.blkObj b = none → s.frees b = 0
  fresh : ∀ n, s.next ≤ n → s.objTy n = none ∧ s.blkObj n = none

variable {s : St} {g : Option Nat → Option D} {a : Option Nat → Option (Option Nat)}

theorem Rep.held {d : D} {o : Nat} (h : Rep s d (some o)) : ∃ ty, s.objTy o = some ty ∧ s.dtors o = 0 := by
  obtain ⟨ty, -, -, h1, h2, -⟩ := h; exact ⟨ty, h1, h2⟩

theorem Inv.get (h : Inv s g a) {k : Option Nat} (hk : a k ≠ none) : ∃ d x, g k = some d ∧ a k = some x ∧ Rep s d x := by
  obtain ⟨x, hx⟩ := Option.ne_none_iff_exists'.1 hk
  obtain ⟨d, hd⟩ := Option.ne_none_iff_exists'.1 fun e => hk ((h.live k).1 e)
  exact ⟨d, x, hd, hx, h.rep k d x hd hx⟩

/-- An empty delegate comes into being, or replaces one that holds nothing. -/
theorem Inv.setEmpty (h : Inv s g a) {k : Option Nat} (hk : a k = none ∨ a k = some none) {d : D}
    (hd : d.manager = none) : Inv s (Function.update g k (some d)) (Function.update a k (some none)) := by
  constructor
  · intro l; by_cases e : l = k
    · subst e; simp
    · simp [e, h.live l]
  · intro l d' x h1 h2
    by_cases e : l = k
    · subst e; simp at h1 h2; subst h1 h2; exact hd
    · simp [e] at h1 h2; exact h.rep l d' x h1 h2
  · intro l l' o h1 h2
    by_cases e : l = k
    · subst e; simp at h1
    · by_cases e' : l' = k
      · subst e'; simp at h2
      · simp [e] at h1; simp [e'] at h2; exact h.uniq l l' o h1 h2
  · intro o ty ho
    rcases h.led o ty ho with ⟨l, hl⟩ | h1
    · refine .inl ⟨l, ?_⟩
      by_cases e : l = k
      · subst e; rcases hk with hk | hk <;> rw [hk] at hl <;> cases hl
      · simpa [e] using hl
    · exact .inr h1
  · exact h.blk
  · exact h.blkEx
  · exact h.blkInj
  · exact h.obj0
  · exact h.blk0
  · exact h.fresh

/-- A delegate that holds nothing goes away. -/
theorem Inv.dropEmpty (h : Inv s g a) {k : Option Nat} (hk : a k = some none) :
    Inv s (Function.update g k none) (Function.update a k none) := by
  constructor
  · intro l; by_cases e : l = k
    · subst e; simp
    · simp [e, h.live l]
  · intro l d' x h1 h2
    by_cases e : l = k
    · subst e; simp at h1
    · simp [e] at h1 h2; exact h.rep l d' x h1 h2
  · intro l l' o h1 h2
    by_cases e : l = k
    · subst e; simp at h1
    · by_cases e' : l' = k
      · subst e'; simp at h2
      · simp [e] at h1; simp [e'] at h2; exact h.uniq l l' o h1 h2
  · intro o ty ho
    rcases h.led o ty ho with ⟨l, hl⟩ | h1
    · refine .inl ⟨l, ?_⟩
      by_cases e : l = k
      · subst e; rw [hk] at hl; cases hl
      · simpa [e] using hl
    · exact .inr h1
  · exact h.blk
  · exact h.blkEx
  · exact h.blkInj
  · exact h.obj0
  · exact h.blk0
  · exact h.fresh

/-- Two delegates (or a delegate and nothing) change places. -/
theorem Inv.exchange (h : Inv s g a) (k l : Option Nat) :
    Inv s (fun x => g (Equiv.swap k l x)) (fun x => a (Equiv.swap k l x)) where
  live x := h.live _
  rep x := h.rep _
  uniq x y o h1 h2 := (Equiv.swap k l).injective (h.uniq _ _ o h1 h2)
  led o ty ho := by
    rcases h.led o ty ho with ⟨x, hx⟩ | h1
    · exact .inl ⟨Equiv.swap k l x, by simpa using hx⟩
    · exact .inr h1
  blk := h.blk
  blkEx := h.blkEx
  blkInj := h.blkInj
  obj0 := h.obj0
  blk0 := h.blk0
  fresh := h.fresh

/-- The representation of a delegate that holds something may be changed to an equivalent one. -/
theorem Inv.setRep (h : Inv s g a) {k : Option Nat} {x : Option Nat} (hk : a k = some x) {d : D} (hd : Rep s d x) :
    Inv s (Function.update g k (some d)) a where
  live l := by
    by_cases e : l = k
    · subst e; simp [hk]
    · simp [e, h.live l]
  rep l d' y h1 h2 := by
    by_cases e : l = k
    · subst e; simp at h1; subst h1; rw [hk] at h2; cases h2; exact hd
    · simp [e] at h1; exact h.rep l d' y h1 h2
  uniq := h.uniq
  led := h.led
  blk := h.blk
  blkEx := h.blkEx
  blkInj := h.blkInj
  obj0 := h.obj0
  blk0 := h.blk0
  fresh := h.fresh

theorem Rep.mono {s' : St} {d : D} {x : Option Nat} (h : Rep s d x)
    (h1 : ∀ o ty, x = some o → s.objTy o = some ty → s'.objTy o = some ty)
    (h2 : ∀ o, x = some o → s.dtors o = 0 → s'.dtors o = 0)
    (h3 : ∀ b o, x = some o → s.blkObj b = some o → s'.blkObj b = some o)
    (h4 : ∀ b o, x = some o → s.blkObj b = some o → s.frees b = 0 → s'.frees b = 0) : Rep s' d x := by
  cases x with
  | none => exact h
  | some o =>
    obtain ⟨ty, e1, e2, e3, e4, e5⟩ := h
    refine ⟨ty, e1, e2, h1 o ty rfl e3, h2 o rfl e4, e5.imp id ?_⟩
    rintro ⟨e6, b, e7, e8, e9⟩
    exact ⟨e6, b, e7, h3 b o rfl e8, h4 b o rfl e8 e9⟩

theorem createFunctor_dels (ty : Ty) (s : St) : (createFunctor ty s).1.dels = s.dels := by
  unfold createFunctor construct; split <;> rfl

/-- A callable is constructed and given to a new delegate. -/
theorem Inv.create (h : Inv s g a) (ty : Ty) {k : Option Nat} (hk : a k = none) :
    Inv (createFunctor ty s).1 (Function.update g k (some ⟨(createFunctor ty s).2, some ty, some ty⟩))
      (Function.update a k (some (some s.next))) := by
  have f0 := h.fresh s.next (Nat.le_refl _)
  have f1 := h.fresh (s.next + 1) (by omega)
  have hlt : ∀ o ty, s.objTy o = some ty → o ≠ s.next := by
    rintro o ty ho rfl; rw [f0.1] at ho; cases ho
  have hheld : ∀ l o, a l = some (some o) → ∃ ty, s.objTy o = some ty := by
    intro l o hl
    obtain ⟨d, x, -, hx, hr⟩ := h.get (k := l) (by rw [hl]; simp)
    rw [hl] at hx; cases hx
    obtain ⟨ty, h1, -⟩ := hr.held; exact ⟨ty, h1⟩
  have hobj : ∀ o, (createFunctor ty s).1.objTy o = if o = s.next then some ty else s.objTy o := by
    intro o
    unfold createFunctor construct
    by_cases e : o = s.next <;> split <;> simp [e]
  have hdt : (createFunctor ty s).1.dtors = s.dtors := by
    unfold createFunctor construct; split <;> rfl
  have hfr : (createFunctor ty s).1.frees = s.frees := by
    unfold createFunctor construct; split <;> rfl
  have hblk : ∀ b, (createFunctor ty s).1.blkObj b =
      if ty.isLocal = false ∧ b = s.next + 1 then some s.next else s.blkObj b := by
    intro b
    unfold createFunctor construct
    cases hl : ty.isLocal
    · by_cases e : b = s.next + 1 <;> simp [e]
    · simp
  have hnext : s.next + 1 ≤ (createFunctor ty s).1.next ∧
      (ty.isLocal = false → s.next + 2 ≤ (createFunctor ty s).1.next) := by
    unfold createFunctor construct
    cases hl : ty.isLocal <;> simp
  have hbn : ∀ b o, s.blkObj b = some o → (createFunctor ty s).1.blkObj b = some o := by
    intro b o hb
    rw [hblk, if_neg ?_]; exact hb
    rintro ⟨-, rfl⟩; rw [f1.2] at hb; cases hb
  constructor
  · intro l; by_cases e : l = k
    · subst e; simp
    · simp [e, h.live l]
  · intro l d' x h1 h2
    by_cases e : l = k
    · subst e
      simp at h1 h2; subst h1 h2
      refine ⟨ty, rfl, rfl, by rw [hobj]; simp, by rw [hdt]; exact h.obj0 _ f0.1, ?_⟩
      cases hl : ty.isLocal
      · refine .inr ⟨rfl, s.next + 1, ?_, by rw [hblk]; simp [hl], by rw [hfr]; exact h.blk0 _ f1.2⟩
        simp [createFunctor, hl, construct]
      · exact .inl ⟨rfl, by simp [createFunctor, hl]⟩
    · simp [e] at h1 h2
      refine (h.rep l d' x h1 h2).mono ?_ ?_ ?_ ?_
      · intro o ty' _ ho; rw [hobj, if_neg (hlt o ty' ho)]; exact ho
      · intro o _; rw [hdt]; exact id
      · intro b o _; exact hbn b o
      · intro b o _ _; rw [hfr]; exact id
  · intro l l' o h1 h2
    by_cases e : l = k
    · by_cases e' : l' = k
      · rw [e, e']
      · subst e; simp at h1; subst h1; simp [e'] at h2
        obtain ⟨ty', h3⟩ := hheld _ _ h2
        exact absurd rfl (hlt _ _ h3)
    · by_cases e' : l' = k
      · subst e'; simp at h2; subst h2; simp [e] at h1
        obtain ⟨ty', h3⟩ := hheld _ _ h1
        exact absurd rfl (hlt _ _ h3)
      · simp [e] at h1; simp [e'] at h2; exact h.uniq l l' o h1 h2
  · intro o ty' ho
    rw [hobj] at ho
    by_cases e : o = s.next
    · exact .inl ⟨k, by simp [e]⟩
    · rw [if_neg e] at ho
      rcases h.led o ty' ho with ⟨l, hl⟩ | h1
      · refine .inl ⟨l, ?_⟩
        by_cases e' : l = k
        · subst e'; rw [hk] at hl; cases hl
        · simpa [e'] using hl
      · exact .inr (by rw [hdt]; exact h1)
  · intro b o hb
    rw [hblk] at hb
    rw [hfr, hdt, hobj]
    split at hb
    · rename_i hc
      cases hb
      rw [hc.2, h.blk0 _ f1.2, h.obj0 _ f0.1]
      exact ⟨rfl, ty, by simp, hc.1⟩
    · obtain ⟨h1, ty', h2, h3⟩ := h.blk b o hb
      exact ⟨h1, ty', by rw [if_neg (hlt o ty' h2)]; exact h2, h3⟩
  · intro o ty' ho hl
    rw [hobj] at ho
    by_cases e : o = s.next
    · rw [if_pos e] at ho; cases ho
      exact ⟨s.next + 1, by rw [hblk, if_pos ⟨hl, rfl⟩, e]⟩
    · rw [if_neg e] at ho
      obtain ⟨b, hb⟩ := h.blkEx o ty' ho hl
      exact ⟨b, hbn b o hb⟩
  · intro b b' o h1 h2
    rw [hblk] at h1 h2
    split at h1 <;> split at h2
    · rename_i c1 c2; rw [c1.2, c2.2]
    · cases h1
      obtain ⟨-, ty', h3, -⟩ := h.blk _ _ h2
      exact absurd rfl (hlt _ _ h3)
    · cases h2
      obtain ⟨-, ty', h3, -⟩ := h.blk _ _ h1
      exact absurd rfl (hlt _ _ h3)
    · exact h.blkInj b b' o h1 h2
  · intro o ho
    rw [hobj] at ho
    rw [hdt]
    split at ho
    · cases ho
    · exact h.obj0 o ho
  · intro b hb
    rw [hblk] at hb
    rw [hfr]
    split at hb
    · cases hb
    · exact h.blk0 b hb
  · intro n hn
    rw [hobj, hblk, if_neg (by omega), if_neg]
    · exact h.fresh n (by omega)
    · rintro ⟨hl, rfl⟩; have := hnext.2 hl; omega

/-- The destructor of a delegate: afterwards it holds nothing any more. -/
theorem Inv.destroy (h : Inv s g a) {k : Option Nat} {d : D} {x : Option Nat} (hg : g k = some d)
    (hk : a k = some x) (d' : D) (hd' : d'.manager = none) :
    ∃ s', d.dtor s = some s' ∧ s'.dels = s.dels ∧ s'.calls = s.calls ∧ s'.next = s.next ∧
      Inv s' (Function.update g k (some d')) (Function.update a k (some none)) := by
  have hr := h.rep k d x hg hk
  cases x with
  | none =>
    refine ⟨s, ?_, rfl, rfl, rfl, h.setEmpty (.inr hk) hd'⟩
    have : d.manager = none := hr
    unfold D.dtor; rw [this]
  | some o =>
    obtain ⟨ty, e1, -, e3, e4, e5⟩ := hr
    have hdo : destroyObj ty o s = some { s with dtors := Function.update s.dtors o (s.dtors o + 1) } := by
      unfold destroyObj; rw [if_pos ⟨e3, e4⟩]
    have key : ∀ s' : St, s'.objTy = s.objTy → s'.blkObj = s.blkObj → s'.next = s.next →
        s'.dtors = Function.update s.dtors o (s.dtors o + 1) →
        (∀ b, s'.frees b = if s.blkObj b = some o then 1 else s.frees b) →
        Inv s' (Function.update g k (some d')) (Function.update a k (some none)) := by
      intro s' q1 q2 q3 q4 q5
      have hne : ∀ l o', l ≠ k → a l = some (some o') → o' ≠ o := by
        rintro l o' hl h1 rfl; exact hl (h.uniq _ _ _ h1 hk)
      constructor
      · intro l; by_cases e : l = k
        · subst e; simp
        · simp [e, h.live l]
      · intro l d'' y h1 h2
        by_cases e : l = k
        · subst e; simp at h1 h2; subst h1 h2; exact hd'
        · simp [e] at h1 h2
          refine (h.rep l d'' y h1 h2).mono ?_ ?_ ?_ ?_
          · intro o' ty' _; rw [q1]; exact id
          · intro o' ho' h3; subst ho'; rw [q4, Function.update_of_ne (hne l o' e h2)]; exact h3
          · intro b o' _; rw [q2]; exact id
          · intro b o' ho' h3 h4; subst ho'
            rw [q5, if_neg]; exact h4
            rw [h3]; intro e6; cases e6; exact hne l o e h2 rfl
      · intro l l' o' h1 h2
        by_cases e : l = k
        · subst e; simp at h1
        · by_cases e' : l' = k
          · subst e'; simp at h2
          · simp [e] at h1; simp [e'] at h2; exact h.uniq l l' o' h1 h2
      · intro o' ty' ho
        rw [q1] at ho
        by_cases eo : o' = o
        · subst eo; right; rw [q4]; simp [e4]
        · rcases h.led o' ty' ho with ⟨l, hl⟩ | h1
          · refine .inl ⟨l, ?_⟩
            by_cases e : l = k
            · subst e; rw [hk] at hl; cases hl; exact absurd rfl eo
            · simpa [e] using hl
          · right; rw [q4, Function.update_of_ne eo]; exact h1
      · intro b o' hb
        rw [q2] at hb
        obtain ⟨h1, ty', h2, h3⟩ := h.blk b o' hb
        refine ⟨?_, ty', by rw [q1]; exact h2, h3⟩
        rw [q5, q4]
        by_cases eo : o' = o
        · subst eo; rw [if_pos hb]; simp [e4]
        · rw [if_neg (by rw [hb]; intro e; cases e; exact eo rfl), Function.update_of_ne eo]; exact h1
      · intro o' ty' ho hl; rw [q1] at ho; rw [q2]; exact h.blkEx o' ty' ho hl
      · rw [q2]; exact h.blkInj
      · intro o' ho; rw [q1] at ho; rw [q4, Function.update_of_ne]; exact h.obj0 o' ho
        rintro rfl; rw [e3] at ho; cases ho
      · intro b hb; rw [q2] at hb; rw [q5, if_neg (by rw [hb]; simp)]; exact h.blk0 b hb
      · intro n hn; rw [q3] at hn; rw [q1, q2]; exact h.fresh n hn
    unfold D.dtor
    rw [e1]
    simp only [destroyFunctor]
    rcases e5 with ⟨hl, hs⟩ | ⟨hl, b, hs, hb, hf⟩
    · refine ⟨{ s with dtors := Function.update s.dtors o (s.dtors o + 1) }, by rw [if_pos hl, hs]; exact hdo,
        rfl, rfl, rfl, key _ rfl rfl rfl rfl ?_⟩
      intro b
      rw [if_neg]
      intro hb
      obtain ⟨-, ty', h2, h3⟩ := h.blk b o hb
      rw [e3] at h2; cases h2; rw [hl] at h3; cases h3
    · refine ⟨{ s with dtors := Function.update s.dtors o (s.dtors o + 1), frees := Function.update s.frees b (s.frees b + 1) },
        by rw [if_neg (by simp [hl]), hs]; simp only [hb, if_pos hf, hdo, Option.map_some], rfl, rfl, rfl, key _ rfl rfl rfl rfl ?_⟩
      intro b'
      by_cases e : b' = b
      · subst e; simp [hb, hf]
      · rw [if_neg]
        · simp [e]
        · intro hb'; exact e (h.blkInj _ _ _ hb' hb)

/-! ### Steps -/

def gOf (s : St) : Option Nat → Option D := fun k => k.elim none s.dels
def aOf (a : Spec) : Option Nat → Option (Option Nat) := fun k => k.elim none a

def Good (s : St) (a : Spec) : Prop := Inv s (gOf s) (aOf a)

theorem update_gOf (s : St) (i : Nat) (d : Option D) : Function.update (gOf s) (some i) d = gOf (s.set i d) := by
  funext k
  cases k with
  | none => rfl
  | some j => by_cases e : j = i <;> simp [gOf, St.set, Function.update, e]

theorem update_aOf (a : Spec) (i : Nat) (x : Option (Option Nat)) :
    Function.update (aOf a) (some i) x = aOf (Function.update a i x) := by
  funext k
  cases k with
  | none => rfl
  | some j => by_cases e : j = i <;> simp [aOf, Function.update, e]

/-- The invariant looks at the delegates through `g` only. -/
theorem Inv.congr (h : Inv s g a) {s' : St} {g' : Option Nat → Option D} {a' : Option Nat → Option (Option Nat)}
    (h1 : s'.objTy = s.objTy) (h2 : s'.dtors = s.dtors) (h3 : s'.blkObj = s.blkObj) (h4 : s'.frees = s.frees)
    (h5 : s'.next = s.next) (hg : g' = g) (ha : a' = a) : Inv s' g' a' := by
  subst hg ha
  exact {
    live := h.live
    rep := fun k d x e1 e2 => (h.rep k d x e1 e2).mono (fun _ _ _ => by rw [h1]; exact id)
      (fun _ _ => by rw [h2]; exact id) (fun _ _ _ => by rw [h3]; exact id) (fun _ _ _ _ => by rw [h4]; exact id)
    uniq := h.uniq
    led := by rw [h1, h2]; exact h.led
    blk := by rw [h1, h2, h3, h4]; exact h.blk
    blkEx := by rw [h1, h3]; exact h.blkEx
    blkInj := by rw [h3]; exact h.blkInj
    obj0 := by rw [h1, h2]; exact h.obj0
    blk0 := by rw [h3, h4]; exact h.blk0
    fresh := by rw [h1, h3, h5]; exact h.fresh }

theorem good_init : Good .init .init := by
  have hg : ∀ k, gOf .init k = none := fun k => by cases k <;> rfl
  have ha : ∀ k, aOf .init k = none := fun k => by cases k <;> rfl
  constructor
  · intro k; simp [hg, ha]
  · intro k d x h; rw [hg] at h; cases h
  · intro k l o h; rw [ha] at h; cases h
  · intro o ty h; cases h
  · intro b o h; cases h
  · intro o ty h; cases h
  · intro b b' o h; cases h
  · intro o _; rfl
  · intro b _; rfl
  · intro n _; exact ⟨rfl, rfl⟩

theorem move_rep {d : D} {x : Option Nat} (h : Rep s d x) : Rep s (D.move d).1 x ∧ (D.move d).2.manager = none := by
  cases x with
  | none =>
    have : d.manager = none := h
    simp [D.move, this, Rep]
  | some o =>
    obtain ⟨ty, e1, e2, e3⟩ := h
    unfold D.move
    rw [e1]
    exact ⟨⟨ty, rfl, e2, e3⟩, rfl⟩

theorem swap_at {β : Type} (f : Option Nat → β) {k l x : Option Nat} (h1 : x ≠ k) (h2 : x ≠ l) :
    f (Equiv.swap k l x) = f x := by rw [Equiv.swap_apply_of_ne_of_ne h1 h2]

/-- A delegate is moved into a new one. -/
theorem Inv.moveTo (h : Inv s g a) {k l : Option Nat} (hk : a k = none) {d : D} {x : Option Nat} (hg : g l = some d)
    (hl : a l = some x) :
    Inv s (Function.update (Function.update g k (some (D.move d).1)) l (some (D.move d).2))
      (Function.update (Function.update a k (a l)) l (some none)) := by
  have hkl : k ≠ l := by rintro rfl; rw [hk] at hl; cases hl
  obtain ⟨r1, r2⟩ := move_rep (h.rep l d x hg hl)
  have h1 := h.exchange k l
  have h2 := h1.setRep (k := k) (x := x) (by simpa using hl) r1
  have h3 := h2.setEmpty (k := l) (.inl (by simpa using hk)) r2
  refine h3.congr rfl rfl rfl rfl rfl ?_ ?_
  · funext y
    by_cases e1 : y = l
    · subst e1; simp
    · by_cases e2 : y = k
      · subst e2; simp [e1]
      · simp only [Function.update_of_ne e1, Function.update_of_ne e2]
        exact (swap_at g e2 e1).symm
  · funext y
    by_cases e1 : y = l
    · subst e1; simp
    · by_cases e2 : y = k
      · subst e2; simp [e1]
      · simp only [Function.update_of_ne e1, Function.update_of_ne e2]
        exact (swap_at a e2 e1).symm

/-- The temporary changes places with delegate `i` and is destroyed. -/
theorem Inv.assignTail (h : Inv s g a) {i : Nat} {tmp this : D} {x y : Option Nat} (hn : g none = some tmp)
    (hx : a none = some x) (hi : g (some i) = some this) (hy : a (some i) = some y) :
    ∃ s', this.dtor s = some s' ∧ s'.dels = s.dels ∧ s'.calls = s.calls ∧ s'.next = s.next ∧
      Inv s' (Function.update (Function.update g (some i) (some tmp)) none none)
        (Function.update (Function.update a (some i) (some x)) none none) := by
  have h1 := h.exchange none (some i)
  obtain ⟨s', e1, e2, e3, e4, h2⟩ := h1.destroy (k := none) (d := this) (x := y) (by simpa using hi)
    (by simpa using hy) .default rfl
  refine ⟨s', e1, e2, e3, e4, (h2.dropEmpty (k := none) (by simp)).congr rfl rfl rfl rfl rfl ?_ ?_⟩
  · funext z
    cases z with
    | none => simp
    | some z =>
      by_cases ez : z = i
      · subst ez; simp [hn]
      · have e : (some z : Option Nat) ≠ some i := by simpa using ez
        simp only [Function.update_of_ne (Option.some_ne_none z), Function.update_of_ne e]
        exact (swap_at g (by simp) e).symm
  · funext z
    cases z with
    | none => simp
    | some z =>
      by_cases ez : z = i
      · subst ez; simp [hx]
      · have e : (some z : Option Nat) ≠ some i := by simpa using ez
        simp only [Function.update_of_ne (Option.some_ne_none z), Function.update_of_ne e]
        exact (swap_at a (by simp) e).symm

theorem Good.get {a : Spec} (h : Good s a) {i : Nat} (hi : a i ≠ none) :
    ∃ d x, s.dels i = some d ∧ a i = some x ∧ Rep s d x := Inv.get h (k := some i) hi

theorem Good.none {a : Spec} (h : Good s a) {i : Nat} (hi : a i = .none) : s.dels i = .none :=
  (Inv.live h (some i)).2 hi

/-- The callables invoked by a step. -/
def invoked (a : Spec) (op : Op) (cs : List Nat) : List Nat :=
  match op with
  | .call i =>
    match a i with
    | some (some o) => o :: cs
    | _ => cs
  | _ => cs

/-- `call` on an empty delegate. -/
def callsEmpty (a : Spec) (op : Op) : Prop :=
  match op with
  | .call i => a i = some none
  | _ => False

theorem St.set_self (s : St) (i : Nat) : s.set i (s.dels i) = s := by
  unfold St.set; rw [Function.update_eq_self]

theorem ofFn_inv {a : Option Nat → Option (Option Nat)} (h : Inv s g a) (ty : Ty) (isNull : Bool) {k : Option Nat}
    (hk : a k = none) :
    Inv (D.ofFn ty isNull s).1 (Function.update g k (some (D.ofFn ty isNull s).2))
      (Function.update a k (some (if isNull then none else some s.next))) ∧
    (D.ofFn ty isNull s).1.dels = s.dels ∧ (D.ofFn ty isNull s).1.calls = s.calls := by
  cases isNull with
  | true => exact ⟨h.setEmpty (.inl hk) rfl, rfl, rfl⟩
  | false =>
    refine ⟨h.create ty hk, createFunctor_dels ty s, ?_⟩
    show (createFunctor ty s).1.calls = _
    unfold createFunctor construct; split <;> rfl

theorem step_good {a : Spec} (h : Good s a) {op : Op} (hl : legal a op) :
    (∃ s', step op s = .ok s' ∧ Good s' (spec s.next a op) ∧ s'.calls = invoked a op s.calls ∧ ¬ callsEmpty a op) ∨
      (step op s = .badCall s ∧ callsEmpty a op) := by
  cases op with
  | default i =>
    left
    refine ⟨s.set i (some .default), by simp [step, h.none hl], ?_, rfl, id⟩
    have := Inv.setEmpty h (k := some i) (.inl hl) (d := .default) rfl
    rw [update_gOf, update_aOf] at this
    exact this.congr rfl rfl rfl rfl rfl rfl rfl
  | fn i ty isNull =>
    left
    obtain ⟨h1, h2, h3⟩ := ofFn_inv h ty isNull (k := some i) hl
    refine ⟨(D.ofFn ty isNull s).1.set i (some (D.ofFn ty isNull s).2), by simp [step, h.none hl], ?_, h3, id⟩
    rw [update_aOf] at h1
    refine h1.congr rfl rfl rfl rfl rfl ?_ rfl
    rw [← update_gOf]
    unfold gOf
    rw [h2]
  | move i j =>
    left
    obtain ⟨d, x, hd, hx, hr⟩ := h.get hl.2
    have h1 := Inv.moveTo h (k := some i) (l := some j) hl.1 hd hx
    refine ⟨(s.set i (some (D.move d).1)).set j (some (D.move d).2), by simp [step, h.none hl.1, hd], ?_, rfl, id⟩
    refine h1.congr rfl rfl rfl rfl rfl ?_ ?_
    · rw [← update_gOf, ← update_gOf]
    · show aOf (Function.update (Function.update a i (a j)) j (some none)) = _
      rw [← update_aOf, ← update_aOf]; rfl
  | dtor i =>
    left
    obtain ⟨d, x, hd, hx, hr⟩ := h.get hl
    obtain ⟨s', e1, e2, e3, e4, h1⟩ := Inv.destroy h (k := some i) hd hx .default rfl
    refine ⟨s'.set i none, by simp [step, hd, e1], ?_, e3, id⟩
    have h2 := h1.dropEmpty (k := some i) (by simp)
    simp only [Function.update_idem] at h2
    refine h2.congr rfl rfl rfl rfl rfl ?_ ?_
    · rw [← update_gOf]; unfold gOf; rw [e2]
    · exact (update_aOf _ _ _).symm
  | assignMove i j =>
    left
    obtain ⟨di, xi, hdi, hxi, -⟩ := h.get hl.1
    obtain ⟨d, x, hd, hx, hr⟩ := h.get hl.2
    have h1 := Inv.moveTo h (k := none) (l := some j) rfl hd hx
    have hthis : ∃ this y, (s.set j (some (D.move d).2)).dels i = some this ∧
        Function.update (Function.update (gOf s) none (some (D.move d).1)) (some j) (some (D.move d).2) (some i) = some this ∧
        Function.update (Function.update (aOf a) none (aOf a (some j))) (some j) (some none) (some i) = some y := by
      by_cases e : i = j
      · subst e; exact ⟨(D.move d).2, none, by simp [St.set], by simp, by simp⟩
      · exact ⟨di, xi, by simp [St.set, e, hdi], by simpa [e, gOf] using hdi, by simpa [e, aOf] using hxi⟩
    obtain ⟨this, y, t1, t2, t3⟩ := hthis
    have h1' : Inv ((s.set j (some (D.move d).2)).set i (some (D.move d).1)) _ _ := h1.congr rfl rfl rfl rfl rfl rfl rfl
    obtain ⟨s', e1, e2, e3, e4, h2⟩ := h1'.assignTail (i := i) (tmp := (D.move d).1) (this := this) (x := x) (y := y)
      (by simp) (by simpa [aOf] using hx) t2 t3
    refine ⟨s', ?_, ?_, e3, id⟩
    · simp only [step, hdi, hd, t1]
      simp only [D.swap]
      rw [e1]
    · refine h2.congr rfl rfl rfl rfl rfl ?_ ?_
      · funext z
        cases z with
        | none => simp [gOf]
        | some z =>
          show s'.dels z = _
          rw [e2]
          by_cases ez : z = i
          · subst ez; simp [St.set]
          · by_cases ej : z = j
            · subst ej; simp [St.set, ez]
            · simp [St.set, ez, ej, gOf]
      · funext z
        cases z with
        | none => simp [aOf]
        | some z =>
          show spec s.next a (.assignMove i j) z = _
          unfold spec
          by_cases eij : i = j
          · subst eij
            by_cases ez : z = i
            · subst ez; simp [hx]
            · simp [ez, aOf]
          · simp only [if_neg eij]
            by_cases ez : z = i
            · subst ez; simp [eij, hx]
            · by_cases ej : z = j
              · subst ej; simp [ez]
              · simp [ez, ej, aOf]
  | assignNull i =>
    left
    obtain ⟨d, x, hd, hx, hr⟩ := h.get hl
    cases x with
    | none =>
      have hm : d.manager = none := hr
      refine ⟨s, by simp only [step, hd, D.assignNull, hm]; rw [← hd, St.set_self], ?_, rfl, id⟩
      show Good s (Function.update a i (some none))
      rw [← hx, Function.update_eq_self]; exact h
    | some o =>
      obtain ⟨ty, e1, e2, e3, e4, e5⟩ := hr
      obtain ⟨s', f1, f2, f3, f4, h1⟩ := Inv.destroy h (k := some i) hd hx { d with manager := none, callable := none } rfl
      unfold D.dtor at f1
      simp only [e1] at f1
      refine ⟨s'.set i (some { d with manager := none, callable := none }), ?_, ?_, f3, id⟩
      · simp [step, hd, D.assignNull, e1, f1]
      · refine h1.congr rfl rfl rfl rfl rfl ?_ ?_
        · rw [← update_gOf]; unfold gOf; rw [f2]
        · exact (update_aOf _ _ _).symm
  | assignFn i ty isNull =>
    left
    obtain ⟨this, y, hd, hy, hr⟩ := h.get hl
    obtain ⟨h1, h2, h3⟩ := ofFn_inv h ty isNull (k := none) rfl
    have h1' : Inv ((D.ofFn ty isNull s).1.set i (some (D.ofFn ty isNull s).2)) _ _ :=
      h1.congr rfl rfl rfl rfl rfl rfl rfl
    obtain ⟨s', e1, e2, e3, e4, h4⟩ := h1'.assignTail (i := i) (tmp := (D.ofFn ty isNull s).2) (this := this)
      (x := if isNull then none else some s.next) (y := y) (by simp) (by simp) (by simpa [gOf] using hd)
      (by simpa [aOf] using hy)
    refine ⟨s', ?_, ?_, e3.trans h3, id⟩
    · simp only [step, hd, D.swap]
      rw [e1]
    · refine h4.congr rfl rfl rfl rfl rfl ?_ ?_
      · funext z
        cases z with
        | none => simp [gOf]
        | some z =>
          show s'.dels z = _
          rw [e2]
          by_cases ez : z = i
          · subst ez; simp [St.set]
          · simp [St.set, ez, gOf, h2]
      · funext z
        cases z with
        | none => simp [aOf]
        | some z =>
          show spec s.next a (.assignFn i ty isNull) z = _
          by_cases ez : z = i
          · subst ez; simp [spec]
          · simp [spec, ez, aOf]
  | swap i j =>
    left
    obtain ⟨d, x, hd, hx, -⟩ := h.get hl.1
    obtain ⟨d', x', hd', hx', -⟩ := h.get hl.2
    refine ⟨(s.set i (some d')).set j (some d), by simp [step, hd, hd', D.swap], ?_, rfl, id⟩
    refine (Inv.exchange h (some i) (some j)).congr rfl rfl rfl rfl rfl ?_ ?_
    · funext z
      cases z with
      | none => rw [Equiv.swap_apply_of_ne_of_ne (by simp) (by simp)]; rfl
      | some z =>
        by_cases ej : z = j
        · subst ej; simp [gOf, St.set, hd]
        · by_cases ez : z = i
          · subst ez; simp [gOf, St.set, ej, hd']
          · rw [Equiv.swap_apply_of_ne_of_ne (by simpa using ez) (by simpa using ej)]; simp [gOf, St.set, ez, ej]
    · funext z
      cases z with
      | none => rw [Equiv.swap_apply_of_ne_of_ne (by simp) (by simp)]; rfl
      | some z =>
        by_cases ej : z = j
        · subst ej; simp [aOf, spec]
        · by_cases ez : z = i
          · subst ez; simp [aOf, spec, ej]
          · rw [Equiv.swap_apply_of_ne_of_ne (by simpa using ez) (by simpa using ej)]; simp [aOf, spec, ez, ej]
  | call i =>
    obtain ⟨d, x, hd, hx, hr⟩ := h.get hl
    cases x with
    | none =>
      right
      have hm : d.manager = none := hr
      exact ⟨by simp [step, hd, D.call, hm], hx⟩
    | some o =>
      left
      refine ⟨{ s with calls := o :: s.calls }, ?_, h.congr rfl rfl rfl rfl rfl rfl rfl, by simp [invoked, hx],
        by simp [callsEmpty, hx]⟩
      obtain ⟨ty, e1, e2, e3, e4, e5⟩ := hr
      have : invoke ty d.storage s = some { s with calls := o :: s.calls } := by
        unfold invoke handleOf
        rcases e5 with ⟨hl, hs⟩ | ⟨hl, b, hs, hb, hf⟩
        · simp [hl, hs, e3, e4]
        · simp [hl, hs, hb, hf, e3, e4]
      simp [step, hd, D.call, e1, e2, this]

theorem reach_good {a : Spec} (h : Reach s a) : Good s a := by
  induction h with
  | init => exact good_init
  | step _ hl hs ih =>
    rcases step_good ih hl with ⟨s', h1, h2, -⟩ | ⟨h1, -⟩
    · rw [h1] at hs; cases hs; exact h2
    · rw [h1] at hs; cases hs
  | caught _ hl hs ih =>
    rcases step_good ih hl with ⟨s', h1, h2, -⟩ | ⟨h1, -⟩
    · rw [h1] at hs; cases hs
    · rw [h1] at hs; cases hs; exact ih

/-! ### The properties -/

/-- C43, C44. No history runs into undefined behaviour: nothing is destroyed or freed twice, nothing destroyed is
called. -/
theorem delegate_defined {a : Spec} (h : Reach s a) {op : Op} (hl : legal a op) :
    (∃ s', step op s = .ok s') ∨ step op s = .badCall s := by
  rcases step_good (reach_good h) hl with ⟨s', h1, -⟩ | ⟨h1, -⟩
  · exact .inl ⟨s', h1⟩
  · exact .inr h1

/-- C43. Every callable ever stored is either held by exactly one live delegate and not yet destroyed, or held by
none and destroyed exactly once. -/
theorem delegate_destroys_once {a : Spec} (h : Reach s a) {o : Nat} {ty : Ty} (ho : s.objTy o = some ty) :
    (s.dtors o = 0 ∧ ∃ i, a i = some (some o) ∧ ∀ j, a j = some (some o) → j = i) ∨
    (s.dtors o = 1 ∧ ∀ i, a i ≠ some (some o)) := by
  have hg := reach_good h
  rcases Inv.led hg o ty ho with ⟨k, hk⟩ | h1
  · cases k with
    | none => cases hk
    | some i =>
      left
      have hi : a i = some (some o) := hk
      obtain ⟨d, x, -, hx, hr⟩ := hg.get (i := i) (by rw [hi]; simp)
      rw [hi] at hx; cases hx
      obtain ⟨ty', -, h0⟩ := hr.held
      refine ⟨h0, i, hi, fun j hj => ?_⟩
      have := Inv.uniq hg (some j) (some i) o hj hi
      simpa using this
  · right
    refine ⟨h1, fun i hi => ?_⟩
    obtain ⟨d, x, -, hx, hr⟩ := hg.get (i := i) (by rw [hi]; simp)
    rw [hi] at hx; cases hx
    obtain ⟨ty', -, h0⟩ := hr.held
    omega

/-- C43. Every callable that does not fit the storage lies in exactly one block, freed exactly as often as the
callable was destroyed; and every block was allocated for such a callable. -/
theorem delegate_frees_once {a : Spec} (h : Reach s a) :
    (∀ o ty, s.objTy o = some ty → (16 < ty.size ∨ 8 < ty.align) →
      ∃ b, s.blkObj b = some o ∧ s.frees b = s.dtors o ∧ ∀ b', s.blkObj b' = some o → b' = b) ∧
    (∀ b o, s.blkObj b = some o → ∃ ty, s.objTy o = some ty ∧ (16 < ty.size ∨ 8 < ty.align)) := by
  have hg := reach_good h
  have hloc : ∀ ty : Ty, ty.isLocal = false ↔ (16 < ty.size ∨ 8 < ty.align) := by
    intro ty; simp [Ty.isLocal]; omega
  constructor
  · intro o ty ho hl
    obtain ⟨b, hb⟩ := Inv.blkEx hg o ty ho ((hloc ty).2 hl)
    exact ⟨b, hb, (Inv.blk hg b o hb).1, fun b' hb' => Inv.blkInj hg b' b o hb' hb⟩
  · intro b o hb
    obtain ⟨-, ty, h1, h2⟩ := Inv.blk hg b o hb
    exact ⟨ty, h1, (hloc ty).1 h2⟩

/-- C43. Once all delegates are gone, every callable was destroyed and every block freed, exactly once. -/
theorem delegate_no_leak {a : Spec} (h : Reach s a) (hall : ∀ i, a i = none) :
    (∀ o ty, s.objTy o = some ty → s.dtors o = 1) ∧ (∀ b o, s.blkObj b = some o → s.frees b = 1) := by
  have h1 : ∀ o ty, s.objTy o = some ty → s.dtors o = 1 := by
    intro o ty ho
    rcases delegate_destroys_once h ho with ⟨-, i, hi, -⟩ | ⟨h1, -⟩
    · rw [hall] at hi; cases hi
    · exact h1
  refine ⟨h1, fun b o hb => ?_⟩
  obtain ⟨e, ty, ho, -⟩ := Inv.blk (reach_good h) b o hb
  rw [e]; exact h1 o ty ho

/-- C44. A delegate that holds a callable calls exactly it - an object alive, and of the type whose call operator
is used - and converts to true; one that holds none throws
`std::bad_function_call` and converts to false. Which callable a delegate holds is what `spec` says. -/
theorem delegate_calls {a : Spec} (h : Reach s a) {i : Nat} {x : Option Nat} (hi : a i = some x) :
    ∃ d, s.dels i = some d ∧ d.toBool = x.isSome ∧
      match x with
      | some o => step (.call i) s = .ok { s with calls := o :: s.calls } ∧
          ∃ ty, d.callable = some ty ∧ s.objTy o = some ty ∧ s.dtors o = 0
      | none => step (.call i) s = .badCall s := by
  obtain ⟨d, y, hd, hy, hr⟩ := (reach_good h).get (i := i) (by rw [hi]; simp)
  rw [hi] at hy; cases hy
  refine ⟨d, hd, ?_, ?_⟩
  · cases x with
    | none => have : d.manager = none := hr; simp [D.toBool, this]
    | some o => obtain ⟨ty, e1, -⟩ := hr; simp [D.toBool, e1]
  · cases x with
    | none =>
      have hm : d.manager = none := hr
      simp [step, hd, D.call, hm]
    | some o =>
      obtain ⟨ty, e1, e2, e3, e4, e5⟩ := hr
      have : invoke ty d.storage s = some { s with calls := o :: s.calls } := by
        unfold invoke handleOf
        rcases e5 with ⟨hl, hs⟩ | ⟨hl, b, hs, hb, hf⟩
        · simp [hl, hs, e3, e4]
        · simp [hl, hs, hb, hf, e3, e4]
      exact ⟨by simp [step, hd, D.call, e1, e2, this], ty, e2, e3, e4⟩

/-- C44. Only calls invoke callables: no other operation changes the list of invocations. -/
theorem delegate_invokes_only_on_call {a : Spec} (h : Reach s a) {op : Op} (hl : legal a op) {s' : St}
    (hs : step op s = .ok s') (hop : ∀ i, op ≠ .call i) : s'.calls = s.calls := by
  rcases step_good (reach_good h) hl with ⟨s2, h1, -, h2, -⟩ | ⟨h1, -⟩
  · rw [h1] at hs; cases hs
    rw [h2]
    cases op <;> simp_all [invoked]
  · rw [h1] at hs; cases hs

/-- C44. The callable constructed by a step is a new object of the type given. -/
theorem delegate_new_callable {a : Spec} (h : Reach s a) {i : Nat} {ty : Ty} {s' : St}
    (hs : step (.fn i ty false) s = .ok s' ∨ step (.assignFn i ty false) s = .ok s') :
    s.objTy s.next = none ∧ s'.objTy s.next = some ty := by
  have hg := reach_good h
  have ho : (createFunctor ty s).1.objTy s.next = some ty := by
    unfold createFunctor construct; split <;> simp
  have keep : ∀ (d : D) (t t' : St), d.dtor t = some t' → t'.objTy = t.objTy := by
    intro d t t' e
    unfold D.dtor destroyFunctor destroyObj at e
    split at e
    · split at e
      · split at e
        · split at e
          · cases e; rfl
          · cases e
        · cases e
      · split at e
        · split at e
          · split at e
            · split at e
              · cases e; rfl
              · cases e
            · cases e
          · cases e
        · cases e
    · cases e; rfl
  refine ⟨(Inv.fresh hg s.next (Nat.le_refl _)).1, ?_⟩
  rcases hs with hs | hs
  · simp only [step, D.ofFn] at hs
    split at hs
    · cases hs; exact ho
    · cases hs
  · simp only [step, D.ofFn, D.swap] at hs
    split at hs
    · split at hs
      · rename_i e
        cases hs
        rw [keep _ _ _ e]; exact ho
      · cases hs
    · cases hs

/-- C45, what holds. The full claim is "`handle<F>()` points to the stored callable if the delegate holds an `F`, and
is null otherwise"; it holds for types that fit the storage. -/
theorem delegate_handle_partial {a : Spec} (h : Reach s a) {i : Nat} {x : Option Nat} (hi : a i = some x) (ty : Ty)
    (hl : ty.isLocal = true) :
    ∃ d, s.dels i = some d ∧
      ((∃ o, x = some o ∧ s.objTy o = some ty ∧ d.handle i ty = .storage i ∧ s.objAt (d.handle i ty) = some o) ∨
        ((∀ o, x = some o → s.objTy o ≠ some ty) ∧ d.handle i ty = .null)) := by
  obtain ⟨d, y, hd, hy, hr⟩ := (reach_good h).get (i := i) (by rw [hi]; simp)
  rw [hi] at hy; cases hy
  refine ⟨d, hd, ?_⟩
  cases x with
  | none =>
    have hm : d.manager = none := hr
    exact .inr ⟨by simp, by simp [D.handle, hm]⟩
  | some o =>
    obtain ⟨ty', e1, e2, e3, e4, e5⟩ := hr
    by_cases e : ty' = ty
    · subst e
      rcases e5 with ⟨-, hs⟩ | ⟨hl', -⟩
      · exact .inl ⟨o, rfl, e3, by simp [D.handle, e1], by simp [D.handle, e1, St.objAt, hd, hs]⟩
      · rw [hl] at hl'; cases hl'
    · refine .inr ⟨?_, by simp [D.handle, e1, e]⟩
      rintro o' ho; cases ho; rw [e3]; simpa using e

/-- C45 is false: whenever a delegate holds a callable too big for the storage, `handle` points to the storage, where
no callable lies. -/
theorem delegate_handle_wrong {a : Spec} (h : Reach s a) {i o : Nat} (hi : a i = some (some o)) {ty : Ty}
    (ho : s.objTy o = some ty) (hl : ty.isLocal = false) :
    ∃ d, s.dels i = some d ∧ d.handle i ty = .storage i ∧ s.objAt (d.handle i ty) = none := by
  obtain ⟨d, y, hd, hy, hr⟩ := (reach_good h).get (i := i) (by rw [hi]; simp)
  rw [hi] at hy; cases hy
  obtain ⟨ty', e1, e2, e3, e4, e5⟩ := hr
  rw [ho] at e3; cases e3
  refine ⟨d, hd, by simp [D.handle, e1], ?_⟩
  rcases e5 with ⟨hl', -⟩ | ⟨-, b, hs, -⟩
  · rw [hl] at hl'; cases hl'
  · simp [D.handle, e1, St.objAt, hd, hs]

/-! ### The hypotheses can be met -/

section Examples

def small : Ty := ⟨0, 8, 8⟩
def big : Ty := ⟨1, 32, 8⟩

/-- Run a history, going on after exceptions. -/
def runAll : List Op → St → Option St
  | [], s => some s
  | op :: ops, s =>
    match step op s with
    | .ok s => runAll ops s
    | .badCall s => runAll ops s
    | .ub => none

def history : List Op :=
  [.fn 0 small false, .fn 1 big false, .default 2, .swap 0 1, .call 0, .assignMove 2 0, .call 2, .call 0, .assignFn 2 small false,
    .assignNull 1, .assignMove 2 2, .call 2, .dtor 0, .dtor 1, .dtor 2]

/-- Callables 0 (small), 1 (big, in block 2) and 3 (small): calls of 1, 1 and 3; all destroyed. -/
example : (runAll history .init).map (fun s => (s.calls, s.dtors 0, s.dtors 1, s.dtors 3, s.frees 2, s.blkObj 2)) =
    some ([3, 1, 1], 1, 1, 1, 1, some 1) := by rfl

/-- A reachable state with a delegate that holds a callable in the storage and one that holds a block. -/
example : ∃ s a, Reach s a ∧ a 0 = some (some 0) ∧ a 1 = some (some 1) ∧ s.objTy 0 = some small ∧ s.objTy 1 = some big := by
  refine ⟨_, _, .step (op := .fn 1 big false) (.step (op := .fn 0 small false) .init rfl rfl) rfl rfl, ?_, ?_, ?_, ?_⟩ <;> decide +kernel

example : legal (spec 0 .init (.fn 0 small false)) (.fn 1 big false) := rfl

end Examples

end Verif.Delegate
