import Verif.Tuple.Make
import Verif.Tuple.CategoryProps
import Verif.Tuple.Props

/-! # C127: tuples made of values and of references -/

set_option autoImplicit false

namespace Verif.TupC

variable {α : Type}

/-- The argument is moved into the tuple: an rvalue that is not a `std::reference_wrapper`. -/
def Gives (a : Arg) : Prop := a.rvalue = true ∧ a.target = none

/-- No argument is read after it was moved: an object that is given away is not used by a later argument. -/
def NoReuse (as : List Arg) : Prop := as.Pairwise fun a b => Gives a → b.target = none → b.loc ≠ a.loc

/-- What a user expects of the tuple `t` made from `as`, with the elements it owns at `ls`: copies, moved objects, and
references for what was wrapped in a `std::reference_wrapper`. -/
def Made (ls : List Loc) (as : List Arg) (m : Mem α) (t : Tuple) (m' : Mem α) : Prop :=
  t.length = as.length ∧
  (∀ (i : Nat) (a : Arg) (l : Loc), as[i]? = some a → ls[i]? = some l →
    (a.target = none → t[i]? = some ⟨.obj, l⟩ ∧ m' l = m a.loc) ∧
    (∀ r, a.target = some r → t[i]? = some ⟨.lref, r⟩)) ∧
  (∀ l, l ∉ ls → (∃ a ∈ as, Gives a ∧ a.loc = l) → m' l = none) ∧
  ∀ l, l ∉ ls → (∀ a ∈ as, Gives a → a.loc ≠ l) → m' l = m l

theorem makeTuple_made (ls : List Loc) : ∀ (as : List Arg) (m : Mem α), ls.length = as.length → ls.Nodup →
    (∀ l ∈ ls, ∀ a ∈ as, a.loc ≠ l) → NoReuse as →
    ∃ t m', makeTuple ls as m = some (t, m') ∧ Made ls as m t m' := by
  induction ls with
  | nil =>
    intro as m hl _ _ _
    cases as with
    | cons => simp at hl
    | nil => exact ⟨[], m, rfl, rfl, by simp, by simp, fun _ _ _ => rfl⟩
  | cons l ls ih =>
    intro as m hl hn hf hr
    cases as with
    | nil => simp at hl
    | cons a as =>
      obtain ⟨hn1, hn2⟩ := List.nodup_cons.1 hn
      obtain ⟨hr1, hr2⟩ := List.pairwise_cons.1 hr
      have hla : a.loc ≠ l := hf l (by simp) a (by simp)
      cases ht : a.target with
      | some r =>
        obtain ⟨t, m', h1, h2, h3, h4, h5⟩ := ih as m (by simpa using hl) hn2
          (fun x hx y hy => hf x (by simp [hx]) y (by simp [hy])) hr2
        have hng : ¬ Gives a := fun h => by have := h.2; rw [ht] at this; cases this
        have e : makeTuple (l :: ls) (a :: as) m = some (⟨.lref, r⟩ :: t, m') := by
          simp only [makeTuple, ht, h1, madeElem]; rfl
        -- nothing is put at `l`
        refine ⟨_, m', e, by simp [h2], ?_, ?_, ?_⟩
        · intro i b x e1 e2
          cases i with
          | zero =>
            simp only [List.getElem?_cons_zero, Option.some.injEq] at e1 e2
            subst e1 e2
            rw [ht]
            exact ⟨by simp, by simp⟩
          | succ i =>
            simp only [List.getElem?_cons_succ] at e1 e2 ⊢
            exact h3 i b x e1 e2
        · intro x hx ⟨b, hb, hg, hbx⟩
          rw [List.mem_cons, not_or] at hx
          rcases List.mem_cons.1 hb with rfl | hb
          · exact absurd hg hng
          · exact h4 x hx.2 ⟨b, hb, hg, hbx⟩
        · intro x hx hb
          rw [List.mem_cons, not_or] at hx
          exact h5 x hx.2 fun b h => hb b (by simp [h])
      | none =>
        obtain ⟨t, m', h1, h2, h3, h4, h5⟩ := ih as (transfer a.cat l a.loc m) (by simpa using hl) hn2
          (fun x hx y hy => hf x (by simp [hx]) y (by simp [hy])) hr2
        have hcat : a.cat = .xvalue ↔ Gives a := by unfold Arg.cat Gives; rw [ht]; cases a.rvalue <;> simp
        have e : makeTuple (l :: ls) (a :: as) m = some (⟨.obj, l⟩ :: t, m') := by
          simp only [makeTuple, ht, h1, madeElem]; rfl
        refine ⟨_, m', e, by simp [h2], ?_, ?_, ?_⟩
        · intro i b x e1 e2
          cases i with
          | zero =>
            simp only [List.getElem?_cons_zero, Option.some.injEq] at e1 e2
            subst e1 e2
            rw [ht]
            refine ⟨fun _ => ⟨by simp, ?_⟩, by simp⟩
            rw [h5 l hn1 (fun b hb _ => hf l (by simp) b (by simp [hb]))]
            exact transfer_dst hla.symm m
          | succ i =>
            simp only [List.getElem?_cons_succ] at e1 e2 ⊢
            obtain ⟨g1, g2⟩ := h3 i b x e1 e2
            refine ⟨fun hb => ⟨(g1 hb).1, ?_⟩, g2⟩
            rw [(g1 hb).2]
            have hbm := List.mem_of_getElem? e1
            have hbl : b.loc ≠ l := hf l (by simp) b (by simp [hbm])
            by_cases hba : b.loc = a.loc
            · rw [hba]
              exact (transfer_src hla.symm m).2 fun hx => hr1 b hbm (hcat.1 hx) hb hba
            · exact transfer_other hbl hba m
        · intro x hx ⟨b, hb, hg, hbx⟩
          rw [List.mem_cons, not_or] at hx
          by_cases hin : ∃ b ∈ as, Gives b ∧ b.loc = x
          · exact h4 x hx.2 hin
          · rcases List.mem_cons.1 hb with rfl | hb
            · rw [h5 x hx.2 fun b' h1 h2 h3 => hin ⟨b', h1, h2, h3⟩, ← hbx]
              exact (transfer_src hla.symm m).1 (hcat.2 hg)
            · exact absurd ⟨b, hb, hg, hbx⟩ hin
        · intro x hx hb
          rw [List.mem_cons, not_or] at hx
          rw [h5 x hx.2 fun b h => hb b (by simp [h])]
          by_cases hxa : x = a.loc
          · rw [hxa]
            exact (transfer_src hla.symm m).2 fun hc => hb a (by simp) (hcat.1 hc) hxa.symm
          · exact transfer_other hx.1 hxa m

/-- C127. `make_tuple` and `Tuple(...)` of any number of arguments make copies of the lvalues, move the rvalues and keep
references to what was passed in a `std::reference_wrapper`; no other object changes. `make_pair` and `Pair(...)` do the same
for two. -/
theorem make_tuple_stores (ls : List Loc) (as : List Arg) (m : Mem α) (hl : ls.length = as.length) (hn : ls.Nodup)
    (hf : ∀ l ∈ ls, ∀ a ∈ as, a.loc ≠ l) (hr : NoReuse as) :
    (∃ t m', makeTuple ls as m = some (t, m') ∧ Made ls as m t m') ∧
    ∀ l1 l2 a b, ls = [l1, l2] → as = [a, b] →
      Made ls as m (makePair l1 l2 a b m).1 (makePair l1 l2 a b m).2 := by
  refine ⟨makeTuple_made ls as m hl hn hf hr, ?_⟩
  rintro l1 l2 a b rfl rfl
  obtain ⟨t, m', h1, h2⟩ := makeTuple_made _ _ m hl hn hf hr
  have : makeTuple [l1, l2] [a, b] m = some (makePair l1 l2 a b m) := rfl
  rw [this] at h1
  obtain ⟨rfl, rfl⟩ := Prod.mk.inj (Option.some.inj h1)
  exact h2

theorem tie_length (xs : List Loc) : (tie xs).length = xs.length := by simp [tie]

/-- C127. `tie(x...) = make_tuple(y...)` assigns to all the variables at once: each gets the value its argument had before, even
if the arguments are the variables themselves in another order. -/
theorem tie_assigns_at_once (xs ls : List Loc) (as : List Arg) (m : Mem α) (hx : xs.length = as.length)
    (hxn : xs.Nodup) (hl : ls.length = as.length) (hn : ls.Nodup) (hf : ∀ l ∈ ls, ∀ a ∈ as, a.loc ≠ l)
    (hfx : ∀ l ∈ ls, l ∉ xs) (hv : ∀ a ∈ as, a.target = none) (hr : NoReuse as) :
    ∃ m', ((makeTuple ls as m).bind fun p => assignTuple .xvalue (tie xs) p.1 p.2) = some m' ∧
      (∀ (i : Nat) (x : Loc) (a : Arg), xs[i]? = some x → as[i]? = some a → m' x = m a.loc) ∧
      (∀ a ∈ as, a.rvalue = true → a.loc ∉ xs → m' a.loc = none) ∧
      ∀ l, l ∉ xs → l ∉ ls → (∀ a ∈ as, a.rvalue = true → a.loc ≠ l) → m' l = m l := by
  obtain ⟨t, m1, h1, h2, h3, h4, h5⟩ := makeTuple_made ls as m hl hn hf hr
  have ht : t = ls.map fun l => ⟨.obj, l⟩ := by
    apply List.ext_getElem?
    intro i
    rw [List.getElem?_map]
    by_cases hi : i < as.length
    · obtain ⟨a, ha⟩ : ∃ a, as[i]? = some a := ⟨as[i], List.getElem?_eq_getElem hi⟩
      obtain ⟨l, hl'⟩ : ∃ l, ls[i]? = some l := ⟨ls[i]'(by omega), List.getElem?_eq_getElem (by omega)⟩
      rw [hl', ((h3 i a l ha hl').1 (hv a (List.mem_of_getElem? ha))).1]
      rfl
    · rw [List.getElem?_eq_none (by omega), List.getElem?_eq_none (by omega)]
      rfl
  have hlen : (tie xs).length = t.length := by rw [tie_length, h2, hx]
  have hloc : (tie xs).map (·.loc) = xs := by rw [tie, List.map_map]; exact List.map_id xs
  have hloc' : t.map (·.loc) = ls := by rw [ht, List.map_map]; exact List.map_id ls
  obtain ⟨m2, g1, g2, g3⟩ := (tuple_assign_moves .xvalue (tie xs) t m1 hlen (by rw [hloc]; exact hxn)
    (by rw [hloc']; exact hn) (by
      intro d hd s hs e
      have h6 : d.loc ∈ xs := by rw [← hloc]; exact List.mem_map_of_mem hd
      have h7 : s.loc ∈ ls := by rw [← hloc']; exact List.mem_map_of_mem hs
      exact hfx _ h7 (e ▸ h6)) (by
      intro _ s hs
      rw [ht] at hs
      obtain ⟨l, -, rfl⟩ := List.mem_map.1 hs
      simp)).1
  have hasg : assignTuple .xvalue (tie xs) t m1 = some m2 := by
    unfold assignTuple
    by_cases hs : sameType (tie xs) t = true
    · rw [if_pos hs]
      have : xs = [] := by
        cases xs with
        | nil => rfl
        | cons x xs =>
          cases ls with
          | nil => simp at hl hx; omega
          | cons l ls => rw [ht] at hs; simp [sameType, tie] at hs
      subst this
      have : assignOther .xvalue (tie []) t m1 = assignSame .xvalue (tie []) t m1 := by
        simp [assignOther, assignSame, tie]
      rw [← this]; exact g1
    · rw [if_neg hs]; exact g1
  refine ⟨m2, by rw [h1]; exact hasg, ?_, ?_, ?_⟩
  · intro i x a e1 e2
    obtain ⟨l, e3⟩ : ∃ l, ls[i]? = some l := by
      have : i < as.length := (List.getElem?_eq_some_iff.1 e2).1
      exact ⟨ls[i]'(by omega), List.getElem?_eq_getElem (by omega)⟩
    have e4 : (tie xs)[i]? = some ⟨.lref, x⟩ := by simp [tie, e1]
    have e5 : t[i]? = some ⟨.obj, l⟩ := by rw [ht]; simp [e3]
    rw [(g2 i _ _ e4 e5).1]
    exact ((h3 i a l e2 e3).1 (hv a (List.mem_of_getElem? e2))).2
  · intro a ha hra hax
    have hal : a.loc ∉ ls := fun h => hf _ h a ha rfl
    rw [g3 a.loc (fun d hd e => hax (by rw [← hloc, ← e]; exact List.mem_map_of_mem hd))
      (fun s hs e => hal (by rw [← hloc', ← e]; exact List.mem_map_of_mem hs))]
    exact h4 a.loc hal ⟨a, ha, ⟨hra, hv a ha⟩, rfl⟩
  · intro l hlx hll hg
    rw [g3 l (fun d hd e => hlx (by rw [← hloc, ← e]; exact List.mem_map_of_mem hd))
      (fun s hs e => hll (by rw [← hloc', ← e]; exact List.mem_map_of_mem hs))]
    exact h5 l hll fun a ha hga => hg a ha hga.1

/-- C127, what holds of `forward_as_tuple`, comparison and assignment. The full claim is "`apply(f, forward_as_tuple(args...))`
passes on the arguments as they were given; tuples of references compare and assign like tuples of values". The first holds
exactly if no argument is an rvalue. The second holds for tuples that own their elements, and for the assignment of pairs of
references from a pair that is not const. -/
theorem tuple_of_references_partial :
    (∀ as : List Arg, (∀ a ∈ as, a.rvalue = false) →
      applyArgs .xvalue (forwardAsTuple as) = some (as.map fun a => (a.cat, a.loc))) ∧
    (∀ (cmp : Nat → Option α → Option α → Option Ordering) (eq : Nat → Option α → Option α → Bool) (s t : Tuple) (m : Mem α),
      (∀ e ∈ s, e.kind = .obj) →
      compareTuples cmp s t m = some (Tup.compare cmp 0 (s.map fun e => m e.loc) (t.map fun e => m e.loc)) ∧
      equalTuples eq s t m = some (Tup.equal eq 0 (s.map fun e => m e.loc) (t.map fun e => m e.loc))) ∧
    (∀ (c : Cat) (x1 x2 y1 y2 : Loc) (m : Mem α), c ≠ .clvalue → x1 ≠ x2 → y1 ≠ y2 → x1 ≠ y1 → x1 ≠ y2 → x2 ≠ y1 → x2 ≠ y2 →
      ∃ m', assignPair c (tie [x1, x2]) (tie [y1, y2]) m = some m' ∧ m' x1 = m y1 ∧ m' x2 = m y2 ∧
        ∀ l, l ≠ x1 → l ≠ x2 → m' l = m l) := by
  refine ⟨fun as h => ?_, fun cmp eq s t m h => ⟨if_pos h, if_pos h⟩, fun c x1 x2 y1 y2 m hc h1 h2 h3 h4 h5 h6 => ?_⟩
  · induction as with
    | nil => rfl
    | cons a as ih =>
      have ha := h a (by simp)
      have := ih fun b hb => h b (by simp [hb])
      unfold applyArgs forwardAsTuple at this ⊢
      rw [List.map_cons, List.mapM_cons, this, ha]
      simp only [List.map_cons, Arg.cat, ha]
      rfl
  · obtain ⟨m', g1, g2, g3⟩ := (tuple_assign_moves c (tie [x1, x2]) (tie [y1, y2]) m rfl (by simp [tie, h1])
      (by simp [tie, h2]) (by simp [tie, h3, h4, h5, h6]) (by simp [tie])).1
    have e : assignPair c (tie [x1, x2]) (tie [y1, y2]) m = some m' := by
      unfold assignPair
      rw [if_neg (by cases c <;> simp at hc ⊢)]
      exact g1
    refine ⟨m', e, (g2 0 ⟨.lref, x1⟩ ⟨.lref, y1⟩ rfl rfl).1, (g2 1 ⟨.lref, x2⟩ ⟨.lref, y2⟩ rfl rfl).1, fun l hl1 hl2 => ?_⟩
    by_cases hy1 : l = y1
    · rw [hy1]; exact (g2 0 ⟨.lref, x1⟩ ⟨.lref, y1⟩ rfl rfl).2.2 (by simp [Moves])
    · by_cases hy2 : l = y2
      · rw [hy2]; exact (g2 1 ⟨.lref, x2⟩ ⟨.lref, y2⟩ rfl rfl).2.2 (by simp [Moves])
      · exact g3 l (by simp [tie, Ne.symm hl1, Ne.symm hl2]) (by simp [tie, Ne.symm hy1, Ne.symm hy2])

/-- C127 is false of tuples of references. `tie(a, b) < tie(c, d)` and `tie(a, b) == tie(c, d)` do not compile, for any number
of variables but none; nor does `tie(a, b) = tie(c, d)`, nor the assignment of a pair of references from a const one, nor
`apply(f, forward_as_tuple(args...))` if one of the arguments is an rvalue. -/
theorem tuple_of_references_wrong :
    (∀ (cmp : Nat → Option α → Option α → Option Ordering) (eq : Nat → Option α → Option α → Bool) (xs ys : List Loc)
      (m : Mem α), xs ≠ [] → compareTuples cmp (tie xs) (tie ys) m = none ∧ equalTuples eq (tie xs) (tie ys) m = none) ∧
    (∀ (c : Cat) (xs ys : List Loc) (m : Mem α), xs ≠ [] → xs.length = ys.length →
      assignTuple c (tie xs) (tie ys) m = none) ∧
    (∀ (x1 x2 y1 y2 : Loc) (m : Mem α), assignPair .clvalue (tie [x1, x2]) (tie [y1, y2]) m = none) ∧
    (∀ as : List Arg, (∃ a ∈ as, a.rvalue = true) → applyArgs .xvalue (forwardAsTuple as) = none) := by
  have hne : ∀ xs : List Loc, xs ≠ [] → ¬ ∀ e ∈ tie xs, e.kind = .obj := by
    intro xs hx h
    obtain ⟨x, xs, rfl⟩ := List.exists_cons_of_ne_nil hx
    exact absurd (h ⟨.lref, x⟩ (by simp [tie])) (by simp)
  refine ⟨fun cmp eq xs ys m hx => ⟨if_neg (hne xs hx), if_neg (hne xs hx)⟩, fun c xs ys m hx hl => ?_,
    fun x1 x2 y1 y2 m => ?_, fun as ⟨a, ha, hr⟩ => ?_⟩
  · unfold assignTuple
    have : sameType (tie xs) (tie ys) = true := by
      simp only [sameType, tie, List.map_map, beq_iff_eq]
      apply List.ext_getElem
      · simp [hl]
      · simp
    rw [if_pos this]
    exact if_neg (hne xs hx)
  · show assignSame .clvalue (tie [x1, x2]) (tie [y1, y2]) m = none
    exact if_neg (hne [x1, x2] (by simp))
  · refine mapM_none (p := fun e => e.kind = .rref) ⟨⟨.rref, a.loc⟩, ?_, rfl⟩ fun e hk => by rw [hk]; rfl
    exact List.mem_map.2 ⟨a, ha, by rw [hr]; rfl⟩

/-! ### The hypotheses can be met -/

/-- `make_tuple(a, std::move(b), std::ref(c))` with `a`, `b`, `c` and the wrapper at 0, 1, 2, 3. -/
example : NoReuse [⟨0, false, none⟩, ⟨1, true, none⟩, ⟨3, true, some 2⟩] ∧
    ((makeTuple [10, 11, 12] [⟨0, false, none⟩, ⟨1, true, none⟩, ⟨3, true, some 2⟩] (fun l => some (100 + l))).map fun p =>
      (p.1.map (fun e => (e.kind, e.loc)), [0, 1, 2, 3, 10, 11].map p.2)) =
      some ([(.obj, 10), (.obj, 11), (.lref, 2)], [some 100, none, some 102, some 103, some 100, some 101]) := by
  refine ⟨by simp [NoReuse, Gives], by decide +kernel⟩

/-- `tie(a, b, c) = make_tuple(b, std::move(c), a)`. -/
example : (((makeTuple [10, 11, 12] [⟨1, false, none⟩, ⟨2, true, none⟩, ⟨0, false, none⟩] (fun l => some (100 + l))).bind
    fun p => assignTuple .xvalue (tie [0, 1, 2]) p.1 p.2).map fun m => [0, 1, 2].map m) =
    some [some 101, some 102, some 100] := by
  decide +kernel

end Verif.TupC
