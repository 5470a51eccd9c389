import Verif.Tuple.Category
import Mathlib.Data.List.Nodup
import Mathlib.Data.List.Forall2

/-! # C107, C108: copies, moves and exceptions in tuples and pairs -/

set_option autoImplicit false

namespace Verif.TupC

variable {α : Type}

/-- What a user expects of an element that is handed out by a tuple of category `c`. -/
def Moves (c : Cat) (e : Elem) : Prop := c = .xvalue ∧ e.kind = .obj

theorem getCat_spec {c k : Cat} {e : Elem} (h : getCat c e.kind = some k) : k = .xvalue ↔ Moves c e := by
  unfold Moves
  rcases e with ⟨_ | _ | _, l⟩ <;> cases c <;> simp [getCat] at h ⊢ <;> subst h <;> simp

theorem assignAll_succ (c : Cat) (d s : Elem) (ds ss : Tuple) (is : List Nat) (m : Mem α) :
    assignAll c (d :: ds) (s :: ss) (is.map (· + 1)) m = assignAll c ds ss is m := by
  induction is generalizing m with
  | nil => rfl
  | cons i is ih =>
    simp only [List.map_cons, assignAll]
    have : assignAt c (d :: ds) (s :: ss) (i + 1) m = assignAt c ds ss i m := rfl
    rw [this]
    cases assignAt c ds ss i m with
    | none => rfl
    | some m' => exact ih m'

theorem assignAll_cons (c k : Cat) (d s : Elem) (ds ss : Tuple) (m : Mem α) (hk : getCat c s.kind = some k) :
    assignAll c (d :: ds) (s :: ss) (List.range (d :: ds).length) m =
      assignAll c ds ss (List.range ds.length) (transfer k d.loc s.loc m) := by
  rw [List.length_cons, List.range_succ_eq_map]
  simp only [assignAll]
  have : assignAt c (d :: ds) (s :: ss) 0 m = some (transfer k d.loc s.loc m) := by
    simp [assignAt, hk]
  rw [this]
  exact assignAll_succ c d s ds ss _ _

/-- The state after an assignment, as a user expects it: the destinations hold the values of the sources, the sources
that are moved from hold nothing, all else is as before. -/
def Assigned (c : Cat) (dst src : Tuple) (m m' : Mem α) : Prop :=
  (∀ (i : Nat) (d s : Elem), dst[i]? = some d → src[i]? = some s →
    m' d.loc = m s.loc ∧ (Moves c s → m' s.loc = none) ∧ (¬ Moves c s → m' s.loc = m s.loc)) ∧
  ∀ l, (∀ d ∈ dst, d.loc ≠ l) → (∀ s ∈ src, s.loc ≠ l) → m' l = m l

theorem transfer_dst {k : Cat} {d s : Loc} (h : d ≠ s) (m : Mem α) : transfer k d s m d = m s := by
  cases k <;> simp [transfer, h]

theorem transfer_src {k : Cat} {d s : Loc} (h : d ≠ s) (m : Mem α) :
    (k = .xvalue → transfer k d s m s = none) ∧ (k ≠ .xvalue → transfer k d s m s = m s) := by
  cases k <;> simp [transfer, h.symm]

theorem transfer_other {k : Cat} {d s l : Loc} (h1 : l ≠ d) (h2 : l ≠ s) (m : Mem α) : transfer k d s m l = m l := by
  cases k <;> simp [transfer, h1, h2]

theorem assignAll_spec (c : Cat) : ∀ (dst src : Tuple) (m : Mem α), dst.length = src.length →
    (dst.map (·.loc)).Nodup → (src.map (·.loc)).Nodup → (∀ d ∈ dst, ∀ s ∈ src, d.loc ≠ s.loc) →
    (∀ s ∈ src, c = .xvalue → s.kind ≠ .rref) →
    ∃ m', assignAll c dst src (List.range dst.length) m = some m' ∧ Assigned c dst src m m' := by
  intro dst
  induction dst with
  | nil =>
    intro src m hl _ _ _ _
    refine ⟨m, rfl, fun i d s h => by simp at h, fun l _ _ => rfl⟩
  | cons d ds ih =>
    intro src m hl hd hs hdis hr
    cases src with
    | nil => simp at hl
    | cons s ss =>
      obtain ⟨k, hk⟩ : ∃ k, getCat c s.kind = some k := by
        have := hr s (by simp)
        rcases s with ⟨_ | _ | _, l⟩ <;> cases c <;> simp_all [getCat]
      have hds : d.loc ≠ s.loc := hdis d (by simp) s (by simp)
      rw [List.map_cons, List.nodup_cons] at hd hs
      obtain ⟨m', h1, h2, h3⟩ := ih ss (transfer k d.loc s.loc m) (by simpa using hl) hd.2 hs.2
        (fun d' h s' h' => hdis d' (by simp [h]) s' (by simp [h'])) (fun s' h => hr s' (by simp [h]))
      refine ⟨m', by rw [assignAll_cons c k d s ds ss m hk]; exact h1, ?_, ?_⟩
      · intro i d' s' e1 e2
        cases i with
        | zero =>
          simp only [List.getElem?_cons_zero, Option.some.injEq] at e1 e2
          subst e1 e2
          have f1 : m' d.loc = transfer k d.loc s.loc m d.loc := by
            refine h3 _ (fun x hx e => hd.1 ?_) (fun x hx e => hdis d (by simp) x (by simp [hx]) e.symm)
            exact List.mem_map.2 ⟨x, hx, e⟩
          have f2 : m' s.loc = transfer k d.loc s.loc m s.loc := by
            refine h3 _ (fun x hx e => hdis x (by simp [hx]) s (by simp) e) (fun x hx e => hs.1 ?_)
            exact List.mem_map.2 ⟨x, hx, e⟩
          rw [f1, f2]
          have hm := getCat_spec hk
          refine ⟨transfer_dst hds m, fun hM => (transfer_src hds m).1 (hm.2 hM), fun hM => (transfer_src hds m).2 (fun e => hM (hm.1 e))⟩
        | succ i =>
          simp only [List.getElem?_cons_succ] at e1 e2
          obtain ⟨g1, g2, g3⟩ := h2 i d' s' e1 e2
          have hd' := List.mem_of_getElem? e1
          have hs' := List.mem_of_getElem? e2
          have hn1 : s'.loc ≠ d.loc := fun e => hdis d (by simp) s' (by simp [hs']) e.symm
          have hn2 : s'.loc ≠ s.loc := fun e => hs.1 (List.mem_map.2 ⟨s', hs', e⟩)
          rw [transfer_other hn1 hn2] at g1 g3
          exact ⟨g1, g2, g3⟩
      · intro l hl1 hl2
        rw [h3 l (fun x hx => hl1 x (by simp [hx])) (fun x hx => hl2 x (by simp [hx]))]
        exact transfer_other (fun e => hl1 d (by simp) e.symm) (fun e => hl2 s (by simp) e.symm) m

/-- C107. `t = u` and `t = std::move(u)`, for tuples of the same type that own all their elements, and for tuples of
different types: the elements of `t` take the values of `u`; `u` is left as it was, except that an rvalue loses
exactly the elements it owns, not the objects its references refer to. -/
theorem tuple_assign_moves (c : Cat) (dst src : Tuple) (m : Mem α) (hl : dst.length = src.length)
    (hd : (dst.map (·.loc)).Nodup) (hs : (src.map (·.loc)).Nodup) (hdis : ∀ d ∈ dst, ∀ s ∈ src, d.loc ≠ s.loc)
    (hr : c = .xvalue → ∀ s ∈ src, s.kind ≠ .rref) :
    (∃ m', assignOther c dst src m = some m' ∧ Assigned c dst src m m') ∧
    ((∀ d ∈ dst, d.kind = .obj) → ∃ m', assignSame c dst src m = some m' ∧ Assigned c dst src m m') := by
  have h := assignAll_spec c dst src m hl hd hs hdis (fun s h e => hr e s h)
  refine ⟨h, fun ho => ?_⟩
  unfold assignSame
  rw [if_pos ho]
  exact h

/-- C107. `apply(f, t)` passes every element in order: as an rvalue exactly those the rvalue `t` owns, as a const
lvalue exactly those a const `t` owns, as an lvalue the others. -/
theorem tuple_apply_categories (c : Cat) (t : Tuple) (hr : c = .xvalue → ∀ e ∈ t, e.kind ≠ .rref) :
    ∃ args, applyArgs c t = some args ∧ args.map (·.2) = t.map (·.loc) ∧
      ∀ (i : Nat) (e : Elem) (k : Cat) (l : Loc), t[i]? = some e → args[i]? = some (k, l) →
        k = if e.kind = .obj then c else .lvalue := by
  induction t with
  | nil => exact ⟨[], rfl, rfl, by simp⟩
  | cons e t ih =>
    obtain ⟨args, h1, h2, h3⟩ := ih (fun hc e' h => hr hc e' (by simp [h]))
    obtain ⟨k, hk, hk'⟩ : ∃ k, getCat c e.kind = some k ∧ k = if e.kind = .obj then c else .lvalue := by
      have := fun h => hr h e (by simp)
      rcases e with ⟨_ | _ | _, l⟩ <;> cases c <;> simp_all [getCat]
    refine ⟨(k, e.loc) :: args, ?_, by simp [h2], ?_⟩
    · unfold applyArgs at h1 ⊢
      rw [List.mapM_cons, h1, hk]; rfl
    · intro i e' k' l h4 h5
      cases i with
      | zero => simp at h4 h5; obtain ⟨rfl, rfl⟩ := h5; subst h4; exact hk'
      | succ i => exact h3 i e' k' l (by simpa using h4) (by simpa using h5)

theorem catArg_lvalue {c : Cat} (h : c ≠ .xvalue) : catArg c = some c := by
  cases c <;> first | rfl | exact absurd rfl h

/-- C107. `tuple_cat` of lvalues copies: no element is constructed from an rvalue, and the elements come in order. -/
theorem tuple_cat_copies (ts : List (Cat × Tuple)) (hc : ∀ p ∈ ts, p.1 ≠ .xvalue)
    (hr : ∀ p ∈ ts, ∀ e ∈ p.2, e.kind ≠ .rref) :
    ∃ es, catElems ts = some es ∧ es.map (·.2) = (ts.map (·.2)).flatten ∧ ∀ p ∈ es, p.1 ≠ .xvalue := by
  induction ts with
  | nil => exact ⟨[], rfl, rfl, by simp⟩
  | cons p ts ih =>
    obtain ⟨c, t⟩ := p
    obtain ⟨es, h1, h2, h3⟩ := ih (fun p h => hc p (by simp [h])) (fun p h => hr p (by simp [h]))
    have hc0 : c ≠ .xvalue := hc (c, t) (by simp)
    have hr0 : ∀ e ∈ t, e.kind ≠ .rref := hr (c, t) (by simp)
    have key : ∃ fs, (t.mapM fun e => (catArg c).bind fun k => catElem k e) = some fs ∧ fs.map (·.2) = t ∧ ∀ p ∈ fs, p.1 ≠ .xvalue := by
      clear ih h1 h2 h3 hc hr
      induction t with
      | nil => exact ⟨[], rfl, rfl, by simp⟩
      | cons e t ih =>
        obtain ⟨fs, g1, g2, g3⟩ := ih (fun e' h => hr0 e' (by simp [h]))
        obtain ⟨k, hk, hk'⟩ : ∃ k, catElem c e = some (k, e) ∧ k ≠ .xvalue := by
          have := hr0 e (by simp)
          rcases e with ⟨_ | _ | _, l⟩ <;> cases c <;> simp_all [catElem, getCat]
        refine ⟨(k, e) :: fs, by rw [List.mapM_cons, g1, catArg_lvalue hc0]; show (catElem c e).bind _ = _; rw [hk]; rfl, by simp [g2], ?_⟩
        intro p hp
        rcases List.mem_cons.1 hp with rfl | hp
        · exact hk'
        · exact g3 p hp
    obtain ⟨fs, g1, g2, g3⟩ := key
    refine ⟨fs ++ es, ?_, by simp [g2, h2], ?_⟩
    · show (t.mapM fun e => (catArg c).bind fun k => catElem k e).bind _ = _
      rw [g1, h1]; rfl
    · intro p hp
      rcases List.mem_append.1 hp with hp | hp
      · exact g3 p hp
      · exact h3 p hp

theorem mapM_none {β γ : Type} {f : β → Option γ} {p : β → Prop} {t : List β} (he : ∃ e ∈ t, p e)
    (hf : ∀ e, p e → f e = none) : t.mapM f = none := by
  induction t with
  | nil => simp at he
  | cons a t ih =>
    rw [List.mapM_cons]
    obtain ⟨e, he, hp⟩ := he
    rcases List.mem_cons.1 he with rfl | he
    · rw [hf _ hp]; rfl
    · rw [ih ⟨e, he, hp⟩]; cases f a <;> rfl

theorem assignAll_none {c : Cat} {dst src : Tuple} {i : Nat} {is : List Nat} (hi : i ∈ is)
    (hn : ∀ m : Mem α, assignAt c dst src i m = none) (m : Mem α) : assignAll c dst src is m = none := by
  induction is generalizing m with
  | nil => simp at hi
  | cons j is ih =>
    show (assignAt c dst src j m).bind (fun m => assignAll c dst src is m) = none
    rcases List.mem_cons.1 hi with rfl | hi
    · rw [hn]; rfl
    · cases assignAt c dst src j m with
      | none => rfl
      | some m' => exact ih hi m'

/-- C107 is not to be had for `tuple_cat` of rvalues, nor for assigning a tuple of references from one of the same
type (`tie(a, b) = tie(b, a)`): they do not compile, except for empty tuples. Nor does anything that reads an `X&&`
element of an rvalue (`apply`, assignment from a tuple of another type), nor `tuple_cat` of a tuple that has one. -/
theorem tuple_category_wrong :
    (∀ (pre post : List (Cat × Tuple)) (c : Cat) (t : Tuple), (∃ e ∈ t, e.kind = .rref) →
      catElems (pre ++ (c, t) :: post) = none) ∧
    (∀ t : Tuple, (∃ e ∈ t, e.kind = .rref) → applyArgs .xvalue t = none) ∧
    (∀ (dst src : Tuple) (m : Mem α), dst.length = src.length → (∃ e ∈ src, e.kind = .rref) →
      assignOther .xvalue dst src m = none) ∧
    (∀ (pre post : List (Cat × Tuple)) (t : Tuple), t ≠ [] → catElems (pre ++ (.xvalue, t) :: post) = none) ∧
    (∀ (c : Cat) (dst src : Tuple) (m : Mem α), (∃ d ∈ dst, d.kind ≠ .obj) → assignSame c dst src m = none) := by
  refine ⟨fun pre post c t he => ?_, fun t he => mapM_none he fun e hk => by rw [hk]; rfl, fun dst src m hl ⟨e, he, hk⟩ => ?_,
    fun pre post t ht => ?_, fun c dst src m ⟨d, hd, hk⟩ => ?_⟩
  · have hn : (t.mapM fun e => (catArg c).bind fun k => catElem k e) = none :=
      mapM_none he fun e hk => by cases catArg c <;> simp [catElem, hk]
    induction pre with
    | nil =>
      show Option.bind (List.mapM (fun e => (catArg c).bind fun k => catElem k e) t)
        (fun es => (catElems post).bind fun r => some (es ++ r)) = none
      rw [hn]; rfl
    | cons p pre ih =>
      obtain ⟨c', t'⟩ := p
      show Option.bind (List.mapM (fun e => (catArg c').bind fun k => catElem k e) t')
        (fun es => (catElems (pre ++ (c, t) :: post)).bind fun r => some (es ++ r)) = none
      rw [ih]
      cases List.mapM (fun e => (catArg c').bind fun k => catElem k e) t' <;> rfl
  · obtain ⟨i, hi, rfl⟩ := List.getElem_of_mem he
    refine assignAll_none (i := i) (List.mem_range.2 (by omega)) (fun m' => ?_) m
    show (dst[i]?).bind (fun d => (src[i]?).bind fun s => (getCat .xvalue s.kind).bind fun k =>
      some (transfer k d.loc s.loc m')) = none
    rw [List.getElem?_eq_getElem hi]
    simp [hk, getCat]
  · induction pre with
    | nil =>
      obtain ⟨e, t, rfl⟩ := List.exists_cons_of_ne_nil ht
      show Option.bind (List.mapM (fun e => (catArg .xvalue).bind fun k => catElem k e) (e :: t)) (fun es => (catElems post).bind fun r => some (es ++ r)) = none
      rw [List.mapM_cons]; rfl
    | cons p pre ih =>
      obtain ⟨c, t'⟩ := p
      show Option.bind (List.mapM (fun e => (catArg c).bind fun k => catElem k e) t')
        (fun es => (catElems (pre ++ (.xvalue, t) :: post)).bind fun r => some (es ++ r)) = none
      rw [ih]
      cases List.mapM (fun e => (catArg c).bind fun k => catElem k e) t' <;> rfl
  · unfold assignSame
    rw [if_neg (fun h => hk (h d hd))]

/-! ### C108 -/

theorem assignAllThrow_succ (thr : Nat → Bool) (c : Cat) (d s : Elem) (ds ss : Tuple) (is : List Nat) (m : Mem α) :
    assignAllThrow thr c (d :: ds) (s :: ss) (is.map (· + 1)) m = assignAllThrow (fun i => thr (i + 1)) c ds ss is m := by
  induction is generalizing m with
  | nil => rfl
  | cons i is ih =>
    simp only [List.map_cons, assignAllThrow]
    by_cases h : thr (i + 1) = true
    · rw [if_pos h, if_pos h]
    · rw [if_neg h, if_neg h]
      have : assignAt c (d :: ds) (s :: ss) (i + 1) m = assignAt c ds ss i m := rfl
      rw [this]
      cases assignAt c ds ss i m with
      | none => rfl
      | some m' => exact ih m'

/-- The first element whose assignment throws stops the fold: what comes before is assigned. -/
theorem assignAllThrow_spec (c : Cat) : ∀ (dst src : Tuple) (thr : Nat → Bool) (m : Mem α), dst.length = src.length →
    (c = .xvalue → ∀ s ∈ src, s.kind ≠ .rref) →
    (∀ n, n < dst.length → thr n = true → (∀ i < n, thr i = false) →
      (assignAllThrow thr c dst src (List.range dst.length) m) =
        (assignAll c (dst.take n) (src.take n) (List.range n) m).map Res.threw) ∧
    ((∀ i < dst.length, thr i = false) →
      (assignAllThrow thr c dst src (List.range dst.length) m) = (assignAll c dst src (List.range dst.length) m).map Res.ok) := by
  intro dst
  induction dst with
  | nil => intro src thr m _ _; exact ⟨fun n h => by simp at h, fun _ => rfl⟩
  | cons d ds ih =>
    intro src thr m hl hr
    cases src with
    | nil => simp at hl
    | cons s ss =>
      obtain ⟨k, hk⟩ : ∃ k, getCat c s.kind = some k := by
        have := fun h => hr h s (by simp)
        rcases s with ⟨_ | _ | _, l⟩ <;> cases c <;> simp_all [getCat]
      have e0 : assignAt c (d :: ds) (s :: ss) 0 m = some (transfer k d.loc s.loc m) := by simp [assignAt, hk]
      have step : thr 0 = false → assignAllThrow thr c (d :: ds) (s :: ss) (List.range (d :: ds).length) m =
          assignAllThrow (fun i => thr (i + 1)) c ds ss (List.range ds.length) (transfer k d.loc s.loc m) := by
        intro h0
        rw [List.length_cons, List.range_succ_eq_map]
        simp only [assignAllThrow, h0, e0]
        exact assignAllThrow_succ thr c d s ds ss _ _
      obtain ⟨ih1, ih2⟩ := ih ss (fun i => thr (i + 1)) (transfer k d.loc s.loc m) (by simpa using hl) (fun h s' h' => hr h s' (by simp [h']))
      refine ⟨fun n hn ht hb => ?_, fun hb => ?_⟩
      · cases n with
        | zero =>
          rw [List.length_cons, List.range_succ_eq_map]
          simp [assignAllThrow, ht, assignAll]
        | succ n =>
          rw [step (hb 0 (by omega)), ih1 n (by simpa using hn) ht (fun i hi => hb (i + 1) (by omega))]
          have := assignAll_cons c k d s (ds.take n) (ss.take n) m hk
          have hlen : (d :: ds.take n).length = n + 1 := by
            simp only [List.length_cons, List.length_take]; simp at hn; omega
          have hlen2 : (ds.take n).length = n := by simpa using hlen
          rw [hlen, hlen2] at this
          rw [List.take_succ_cons, List.take_succ_cons, this]
      · rw [step (hb 0 (by simp)), ih2 (fun i hi => hb (i + 1) (by simpa using hi)), assignAll_cons c k d s ds ss m hk]

/-- C108, what holds. The full claim is "if the assignment of an element throws, the exception reaches the caller; the
elements before it are assigned and the others are as they were". It holds for tuples, and for pairs unless both
element types are nothrow swappable. -/
theorem tuple_assign_throws_partial (c : Cat) (dst src : Tuple) (thr : Nat → Bool) (m : Mem α) (hl : dst.length = src.length)
    (hd : (dst.map (·.loc)).Nodup) (hs : (src.map (·.loc)).Nodup) (hdis : ∀ d ∈ dst, ∀ s ∈ src, d.loc ≠ s.loc)
    (hr : c = .xvalue → ∀ s ∈ src, s.kind ≠ .rref) (n : Nat) (hn : n < dst.length) (ht : thr n = true)
    (hb : ∀ i < n, thr i = false) :
    ∃ m', tupleAssign thr c dst src m = some (.threw m') ∧ Assigned c (dst.take n) (src.take n) m m' ∧
      (dst.length = 2 → pairAssign false thr c dst src m = some (.threw m')) := by
  have hlen : (dst.take n).length = n := by simp; omega
  obtain ⟨m', h1, h2⟩ := assignAll_spec c (dst.take n) (src.take n) m (by simp [hl])
    (by rw [List.map_take]; exact hd.sublist (List.take_sublist _ _))
    (by rw [List.map_take]; exact hs.sublist (List.take_sublist _ _))
    (fun d h s h' => hdis d (List.mem_of_mem_take h) s (List.mem_of_mem_take h'))
    (fun s h e => hr e s (List.mem_of_mem_take h))
  rw [hlen] at h1
  have key := (assignAllThrow_spec c dst src thr m hl hr).1 n hn ht hb
  rw [h1] at key
  refine ⟨m', key, h2, fun h => ?_⟩
  unfold pairAssign
  rw [h] at key
  rw [key]; rfl

/-- C108, the other case: if no assignment of an element throws, the whole assignment does not, and every element is assigned;
the same for pairs, whatever their elements. -/
theorem tuple_assign_no_throw (c : Cat) (dst src : Tuple) (thr : Nat → Bool) (m : Mem α) (hl : dst.length = src.length)
    (hd : (dst.map (·.loc)).Nodup) (hs : (src.map (·.loc)).Nodup) (hdis : ∀ d ∈ dst, ∀ s ∈ src, d.loc ≠ s.loc)
    (hr : c = .xvalue → ∀ s ∈ src, s.kind ≠ .rref) (hb : ∀ i < dst.length, thr i = false) :
    ∃ m', tupleAssign thr c dst src m = some (.ok m') ∧ Assigned c dst src m m' ∧
      (dst.length = 2 → ∀ b, pairAssign b thr c dst src m = some (.ok m')) := by
  obtain ⟨m', h1, h2⟩ := assignAll_spec c dst src m hl hd hs hdis (fun s h e => hr e s h)
  have key := (assignAllThrow_spec c dst src thr m hl hr).2 hb
  rw [h1] at key
  refine ⟨m', key, h2, fun h b => ?_⟩
  unfold pairAssign
  rw [h] at key
  rw [key]; rfl

/-- C108 is false for pairs of nothrow swappable elements such as strings: the exception ends the program. -/
theorem pair_assign_throws_wrong (c : Cat) (dst src : Tuple) (thr : Nat → Bool) (m : Mem α) (hl : dst.length = src.length)
    (h2 : dst.length = 2) (hr : c = .xvalue → ∀ s ∈ src, s.kind ≠ .rref) (hd : (dst.map (·.loc)).Nodup)
    (hs : (src.map (·.loc)).Nodup) (hdis : ∀ d ∈ dst, ∀ s ∈ src, d.loc ≠ s.loc) (ht : thr 0 = true ∨ thr 1 = true) :
    pairAssign true thr c dst src m = some .terminated := by
  obtain ⟨n, hn, htn, hb⟩ : ∃ n, n < dst.length ∧ thr n = true ∧ ∀ i < n, thr i = false := by
    by_cases h0 : thr 0 = true
    · exact ⟨0, by omega, h0, by simp⟩
    · refine ⟨1, by omega, ht.resolve_left h0, fun i hi => ?_⟩
      obtain rfl : i = 0 := by omega
      simpa using h0
  obtain ⟨m', h1, -, -⟩ := tuple_assign_throws_partial c dst src thr m hl hd hs hdis hr n hn htn hb
  unfold tupleAssign at h1
  rw [h2] at h1
  unfold pairAssign
  rw [h1]; rfl

/-! ### The hypotheses can be met -/

/-- Destination of two strings at 0 and 1; source owns the object at 2 and refers to the one at 3. -/
example : ((assignOther .xvalue [⟨.obj, 0⟩, ⟨.obj, 1⟩] [⟨.obj, 2⟩, ⟨.lref, 3⟩] (fun l => some (10 * l))).map
    fun m => (List.range 5).map m) = some [some 20, some 30, none, some 30, some 40] := by decide +kernel

example : (applyArgs .xvalue [⟨.obj, 2⟩, ⟨.lref, 3⟩]) = some [(.xvalue, 2), (.lvalue, 3)] := by decide +kernel

example : ((catElems [(.lvalue, [⟨.obj, 2⟩]), (.clvalue, [⟨.obj, 4⟩, ⟨.lref, 3⟩])]).map (·.map fun p => (p.1, p.2.loc))) =
    some [(.lvalue, 2), (.clvalue, 4), (.lvalue, 3)] := by decide +kernel

example : (match tupleAssign (fun i => i == 1) .lvalue [⟨.obj, 0⟩, ⟨.obj, 1⟩, ⟨.obj, 2⟩] [⟨.obj, 3⟩, ⟨.obj, 4⟩, ⟨.obj, 5⟩]
    (fun l => some (10 * l)) with | some (.threw m) => (List.range 3).map m | _ => []) = [some 30, some 10, some 20] := by
  decide +kernel

example : (match pairAssign true (fun i => i == 2) .xvalue [⟨.obj, 0⟩, ⟨.obj, 1⟩] [⟨.obj, 3⟩, ⟨.obj, 4⟩]
    (fun l => some (10 * l)) with | some (.ok m) => (List.range 5).map m | _ => []) =
      [some 30, some 40, some 20, none, none] := by
  decide +kernel

example : (match pairAssign true (fun i => i == 1) .lvalue [⟨.obj, 0⟩, ⟨.obj, 1⟩] [⟨.obj, 3⟩, ⟨.obj, 4⟩]
    (fun l => some (10 * l)) with | some .terminated => true | _ => false) = true := by
  decide +kernel

end Verif.TupC
