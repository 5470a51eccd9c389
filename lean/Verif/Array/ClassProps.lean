import Verif.Array.Props

/-!
Arrays of a class type, continued: exactly which calls are undefined (C12), and the remaining case of
inserting an own element (C11).

The calls considered are those with a meaning for sequences (`specStep` is defined); no exception is
pending.  The predicate `classUndefined` only speaks about the contents and the capacity of the arrays.
-/

set_option autoImplicit false

namespace Verif.Arr

variable {α : Type} {cfg : Elem α}

/-- Something undefined happens after a part that runs to its end. -/
theorem bind_then_ub {σ β γ : Type} {f : M σ β} {g : β → M σ γ} {s : σ}
    (h : wp f s (fun b s' => g b s' = .ub) (fun _ => False)) : (f >>= g) s = .ub := by
  obtain ⟨b, s', h1, h2⟩ := wp_ok h
  rw [bind_of_ok h1, h2]

theorem tryRethrow_ub {σ β : Type} {f : M σ β} {g : M σ Unit} {s : σ} (h : f s = .ub) :
    M.tryRethrow f g s = .ub := by
  unfold M.tryRethrow; rw [h]

/-- `shrink_storage` to a non-zero capacity. -/
theorem shrinkStorage_class_ub (ht : cfg.triv = false) {n : Nat} {s : St α} {xs : List α}
    (hw : WF s.mem) (hh : Holds cfg s.mem s.d xs) (hx : xs ≠ []) (h0 : n ≠ 0)
    (hn : s.mem.ticks = none) : shrinkStorage cfg n s = .ub := by
  have hpos : 0 < xs.length := List.length_pos_iff.mpr hx
  have hsz := hh.size
  have hle := hh.le
  unfold shrinkStorage
  rw [bind_of_ok (show getD s = .ok s.d s from rfl)]
  refine bind_then_ub (wp_allocate (fun s1 h3 => ?_) (fun _ _ h => h hn))
  have hf := h3.fresh hw
  have hb := hh.alive cfg (by omega)
  obtain ⟨g1, g2, g3⟩ := hf.old s.d.blk (by rw [hb]; simp)
  apply bind_of_ub
  obtain ⟨k, hk⟩ : ∃ k, min s.d.size n = k + 1 := ⟨min s.d.size n - 1, by omega⟩
  rw [hk]
  refine fwdLoop_raw_ub cfg ht g1 ?_ ?_ (hf.cell_new 0) (h3.ticks hn)
  · rw [g3]; exact hh.live cfg (by omega)
  · exact (inBounds_iff (by rw [g2]; exact hb)).mpr (by omega)

/-- `realloc_insert`: the elements are assigned to raw storage. -/
theorem reallocInsert_class_ub (ht : cfg.triv = false) {s : St α} {xs : List α} {pos : Nat}
    {src : Src α} {v : α} (hw : WF s.mem) (hh : Holds cfg s.mem s.d xs) (hp : pos < xs.length)
    (hsrc : SrcOk s.mem src v) (hn : s.mem.ticks = none) : reallocInsert cfg pos src s = .ub := by
  have hsz := hh.size
  have hle := hh.le
  unfold reallocInsert
  rw [bind_of_ok (show getD s = .ok s.d s from rfl)]
  refine bind_then_ub (wp_allocate (fun s1 h3 => ?_) (fun _ _ h => h hn))
  have hf := h3.fresh hw
  have hb := hh.alive cfg (by omega)
  obtain ⟨g1, g2, g3⟩ := hf.old s.d.blk (by rw [hb]; simp)
  obtain ⟨hs1, _⟩ := hsrc.fresh hf
  apply bind_of_ub
  apply tryRethrow_ub
  refine bind_then_ub (wp_evalSrc cfg hs1 (fun s2 e2 => ?_) (fun _ _ h => h (h3.ticks hn)))
  have hn2 : s2.mem.ticks = none := e2.ticks (h3.ticks hn)
  have hnb : s2.mem.size s.mem.next = some (s.d.size + max s.d.size 1) := by
    rw [e2.size, h3.size]; simp [upd]
  refine bind_then_ub (wp_construct cfg ((inBounds_iff hnb).mpr (by omega))
    (.inr (by rw [e2.cell]; exact hf.cell_new pos)) fun s3 e3 => ?_)
  have hn3 : s3.mem.ticks = none := e3.ticks hn2
  have hold : ∀ i, s3.mem.cell s.d.blk i = s.mem.cell s.d.blk i := by
    intro i
    rw [e3.cell]; simp only [upd2]
    rw [if_neg (by rintro ⟨h, _⟩; exact g1 h), e2.cell, g3]
  have hnew : ∀ i, i ≠ pos → s3.mem.cell s.mem.next i = .raw := by
    intro i hi
    rw [e3.cell]; simp only [upd2]
    rw [if_neg (by rintro ⟨_, h⟩; exact hi h), e2.cell]; exact hf.cell_new i
  have hsz3 : s3.mem.size s.d.blk = some s.d.cap := by rw [e3.size, e2.size, g2]; exact hb
  rcases Nat.eq_zero_or_pos pos with h0 | h0
  · subst h0
    rw [bind_of_ok (show fwdLoop cfg true s.d.blk 0 s.mem.next 0 0 s3 = .ok () s3 from rfl)]
    obtain ⟨k, hk⟩ : ∃ k, s.d.size - 0 = k + 1 := ⟨s.d.size - 1, by omega⟩
    rw [hk]
    refine fwdLoop_raw_ub cfg ht g1 ?_ ?_ (hnew _ (by omega)) hn3
    · rw [hold]; exact hh.live cfg (by omega)
    · exact (inBounds_iff hsz3).mpr (by omega)
  · apply bind_of_ub
    obtain ⟨k, hk⟩ : ∃ k, pos = k + 1 := ⟨pos - 1, by omega⟩
    have := fwdLoop_raw_ub cfg (mv := true) (src := s.d.blk) (so := 0) (dst := s.mem.next) (o := 0)
      (n := k) (s := s3) ht g1 (by rw [hold]; exact hh.live cfg (by omega))
      ((inBounds_iff hsz3).mpr (by omega)) (hnew 0 (by omega)) hn3
    rw [← hk] at this
    exact this

theorem emplaceBack_class_ub (ht : cfg.triv = false) {s : St α} {xs : List α} {src : Src α}
    (hw : WF s.mem) (hh : Holds cfg s.mem s.d xs) (hx : xs ≠ []) (hfull : xs.length = s.d.cap)
    (hn : s.mem.ticks = none) : emplaceBack cfg src s = .ub := by
  have hsz := hh.size
  unfold emplaceBack
  rw [bind_of_ok (show getD s = .ok s.d s from rfl)]
  apply bind_of_ub
  unfold onlyIf
  rw [if_pos (by omega)]
  exact growStorage_class_ub cfg ht hw hh hx hn

theorem insert_class_ub (ht : cfg.triv = false) {s : St α} {xs : List α} {pos : Nat}
    {src : Src α} {v : α} (hw : WF s.mem) (hh : Holds cfg s.mem s.d xs) (hp : pos ≤ xs.length)
    (hx : xs ≠ []) (hfull : xs.length = s.d.cap)
    (hsrc : SrcOk s.mem src v) (hn : s.mem.ticks = none) : insert cfg pos src s = .ub := by
  have hsz := hh.size
  unfold insert
  rw [bind_of_ok (show getD s = .ok s.d s from rfl)]
  by_cases h1 : pos = s.d.size
  · rw [if_pos h1]
    exact bind_of_ub (emplaceBack_class_ub ht hw hh hx hfull hn)
  · rw [if_neg h1, if_pos (by omega)]
    exact reallocInsert_class_ub ht hw hh (by omega) hsrc hn

/-- Insertion of a range, except into an empty array or at the end with room for it. -/
theorem insertRange_class_ub (ht : cfg.triv = false) {s : St α} {xs : List α} {pos : Nat}
    {srcs : List (Src α)} {vs : List α} (hw : WF s.mem) (hh : Holds cfg s.mem s.d xs)
    (hp : pos ≤ xs.length) (hx : xs ≠ []) (hs : srcs ≠ [])
    (hc : s.d.cap < xs.length + srcs.length ∨ pos < xs.length)
    (hsrc : SrcsOk s.mem srcs vs) (hn : s.mem.ticks = none) : insertRange cfg pos srcs s = .ub := by
  have hsz := hh.size
  have hle := hh.le
  have hpos : 0 < xs.length := List.length_pos_iff.mpr hx
  have hspos : 0 < srcs.length := List.length_pos_iff.mpr hs
  have hb := hh.alive cfg (by omega)
  unfold insertRange
  rw [bind_of_ok (show getD s = .ok s.d s from rfl)]
  dsimp only
  by_cases hbig : s.d.size + srcs.length > s.d.cap
  · rw [if_pos hbig]
    refine bind_then_ub (wp_allocate (fun s1 h3 => ?_) (fun _ _ h => h hn))
    have hf := h3.fresh hw
    obtain ⟨g1, g2, g3⟩ := hf.old s.d.blk (by rw [hb]; simp)
    obtain ⟨hs1, hs2⟩ := hsrc.foreign hf
    apply bind_of_ub
    apply tryRethrow_ub
    have hnb : s1.mem.size s.mem.next =
        some (if s.d.cap = 0 then srcs.length else s.d.cap + srcs.length) := by
      rw [h3.size]; simp [upd]
    refine bind_then_ub (wp_mono (wp_constructLoop cfg srcs pos s1 vs hs1 hs2
      (.inr ⟨hnb, by split <;> omega⟩) (.inr fun i _ => hf.cell_new _)) ?_
      (fun s2 h => h.2.1.1 (h3.ticks hn)))
    rintro _ s2 ⟨e2, c2, _⟩
    have hn2 : s2.mem.ticks = none := e2.ticks (h3.ticks hn)
    have hold : ∀ i, s2.mem.cell s.d.blk i = s.mem.cell s.d.blk i := by
      intro i; rw [c2 _ _ (.inl g1), g3]
    have hsz2 : s2.mem.size s.d.blk = some s.d.cap := by rw [e2.size, g2]; exact hb
    rcases Nat.eq_zero_or_pos pos with h0 | h0
    · subst h0
      rw [bind_of_ok (show fwdLoop cfg false s.d.blk 0 s.mem.next 0 0 s2 = .ok () s2 from rfl)]
      obtain ⟨k, hk⟩ : ∃ k, s.d.size - 0 = k + 1 := ⟨s.d.size - 1, by omega⟩
      rw [hk]
      refine fwdLoop_raw_ub cfg ht g1 ?_ ?_ ?_ hn2
      · rw [hold]; exact hh.live cfg (by omega)
      · exact (inBounds_iff hsz2).mpr (by omega)
      · rw [c2 _ _ (.inr (.inr (by omega)))]; exact hf.cell_new _
    · apply bind_of_ub
      obtain ⟨k, hk⟩ : ∃ k, pos = k + 1 := ⟨pos - 1, by omega⟩
      have := fwdLoop_raw_ub cfg (mv := false) (src := s.d.blk) (so := 0) (dst := s.mem.next)
        (o := 0) (n := k) (s := s2) ht g1 (by rw [hold]; exact hh.live cfg (by omega))
        ((inBounds_iff hsz2).mpr (by omega))
        (by rw [c2 _ _ (.inr (.inl (by omega)))]; exact hf.cell_new _) hn2
      rw [← hk] at this
      exact this
  · rw [if_neg hbig]
    have hlt : pos < xs.length := hc.resolve_left (by omega)
    apply bind_of_ub
    obtain ⟨k, hk⟩ : ∃ k, s.d.size - pos = k + 1 := ⟨s.d.size - pos - 1, by omega⟩
    rw [hk]
    unfold backLoop
    obtain ⟨u, hu⟩ := hh.live cfg (i := pos + k) (by omega)
    unfold fetch
    simp only [Bool.false_eq_true, if_false]
    refine bind_then_ub (wp_copyFrom cfg ((inBounds_iff hb).mpr (by omega)) hu (fun s1 e1 => ?_)
      (fun _ _ h _ => h hn))
    apply bind_of_ub
    unfold assign
    rw [e1.cell, hh.rest ht _ (by omega) (by omega)]
    simp [ht, Cell.isRaw]

/-- Erasing a non-empty range that does not reach the end. -/
theorem eraseRange_class_ub (ht : cfg.triv = false) {s : St α} {xs : List α} {i j : Nat}
    (hh : Holds cfg s.mem s.d xs) (hij : i < j) (hj : j < xs.length)
    (hn : s.mem.ticks = none) : eraseRange cfg i j s = .ub := by
  have hsz := hh.size
  have hle := hh.le
  have hb := hh.alive cfg (by omega)
  unfold eraseRange
  rw [bind_of_ok (show getD s = .ok s.d s from rfl)]
  refine bind_then_ub (wp_mono (wp_destroyLoop cfg (nb := s.d.cap) (j - i) i s
    (.inr ⟨hb, by omega⟩) (.inr fun k hk => hh.live cfg (by omega)) (fun _ => False)) ?_
    (fun _ h => h))
  rintro _ s1 ⟨e1, _, c1⟩
  apply bind_of_ub
  obtain ⟨k, hk⟩ : ∃ k, s.d.size - (i + (j - i)) = k + 1 :=
    ⟨s.d.size - (i + (j - i)) - 1, by omega⟩
  rw [hk]
  unfold fwdLoop
  obtain ⟨v, hv⟩ := hh.live cfg (i := i + (j - i)) (by omega)
  unfold fetch
  simp only [Bool.false_eq_true, if_false]
  refine bind_then_ub (wp_copyFrom cfg (v := v)
    ((inBounds_iff (by rw [e1.size]; exact hb)).mpr (by omega)) ?_ (fun s2 e2 => ?_)
    (fun _ _ h _ => h (e1.ticks hn)))
  · rw [c1, if_neg (by omega)]; exact hv
  · apply bind_of_ub
    have hraw : s1.mem.cell s.d.blk i = .raw := by
      rw [c1]; exact if_pos ⟨rfl, by omega, by omega⟩
    unfold assign
    rw [e2.cell, hraw]
    simp [ht, Cell.isRaw]

/-- The calls that are undefined for class types, by what they are about: the array is not empty and
its elements have to go into new storage, or have to close or to open a gap. -/
def classUndefined (A : AWorld α) (op : Op α) : Prop :=
  match A op.target with
  | none => False
  | some (xs, c) => xs ≠ [] ∧
    match op with
    | .reserve _ n => c < n
    | .resize _ n => n ≠ 0 ∧ n ≠ c
    | .pushBack _ _ => xs.length = c
    | .pushRange _ args => c < xs.length + args.length
    | .insert _ _ _ => xs.length = c
    | .insertRange _ pos args => args ≠ [] ∧ (c < xs.length + args.length ∨ pos < xs.length)
    | .erase _ pos => pos + 1 < xs.length
    | .eraseRange _ i j => i < j ∧ j < xs.length
    | _ => False

/-- In-place insertion of the element at the position itself. -/
theorem insert_class_self (ht : cfg.triv = false) {s : St α} {xs : List α} {pos : Nat} (hw : WF s.mem)
    (hh : Holds cfg s.mem s.d xs) (hroom : xs.length < s.d.cap) (hp : pos < xs.length)
    (hn : s.mem.ticks = none) :
    wp (insert cfg pos (.ref s.d.blk pos)) s (fun r s' => r = pos ∧
      Post cfg s s' (insAt xs pos [cfg.husk xs[pos]]) s.d.cap) (fun _ => False) := by
  refine wp_insert cfg (v := cfg.husk xs[pos]) hw hh (by omega) (.inr (.inr hroom))
    (fun h => by omega) (fun _ h => by omega)
    (fun _ _ => ?_) (fun s' p => ⟨rfl, ?_⟩) (fun _ _ _ _ _ _ h => h hn)
  · simp [ShiftOk, ht, List.getElem?_eq_getElem hp]
  · rw [if_neg (by omega)] at p; exact p

/-- C12, exactly.  For class types: a call that has a meaning for sequences is undefined if and only if
`classUndefined` says so; all other calls complete and return what they should.  Among these only one
kind leaves other contents than it should: `insert(pos, a[pos])` with room for another element, which
inserts the moved-from element. -/
theorem array_class_exact (ht : cfg.triv = false) {w : World α} (hw : Reached cfg w) {op : Op α}
    {A' : AWorld α} {r : Nat} (hs : specStep (observe w) op = some (A', r)) :
    (classUndefined (observe w) op → exec cfg w op = .ub) ∧
    (¬ classUndefined (observe w) op → ∃ w', exec cfg w op = .ok r w' ∧
      ((∀ a pos, op ≠ .insert a pos (.elem a pos)) → observe w' = A') ∧
      ∀ a pos xs c, op = .insert a pos (.elem a pos) → observe w a = some (xs, c) →
        ∃ x, xs[pos]? = some x ∧
          observe w' = put (observe w) a (some (xs.take pos ++ cfg.husk x :: xs.drop pos, c))) := by
  obtain ⟨hinv, htk⟩ := hw.inv cfg
  constructor
  · intro hu
    unfold classUndefined at hu
    rcases hA : observe w op.target with _ | ⟨xs, c⟩
    · simp [hA] at hu
    simp only [hA] at hu
    obtain ⟨hx, hu⟩ := hu
    obtain ⟨d, hd, hh, hcap⟩ := hinv.get cfg hA
    have hsz := hh.size
    have hle := hh.le
    subst hcap
    have grow : ∀ n, growStorage cfg n ⟨w.mem, d⟩ = .ub := fun n =>
      growStorage_class_ub cfg ht (s := ⟨w.mem, d⟩) hinv.wf hh hx htk
    cases op <;> simp only [Op.target] at hA hd
    case reserve a n =>
      simp only [exec]
      refine onVar_ub hd (unit0_ub ?_)
      unfold reserve
      rw [bind_of_ok (f := getD) rfl]
      unfold onlyIf
      rw [if_pos hu]
      exact grow n
    case resize a n =>
      simp only [exec]
      refine onVar_ub hd (unit0_ub ?_)
      unfold resize
      rw [bind_of_ok (f := getD) rfl]
      by_cases h1 : d.cap < n
      · simp only [h1, if_true]; exact grow n
      · simp only [h1, if_false]
        unfold onlyIf
        rw [if_pos (show d.cap > n by omega)]
        exact shrinkStorage_class_ub ht (s := ⟨w.mem, d⟩) hinv.wf hh hx hu.1 htk
    case pushBack a arg =>
      simp only [specStep, Op.target, hA, member] at hs
      rcases hv : argVal (observe w) arg with _ | v
      · simp [hv] at hs
      obtain ⟨src, h1, h2, _⟩ := hinv.arg cfg hv
      simp only [exec, h1]
      exact onVar_ub hd (unit0_ub (emplaceBack_class_ub ht (s := ⟨w.mem, d⟩) hinv.wf hh hx hu htk))
    case pushRange a args =>
      simp only [specStep, Op.target, hA, member] at hs
      rcases hv : argVals (observe w) args with _ | vs
      · simp [hv] at hs
      obtain ⟨srcs, h1, h2, h3, _⟩ := hinv.args cfg hv
      simp only [exec, h1]
      refine onVar_ub hd (unit0_ub ?_)
      unfold pushRange
      rw [bind_of_ok (f := getD) rfl]
      apply bind_of_ub
      unfold onlyIf
      rw [if_pos (show d.size + srcs.length > d.cap by omega)]
      exact grow _
    case insert a pos arg =>
      simp only [specStep, Op.target, hA, member] at hs
      rcases hv : argVal (observe w) arg with _ | v
      · simp [hv] at hs
      obtain ⟨src, h1, h2, _⟩ := hinv.arg cfg hv
      have hp : pos ≤ xs.length := by
        by_contra hcon
        simp [hv, show xs.length < pos by omega] at hs
      simp only [exec, h1]
      exact onVar_ub hd (insert_class_ub ht (s := ⟨w.mem, d⟩) hinv.wf hh hp hx hu h2 htk)
    case insertRange a pos args =>
      simp only [specStep, Op.target, hA, member] at hs
      rcases hv : argVals (observe w) args with _ | vs
      · simp [hv] at hs
      obtain ⟨srcs, h1, h2, h3, _⟩ := hinv.args cfg hv
      have hp : pos ≤ xs.length := by
        by_contra hcon
        simp [hv, show xs.length < pos by omega] at hs
      have hne : srcs ≠ [] := by
        rintro rfl
        exact hu.1 (List.length_eq_zero_iff.mp h3.symm)
      simp only [exec, h1]
      exact onVar_ub hd (insertRange_class_ub ht (s := ⟨w.mem, d⟩) hinv.wf hh hp hx hne
        (by rw [h3]; exact hu.2) h2 htk)
    case erase a pos =>
      simp only [exec]
      exact onVar_ub hd (erase_class_ub cfg ht (s := ⟨w.mem, d⟩) hh hu htk)
    case eraseRange a i j =>
      simp only [exec]
      exact onVar_ub hd (eraseRange_class_ub ht (s := ⟨w.mem, d⟩) hh hu.1 hu.2 htk)
    all_goals exact hu.elim
  · intro hu
    by_cases hself : ∃ a pos, op = .insert a pos (.elem a pos)
    · obtain ⟨a, pos, rfl⟩ := hself
      simp only [specStep, Op.target] at hs
      rcases hA : observe w a with _ | ⟨xs, c⟩
      · simp [hA] at hs
      simp only [hA, member, argVal, Option.bind_some] at hs
      rcases hv : xs[pos]? with _ | v
      · simp [hv] at hs
      obtain ⟨hp, hv'⟩ := List.getElem?_eq_some_iff.mp hv
      simp only [hv] at hs
      obtain ⟨d, hd, hh, hcap⟩ := hinv.get cfg hA
      subst hcap
      have hsz := hh.size
      have hle := hh.le
      have hne : xs ≠ [] := by rintro rfl; simp at hp
      have hroom : xs.length < d.cap := by
        simp only [classUndefined, Op.target, hA] at hu
        have : xs.length ≠ d.cap := fun h => hu ⟨hne, h⟩
        omega
      have hret : r = pos := by
        rw [if_neg (by omega), if_neg (by omega), if_neg (by simp [ownBehind])] at hs
        simp only [Option.some.injEq, Prod.mk.injEq] at hs
        exact hs.2.symm
      subst hret
      obtain ⟨r', s', h1, rfl, h2⟩ := wp_ok (insert_class_self ht (s := ⟨w.mem, d⟩) hinv.wf hh hroom
        hp htk)
      refine ⟨⟨s'.mem, upd w.vars a (some s'.d)⟩, ?_, fun h => absurd rfl (h a r'), ?_⟩
      · simp only [exec, resolve, hd, Option.map_some, onVar, h1]
      · intro a' pos' xs' c' he hA'
        cases he
        rw [hA] at hA'
        cases hA'
        refine ⟨v, hv, ?_⟩
        rw [(hinv.update cfg (.inl hd) h2).observe cfg, ← hv']
        simp [insAt]
    · have hsafe : classSafe (observe w) op := by
        unfold classSafe
        unfold classUndefined at hu
        rcases hA : observe w op.target with _ | ⟨xs, c⟩
        · trivial
        simp only [hA] at hu ⊢
        obtain ⟨d, hd, hh, hcap⟩ := hinv.get cfg hA
        have hsz := hh.size
        have hle := hh.le
        by_cases hx : xs = []
        · subst hx
          cases op <;> simp only [Op.target, true_or, List.length_nil, Nat.zero_add] at hA ⊢
          case insert a pos arg => simp
          case insertRange a pos args =>
            by_cases h1 : c < args.length
            · exact .inl ⟨trivial, h1⟩
            · refine .inr ⟨by omega, .inl ?_⟩
              simp only [specStep, Op.target, hA, member] at hs
              rcases hv : argVals (observe w) args with _ | vs
              · simp [hv] at hs
              by_contra hcon
              simp [hv, show 0 < pos by omega] at hs
          case erase a pos => simp [specStep, Op.target, hA, member] at hs
          case eraseRange a i j =>
            have hp : i ≤ j ∧ j ≤ ([] : List α).length := by
              by_contra hcon
              simp only [specStep, Op.target, hA, member, if_neg hcon] at hs
              cases hs
            simp only [List.length_nil] at hp
            omega
        · rw [not_and] at hu
          have hu' := hu hx
          cases op <;> simp only [Op.target] at hA ⊢ <;> simp only [] at hu'
          case reserve a n => exact .inr (by omega)
          case resize a n => exact .inr (by omega)
          case pushBack a arg => exact .inr (by omega)
          case pushRange a args => exact .inr (by omega)
          case insert a pos arg =>
            exact ⟨.inr (by omega), fun _ h => hself ⟨a, pos, by rw [h]⟩⟩
          case insertRange a pos args =>
            right
            simp only [specStep, Op.target, hA, member] at hs
            rcases hv : argVals (observe w) args with _ | vs
            · simp [hv] at hs
            have hp : pos ≤ xs.length := by
              by_contra hcon
              simp [hv, show xs.length < pos by omega] at hs
            by_cases he : args = []
            · subst he; simp; omega
            · rw [not_and] at hu'
              have := hu' he
              exact ⟨by omega, .inl (by omega)⟩
          case erase a pos =>
            have hp : pos < xs.length := by
              by_contra hcon
              simp [specStep, Op.target, hA, member, hcon] at hs
            omega
          case eraseRange a i j =>
            have hp : i ≤ j ∧ j ≤ xs.length := by
              by_contra hcon
              simp [specStep, Op.target, hA, member, hcon] at hs
            omega
      obtain ⟨w', h1, h2, _⟩ := exec_ok cfg hinv htk hs (.inr hsafe)
      exact ⟨w', h1, fun _ => h2.observe cfg, fun a pos _ _ h => absurd ⟨a, pos, h⟩ hself⟩

/-- C11, the remaining case: inserting an own element at the end of a full array is undefined, for every
element type. -/
theorem array_insert_own_full_undefined {w : World α} (hw : Reached cfg w) {a i : Nat} {xs : List α}
    {c : Nat} (ha : observe w a = some (xs, c)) (hfull : xs.length = c) (hi : i < xs.length) :
    exec cfg w (.insert a xs.length (.elem a i)) = .ub := by
  obtain ⟨hinv, htk⟩ := hw.inv cfg
  obtain ⟨d, hd, hh, hcap⟩ := hinv.get cfg ha
  have hsz := hh.size
  simp only [exec, resolve, hd, Option.map_some]
  refine onVar_ub hd ?_
  unfold insert
  rw [bind_of_ok (f := getD) rfl, if_pos (show xs.length = d.size by omega)]
  apply bind_of_ub
  exact emplaceBack_own_ub cfg (s := ⟨w.mem, d⟩) hinv.wf hh (by rintro rfl; simp at hi)
    (by simp only; omega) htk

/-- States for the examples: three elements and any capacity. -/
theorem class_demo (c : Nat) (hc : 3 ≤ c) : ∃ w, Reached natObj w ∧
    observe w = put AWorld.init 0 (some ([7, 8, 9], c)) := by
  have h2 : specStep (put AWorld.init 0 (some ([], c)))
      (.pushRange 0 [.val 7, .val 8, .val 9]) = some (put AWorld.init 0 (some ([7, 8, 9], c)), 0) := by
    simp only [specStep, Op.target, put, member, argVals, argVal, List.any, ownArg]
    simp only [if_true]
    simp [Nat.max_eq_left hc]
    funext j
    simp only [put]
    split <;> rfl
  have ho : okRun natObj AWorld.init [.ctorCap 0 c, .pushRange 0 [.val 7, .val 8, .val 9]] := by
    refine ⟨.inr (by simp [classSafe, AWorld.init]), _, _, rfl, ?_⟩
    exact ⟨.inr (by simp [classSafe, Op.target, put]), _, _, h2, trivial⟩
  obtain ⟨A, rs, w, h1, h2', h3, _⟩ := run_ok natObj (Inv.init natObj) rfl ho
  refine ⟨w, ⟨_, rs, ho, h2'⟩, ?_⟩
  rw [h3.observe]
  have h4 : specRun AWorld.init [Op.ctorCap 0 c, .pushRange 0 [.val 7, .val 8, .val 9]] =
      some (put AWorld.init 0 (some ([7, 8, 9], c)), [0, 0]) := by
    rw [specRun, show specStep AWorld.init (Op.ctorCap 0 c) =
      some (put AWorld.init 0 (some (([] : List Nat), c)), 0) from rfl]
    simp only [specRun, h2]
  rw [h4] at h1
  cases h1
  rfl

example : ∃ w, Reached natObj w ∧ exec natObj w (.insert 0 1 (.val 5)) = .ub ∧
    exec natObj w (.eraseRange 0 0 2) = .ub ∧ exec natObj w (.resize 0 2) = .ub ∧
    exec natObj w (.insert 0 3 (.elem 0 0)) = .ub := by
  obtain ⟨w, hw, h⟩ := class_demo 3 (by decide)
  have h0 : observe w 0 = some ([7, 8, 9], 3) := by rw [h]; rfl
  refine ⟨w, hw, ?_, ?_, ?_, array_insert_own_full_undefined hw h0 rfl (by decide)⟩
  · exact (array_class_exact rfl hw (op := .insert 0 1 (.val 5)) (A' := _) (r := _)
      (by simp only [specStep, Op.target, h0, member, argVal]; rfl)).1
      (by simp [classUndefined, Op.target, h0])
  · exact (array_class_exact rfl hw (op := .eraseRange 0 0 2) (A' := _) (r := _)
      (by simp only [specStep, Op.target, h0, member]; rfl)).1
      (by simp [classUndefined, Op.target, h0])
  · exact (array_class_exact rfl hw (op := .resize 0 2) (A' := _) (r := _)
      (by simp only [specStep, Op.target, h0, member]; rfl)).1
      (by simp [classUndefined, Op.target, h0])

example : ∃ w, Reached natObj w ∧ ∃ w', exec natObj w (.insert 0 1 (.elem 0 1)) = .ok 1 w' ∧
    observe w' 0 = some ([7, 0, 8, 9], 4) := by
  obtain ⟨w, hw, h⟩ := class_demo 4 (by decide)
  have h0 : observe w 0 = some ([7, 8, 9], 4) := by rw [h]; rfl
  obtain ⟨w', h1, _, h2⟩ := (array_class_exact rfl hw (op := .insert 0 1 (.elem 0 1))
    (A' := put (observe w) 0 (some ([7, 8, 8, 9], 4))) (r := 1)
    (by simp [specStep, Op.target, h0, member, argVal, ownArg, ownBehind, grown])).2
    (by simp [classUndefined, Op.target, h0])
  obtain ⟨x, h3, h4⟩ := h2 0 1 _ _ rfl h0
  refine ⟨w, hw, w', h1, ?_⟩
  rw [h4]
  simp [put, natObj]

end Verif.Arr
