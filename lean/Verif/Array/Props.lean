import Verif.Array.Bugs
import Mathlib.Data.Nat.Log

/-!
Properties of `xme::Array` (C01 - C13).  `observe w` is what the client sees of every array
(`operator[]` on every index, and the capacity); `Reached cfg w` says that `w` is the state after some
history of calls that are inside their preconditions.
-/

set_option autoImplicit false

namespace Verif.Arr

variable {α : Type} (cfg : Elem α)

theorem okRun_of_spec (ht : cfg.triv = true) : ∀ {ops : List (Op α)} {A : AWorld α},
    specRun A ops ≠ none → okRun cfg A ops
  | [], _, _ => trivial
  | op :: ops, A, h => by
    refine ⟨.inl ht, ?_⟩
    simp only [specRun] at h
    rcases hs : specStep A op with _ | ⟨A', r⟩
    · simp [hs] at h
    · refine ⟨A', r, rfl, okRun_of_spec ht ?_⟩
      intro hn
      simp [hs, hn] at h

/-- C01.  Every history of calls on trivially copyable elements that meets the preconditions runs
without undefined behaviour and without exception, the returned iterators are the expected ones, and
every array is observed to hold exactly the expected sequence (and capacity). -/
theorem array_refines_sequence (ht : cfg.triv = true) {ops : List (Op α)} {A : AWorld α}
    {rs : List Nat} (h : specRun AWorld.init ops = some (A, rs)) :
    ∃ w, run cfg World.init ops = .ok rs w ∧ observe w = A := by
  obtain ⟨A', rs', w', h1, h2, h3, _⟩ := run_ok cfg (Inv.init cfg) rfl
    (okRun_of_spec cfg ht (A := AWorld.init) (ops := ops) (by rw [h]; simp))
  rw [h] at h1
  cases h1
  exact ⟨w', h2, h3.observe cfg⟩

/-- A state with given contents is reached by a history that leads to them. -/
theorem reached_of_spec (ht : cfg.triv = true) {ops : List (Op α)} {A : AWorld α}
    {rs : List Nat} (h : specRun AWorld.init ops = some (A, rs)) :
    ∃ w, Reached cfg w ∧ observe w = A := by
  obtain ⟨w, h1, h2⟩ := array_refines_sequence cfg ht h
  exact ⟨w, ⟨ops, rs, okRun_of_spec cfg ht (by rw [h]; simp), h1⟩, h2⟩

/-- Trivially copyable natural numbers. -/
def natElem : Elem Nat := ⟨true, id⟩

/-- Class-type natural numbers; moved-from objects hold 0. -/
def natObj : Elem Nat := ⟨false, fun _ => 0⟩

/-- A history with two arrays, reallocation, insertion, erasure, copy and move. -/
def demoOps : List (Op Nat) :=
  [.ctor 0, .pushBack 0 (.val 1), .pushBack 0 (.val 2), .reserve 0 3,
    .pushBack 0 (.elem 0 0), .ctorCopy 1 0, .insert 1 1 (.val 9), .erase 1 0, .assignMove 0 1]

example : (specRun AWorld.init demoOps).map (fun p => (p.1 0, p.1 1, p.2)) =
    some (some ([9, 2, 1], 6), some ([], 0), [0, 0, 0, 0, 0, 0, 1, 0, 0]) := by decide

/-- A state in which array 0 is `1 2 3` with capacity 3 and array 1 is `7 8` with capacity 5. -/
def demoState : List (Op Nat) :=
  [.ctorRange 0 [.val 1, .val 2, .val 3], .ctorRange 1 [.val 7, .val 8], .resize 1 5]

theorem demo_reached : ∃ w, Reached natElem w ∧ observe w 0 = some ([1, 2, 3], 3) ∧
    observe w 1 = some ([7, 8], 5) ∧ observe w 2 = none := by
  obtain ⟨w, h1, h2⟩ := reached_of_spec natElem rfl (ops := demoState) (rs := [0, 0, 0]) rfl
  exact ⟨w, h1, by rw [h2]; rfl, by rw [h2]; rfl, by rw [h2]; rfl⟩

/-! ### Single calls -/

section Calls

variable {cfg} (ht : cfg.triv = true) {w : World α} (hw : Reached cfg w) {a : Nat} {xs : List α}
  {c : Nat} (ha : observe w a = some (xs, c))
include ht hw ha

/-- The call returns `r`, changes array `a` to `(xs', c')` and nothing else. -/
def CallYields (cfg : Elem α) (w : World α) (op : Op α) (a : Nat) (xs' : List α) (c' r : Nat) :
    Prop :=
  ∃ w', exec cfg w op = .ok r w' ∧ observe w' a = some (xs', c') ∧
    (∀ x, x ≠ a → observe w' x = observe w x) ∧ Reached cfg w'

omit ha in
theorem call_yields {op : Op α} {xs' : List α} {c' r : Nat}
    (hs : specStep (observe w) op = some (put (observe w) a (some (xs', c')), r)) :
    CallYields cfg w op a xs' c' r := by
  obtain ⟨w', h1, h2, h3⟩ := hw.step cfg hs (.inl ht)
  exact ⟨w', h1, by rw [h2]; simp [put], fun x hx => by rw [h2]; simp [put, hx], h3⟩

/-- C02.  The size never exceeds the capacity, and the capacity after each kind of call. -/
theorem array_capacity :
    xs.length ≤ c ∧
    (∀ n, CallYields cfg w (.reserve a n) a xs (max c n) 0) ∧
    (∀ n, CallYields cfg w (.resize a n) a (xs.take n) n 0) ∧
    CallYields cfg w (.clear a) a [] c 0 ∧
    (xs ≠ [] → CallYields cfg w (.popBack a) a xs.dropLast c 0) ∧
    (∀ v, CallYields cfg w (.pushBack a (.val v)) a (xs ++ [v])
      (if xs.length = c then xs.length + max xs.length 1 else c) 0) ∧
    (∀ vs : List α, CallYields cfg w (.pushRange a (vs.map .val)) a (xs ++ vs)
      (max c (xs.length + vs.length)) 0) := by
  have hvals : ∀ vs : List α, argVals (observe w) (vs.map .val) = some vs := by
    intro vs
    induction vs with
    | nil => rfl
    | cons v vs ih => simp [argVals, argVal, ih]
  refine ⟨?_, fun n => call_yields ht hw ?_, fun n => call_yields ht hw ?_, call_yields ht hw ?_,
    fun hx => call_yields ht hw ?_, fun v => call_yields ht hw ?_, fun vs => call_yields ht hw ?_⟩
  · obtain ⟨d, hd, hh, hc⟩ := (hw.inv cfg).1.get cfg ha
    have := hh.size
    have := hh.le
    omega
  · simp [specStep, Op.target, ha, member]
  · simp [specStep, Op.target, ha, member]
  · simp [specStep, Op.target, ha, member]
  · simp [specStep, Op.target, ha, member, hx]
  · simp [specStep, Op.target, ha, member, argVal, ownArg, grown]
  · have hno : ¬ ∃ x ∈ vs, ownArg a (Arg.val x) = true := by simp [ownArg]
    have hany : (vs.map Arg.val).any (ownArg a) = false := by
      rw [Bool.eq_false_iff]; simp [ownArg]
    simp only [specStep, Op.target, ha, member, hvals, hany]
    simp

/-- C04.  Insertion of one value. -/
theorem array_insert (pos : Nat) (hpos : pos ≤ xs.length) (v : α) :
    CallYields cfg w (.insert a pos (.val v)) a (xs.take pos ++ v :: xs.drop pos)
      (if xs.length = c then xs.length + max xs.length 1 else c) pos ∧
    (xs.take pos ++ v :: xs.drop pos)[pos]? = some v := by
  refine ⟨call_yields ht hw ?_, ?_⟩
  · simp [specStep, Op.target, ha, member, argVal, ownArg, ownBehind, grown, Nat.not_lt.mpr hpos]
  · rw [List.getElem?_append_right (by rw [List.length_take]; omega)]
    simp [hpos]

/-- C05.  Insertion of a range of values, some of which may be elements of other arrays. -/
theorem array_insert_range (pos : Nat) (hpos : pos ≤ xs.length) (args : List (Arg α)) (vs : List α)
    (hv : argVals (observe w) args = some vs) (hown : ∀ x ∈ args, ownArg a x = false) :
    CallYields cfg w (.insertRange a pos args) a (xs.take pos ++ vs ++ xs.drop pos)
      (if xs.length + vs.length ≤ c then c else c + vs.length) pos := by
  refine call_yields ht hw ?_
  have hany : args.any (ownArg a) = false := by
    rw [List.any_eq_false]; intro x hx; simp [hown x hx]
  simp only [specStep, Op.target, ha, member, hv, hany]
  simp [Nat.not_lt.mpr hpos]

/-- C06.  Erasure of one element and of a range. -/
theorem array_erase :
    (∀ pos, pos < xs.length → CallYields cfg w (.erase a pos) a (xs.eraseIdx pos) c pos) ∧
    (∀ i j, i ≤ j → j ≤ xs.length →
      CallYields cfg w (.eraseRange a i j) a (xs.take i ++ xs.drop j) c i ∧
      (xs.take i ++ xs.drop j)[i]? = xs[j]?) := by
  refine ⟨fun pos hp => call_yields ht hw ?_, fun i j h1 h2 => ⟨call_yields ht hw ?_, ?_⟩⟩
  · simp [specStep, Op.target, ha, member, hp]
  · simp [specStep, Op.target, ha, member, h1, h2]
  · rw [List.getElem?_append_right (by simp; omega), List.getElem?_drop]
    congr 1; simp; omega

/-- C07, first part.  A copy has the contents of the original, which is unchanged. -/
theorem array_copy :
    (∀ b, observe w b = none → CallYields cfg w (.ctorCopy b a) b xs xs.length 0) ∧
    (∀ b, observe w b ≠ none → CallYields cfg w (.assignCopy b a) b xs xs.length 0) := by
  refine ⟨fun b hb => call_yields ht hw ?_, fun b hb => call_yields ht hw ?_⟩
  · simp [specStep, ha, create, hb]
  · rcases h : observe w b with _ | ⟨ys, k⟩
    · exact absurd h hb
    · simp [specStep, Op.target, h, member, ha]

/-- C10, the part that holds: with room for another element an own element may be appended. -/
theorem array_push_own_partial (hroom : xs.length < c) (i : Nat) (hi : i < xs.length) :
    CallYields cfg w (.pushBack a (.elem a i)) a (xs ++ [xs[i]]) c 0 := by
  refine call_yields ht hw ?_
  have h1 : ¬ xs.length = c := by omega
  simp [specStep, Op.target, ha, member, argVal, grown, h1, hi]

/-- C11, the part that holds: an own element may be inserted when the storage is replaced (an inner
position of a full array), when it lies at or before the position, or at the end with room. -/
theorem array_insert_own_partial (pos i : Nat) (hpos : pos ≤ xs.length) (hi : i < xs.length)
    (hok : (pos < xs.length ∧ xs.length = c) ∨ (xs.length < c ∧ (i ≤ pos ∨ pos = xs.length))) :
    CallYields cfg w (.insert a pos (.elem a i)) a (xs.take pos ++ xs[i] :: xs.drop pos)
      (if xs.length = c then xs.length + max xs.length 1 else c) pos := by
  refine call_yields ht hw ?_
  have h1 : ¬ (pos = xs.length ∧ xs.length = c) := by omega
  have h2 : ¬ (pos < xs.length ∧ xs.length < c ∧ pos < i) := by omega
  simp only [specStep, Op.target, ha, member, argVal, Option.bind_some, List.getElem?_eq_getElem hi,
    ownArg, ownBehind, beq_self_eq_true, Bool.true_and, decide_eq_true_eq, and_true, h1, h2, if_false,
    Nat.not_lt.mpr hpos, grown]

end Calls

example : ∃ w, Reached natElem w ∧
    CallYields natElem w (.insert 0 1 (.val 9)) 0 [1, 9, 2, 3] 6 1 ∧
    CallYields natElem w (.insert 1 1 (.val 9)) 1 [7, 9, 8] 5 1 ∧
    CallYields natElem w (.insertRange 0 1 [.elem 1 0, .val 5]) 0 [1, 7, 5, 2, 3] 5 1 ∧
    CallYields natElem w (.erase 0 1) 0 [1, 3] 3 1 ∧
    CallYields natElem w (.eraseRange 0 0 2) 0 [3] 3 0 ∧
    CallYields natElem w (.pushRange 0 ([4, 5].map .val)) 0 [1, 2, 3, 4, 5] 5 0 ∧
    CallYields natElem w (.ctorCopy 2 1) 2 [7, 8] 2 0 ∧
    CallYields natElem w (.pushBack 1 (.elem 1 1)) 1 [7, 8, 8] 5 0 ∧
    CallYields natElem w (.insert 0 1 (.elem 0 2)) 0 [1, 3, 2, 3] 6 1 := by
  obtain ⟨w, hw, h0, h1, h2⟩ := demo_reached
  exact ⟨w, hw, (array_insert rfl hw h0 1 (by decide) 9).1,
    (array_insert rfl hw h1 1 (by decide) 9).1,
    array_insert_range rfl hw h0 1 (by decide) [.elem 1 0, .val 5] [7, 5]
      (by simp [argVals, argVal, h1]) (by simp [ownArg]),
    (array_erase rfl hw h0).1 1 (by decide), ((array_erase rfl hw h0).2 0 2 (by decide) (by decide)).1,
    (array_capacity rfl hw h0).2.2.2.2.2.2 [4, 5],
    (array_copy rfl hw h1).1 2 h2, array_push_own_partial rfl hw h1 (by decide) 1 (by decide),
    array_insert_own_partial rfl hw h0 1 2 (by decide) (by decide) (by decide)⟩

/-! ### Storage -/

/-- C03.  Storage is never leaked or released twice: in every state reached by a history, each block
alive belongs to exactly one array, with exactly the size that array will hand back to the allocator;
hence no block is alive once every array is gone.  (Releasing a dead block, or with a wrong size, is
`ub` in the model, which `array_refines_sequence` excludes.) -/
theorem array_no_leak {w : World α} (hw : Reached cfg w) :
    (∀ b, w.mem.size b ≠ none → ∃ a d, w.vars a = some d ∧ d.blk = b ∧
      w.mem.size b = some d.cap ∧ ∀ a' d', w.vars a' = some d' → d'.blk = b → a' = a) ∧
    ((∀ a, observe w a = none) → ∀ b, w.mem.size b = none) := by
  obtain ⟨hi, _⟩ := hw.inv cfg
  have key : ∀ b, w.mem.size b ≠ none → ∃ a d, w.vars a = some d ∧ d.blk = b ∧
      w.mem.size b = some d.cap ∧ ∀ a' d', w.vars a' = some d' → d'.blk = b → a' = a := by
    intro b hb
    obtain ⟨a, d, h1, h2⟩ := hi.owned b hb
    have hb0 : b ≠ 0 := by rintro rfl; exact hb hi.wf.null
    refine ⟨a, d, h1, h2, ?_, ?_⟩
    · rcases hA : observe w a with _ | ⟨xs, c⟩
      · rw [(hi.none_iff a).mpr hA] at h1; cases h1
      · obtain ⟨hh, _⟩ := hi.rep a d xs c h1 hA
        rw [← h2]
        exact (hh.blk.resolve_left fun h => hb0 (h2 ▸ h.1)).2
    · intro a' d' h1' h2'
      by_contra hne
      exact hb0 (h2' ▸ hi.dist a' a d' d h1' h1 hne (h2'.trans h2.symm))
  refine ⟨key, fun hall b => ?_⟩
  by_contra hb
  obtain ⟨a, d, h1, _⟩ := key b hb
  rw [(hi.none_iff a).mpr (hall a)] at h1
  cases h1

example : ∃ w : World Nat, Reached natElem w ∧ w.mem.allocs = 2 ∧ (∀ a, observe w a = none) := by
  obtain ⟨w, h1, h2⟩ := array_refines_sequence natElem rfl
    (ops := [.ctorRange 0 [.val 1, .val 2], .pushBack 0 (.val 3), .dtor 0]) (rs := [0, 0, 0]) rfl
  refine ⟨w, ⟨_, _, okRun_of_spec natElem rfl (by simp [specRun, specStep, argVals, argVal, create,
    AWorld.init, Op.target, member, put, ownArg]), h1⟩, ?_, fun a => ?_⟩
  · have h3 : (match run natElem (World.init : World Nat)
        [.ctorRange 0 [.val 1, .val 2], .pushBack 0 (.val 3), .dtor 0] with
      | .ok _ w => w.mem.allocs | _ => 0) = 2 := by decide +kernel
    rw [h1] at h3
    exact h3
  · rw [h2]
    by_cases h : a = 0 <;> simp [put, AWorld.init, Op.target, h]

/-- C07, second part.  What is observed of an array is not changed by calls about other arrays: for
every later history `ops` none of whose calls is about array `x`. -/
theorem array_independent (ht : cfg.triv = true) {w : World α} (hw : Reached cfg w) {x : Nat} :
    ∀ {ops : List (Op α)}, (∀ op ∈ ops, ¬ op.touches x) → specRun (observe w) ops ≠ none →
    ∃ rs w', run cfg w ops = .ok rs w' ∧ observe w' x = observe w x := by
  intro ops
  induction ops generalizing w with
  | nil => intro _ _; exact ⟨[], w, rfl, rfl⟩
  | cons op ops ih =>
    intro hno hs
    simp only [specRun] at hs
    rcases h1 : specStep (observe w) op with _ | ⟨A', r⟩
    · simp [h1] at hs
    · obtain ⟨w1, e1, e2, e3⟩ := hw.step cfg h1 (.inl ht)
      obtain ⟨rs, w', f1, f2⟩ := ih e3 (fun o ho => hno o (by simp [ho])) (by
        rw [e2]; intro hn; simp [h1, hn] at hs)
      refine ⟨r :: rs, w', by simp [run, e1, f1], ?_⟩
      rw [f2, e2]
      exact specStep_frame h1 (hno op (by simp))

example : ∀ op ∈ ([.pushBack 1 (.elem 0 0), .clear 1, .assignCopy 1 0] : List (Op Nat)),
    ¬ op.touches 0 := by
  intro op hop
  simp at hop
  rcases hop with rfl | rfl | rfl <;> simp [Op.touches, Op.target]

/-- C08.  A move transfers contents, capacity and the very block without touching memory; the source
is left empty; moving an array into itself changes nothing. -/
theorem array_move {w : World α} (hw : Reached cfg w) {b : Nat} {xs : List α} {c : Nat}
    (hb : observe w b = some (xs, c)) :
    (∀ a, observe w a = none → ∃ w', exec cfg w (.ctorMove a b) = .ok 0 w' ∧
      observe w' a = some (xs, c) ∧ observe w' b = some ([], 0) ∧
      (∀ x, x ≠ a → x ≠ b → observe w' x = observe w x) ∧
      w'.mem = w.mem ∧ w'.vars a = w.vars b) ∧
    (∀ a, observe w a ≠ none → a ≠ b → ∃ w', exec cfg w (.assignMove a b) = .ok 0 w' ∧
      observe w' a = some (xs, c) ∧ observe w' b = some ([], 0) ∧
      (∀ x, x ≠ a → x ≠ b → observe w' x = observe w x) ∧
      w'.vars a = w.vars b ∧ w'.mem.moves = w.mem.moves ∧ w'.mem.allocs = w.mem.allocs) ∧
    (∃ w', exec cfg w (.assignMove b b) = .ok 0 w' ∧ observe w' = observe w ∧ w'.mem = w.mem) := by
  obtain ⟨hi, htk⟩ := hw.inv cfg
  obtain ⟨d, hd, hh, hcap⟩ := hi.get cfg hb
  refine ⟨fun a ha => ?_, fun a ha hab => ?_, ?_⟩
  · have hs : specStep (observe w) (.ctorMove a b) =
        some (put (put (observe w) a (some (xs, c))) b (some ([], 0)), 0) := by
      simp [specStep, ha, hb]
    have hab : a ≠ b := by rintro rfl; rw [ha] at hb; cases hb
    obtain ⟨w', h1, h2, _⟩ := hw.step cfg hs (.inr (by simp [classSafe, Op.target, ha]))
    refine ⟨w', h1, by rw [h2]; simp [put, hab], by rw [h2]; simp [put],
      fun x hx hx' => by rw [h2]; simp [put, hx, hx'], ?_⟩
    simp only [exec, hd, (hi.none_iff a).mpr ha] at h1
    cases h1
    exact ⟨rfl, by simp [upd, hab, hd]⟩
  · rcases ha' : observe w a with _ | ⟨ys, k⟩
    · exact absurd ha' ha
    have hs : specStep (observe w) (.assignMove a b) =
        some (put (put (observe w) a (some (xs, c))) b (some ([], 0)), 0) := by
      simp [specStep, ha', hb, hab]
    obtain ⟨w', h1, h2, _⟩ := hw.step cfg hs (.inr (by simp [classSafe, Op.target, ha']))
    obtain ⟨da, hda, hha, _⟩ := hi.get cfg ha'
    refine ⟨w', h1, by rw [h2]; simp [put, hab], by rw [h2]; simp [put],
      fun x hx hx' => by rw [h2]; simp [put, hx, hx'], ?_⟩
    have hdt : wp (unit0 (destructor cfg da)) (⟨w.mem, d⟩ : St α)
        (fun _ s' => s'.d = d ∧ s'.mem.moves = w.mem.moves ∧ s'.mem.allocs = w.mem.allocs)
        (fun _ => False) := by
      apply wp_unit0
      have hsz := hha.size
      have hle := hha.le
      unfold destructor
      rw [wp_bind]
      refine wp_mono (wp_destroyLoop cfg (nb := da.cap) da.size 0 _ ?_ ?_ (fun _ => False)) ?_
        (fun _ h => h)
      · by_cases h : da.size = 0
        · exact .inl h
        · exact .inr ⟨hha.alive cfg (by omega), by omega⟩
      · exact .inr fun i hi => by rw [Nat.zero_add]; exact hha.live cfg hi
      rintro _ s1 ⟨e1, e2, c1⟩
      rw [wp_onlyIf]
      split
      · rename_i h0
        have hblk := (hha.blk.resolve_left fun h => h0 h.1).2
        refine wp_deallocate cfg (by rw [e1.size]; exact hblk) ?_ fun s2 e => ?_
        · by_cases ht : cfg.triv = true
          · exact .inl ht
          · refine .inr fun i hi => ?_
            rw [c1]
            split
            · rfl
            · rename_i h
              exact hha.rest (by simpa using ht) i (by simp at h; omega) hi
        · exact ⟨by rw [e.d, e1.d], by rw [e.moves, e2], by rw [e.allocs, e1.allocs]⟩
      · exact ⟨e1.d, e2, e1.allocs⟩
    obtain ⟨r, s', g1, g2, g3, g4⟩ := wp_ok hdt
    have e4 : upd w.vars b (some Data.null) a = some da := by simp [upd, hab, hda]
    have e5 : upd (upd w.vars b (some Data.null)) a (some d) a = some d := by simp [upd]
    simp only [exec, hd, e4, onVar, e5, g1] at h1
    cases h1
    exact ⟨by simp [upd, g2, hd], g3, g4⟩
  · have e1 : upd w.vars b (some d) = w.vars := upd_self _ _ _ hd
    have e2 : upd (upd w.vars b (some Data.null)) b (some d) = w.vars := by
      funext j; simp only [upd]; split
      · rename_i hj; rw [hj, hd]
      · rfl
    have e3 : unit0 (destructor cfg Data.null) (⟨w.mem, d⟩ : St α) = .ok 0 ⟨w.mem, d⟩ := rfl
    have e4 : upd w.vars b (some Data.null) b = some Data.null := by simp [upd]
    refine ⟨w, ?_, rfl, rfl⟩
    simp only [exec, hd, e4, onVar, e2, e3, e1]

example : ∃ w, Reached natElem w ∧ (∃ w', exec natElem w (.assignMove 0 1) = .ok 0 w' ∧
    observe w' 0 = some ([7, 8], 5) ∧ observe w' 1 = some ([], 0)) := by
  obtain ⟨w, hw, h0, h1, h2⟩ := demo_reached
  obtain ⟨w', g1, g2, g3, _⟩ := (array_move natElem hw h1).2.1 0 (by rw [h0]; simp) (by decide)
  exact ⟨w, hw, w', g1, g2, g3⟩

/-- C09.  Appending `n > 0` values one at a time to an empty array (of any capacity) relocates fewer
than `2 n` elements and allocates at most `1 + ⌈log₂ n⌉` blocks. -/
theorem array_amortised (ht : cfg.triv = true) {w : World α} (hw : Reached cfg w) {a c : Nat}
    (ha : observe w a = some ([], c)) (vs : List α) (hn : vs ≠ []) :
    ∃ w' c', run cfg w (vs.map fun v => .pushBack a (.val v)) = .ok (vs.map fun _ => 0) w' ∧
      observe w' a = some (vs, c') ∧
      w'.mem.moves < w.mem.moves + 2 * vs.length ∧
      w'.mem.allocs ≤ w.mem.allocs + (1 + Nat.clog 2 vs.length) := by
  obtain ⟨hi, htk⟩ := hw.inv cfg
  have hpos : 0 < vs.length := List.length_pos_iff.mpr hn
  obtain ⟨w', c', m', k', h1, h2, h3, h4, h5⟩ := run_push_counts cfg ht vs (m0 := w.mem.moves)
    (k0 := w.mem.allocs) (m := 0) (k := 0) hi htk ha rfl rfl (.inl ⟨rfl, rfl⟩)
  refine ⟨w', c', h1, by rw [h2.observe cfg]; simp [put], ?_, ?_⟩
  · rw [h3]
    rcases h5 with ⟨_, h⟩ | ⟨_, h6, h7, _⟩
    · omega
    · simp at h6; omega
  · rw [h4]
    rcases h5 with ⟨h, _⟩ | ⟨h0, h6, _, h8⟩
    · omega
    · simp only [List.length_nil, Nat.zero_add] at h6
      have : k' ≤ 1 + Nat.clog 2 vs.length := by
        by_contra hcon
        have hlt : Nat.clog 2 vs.length + 1 ≤ k' - 1 := by omega
        have h9 : vs.length ≤ 2 ^ Nat.clog 2 vs.length := Nat.le_pow_clog (by decide) _
        have h10 : 2 ^ (Nat.clog 2 vs.length + 1) ≤ 2 ^ (k' - 1) :=
          Nat.pow_le_pow_right (by decide) hlt
        rw [Nat.pow_succ] at h10
        omega
      omega

example : (match run natElem (World.init : World Nat)
      ([.ctor 0] ++ [1, 2, 3, 4, 5].map fun v => .pushBack 0 (.val v)) with
    | .ok _ w => (w.mem.moves, w.mem.allocs) | _ => (0, 0)) = (7, 4) := by decide +kernel

/-! ### Where the code fails -/

/-- C10 is false: appending an own element to a full array is undefined behaviour - the element is read
after its storage has been released. -/
theorem array_push_own_full_undefined {w : World α} (hw : Reached cfg w) {a i : Nat} {xs : List α}
    {c : Nat} (ha : observe w a = some (xs, c)) (hfull : xs.length = c) (hi : i < xs.length) :
    exec cfg w (.pushBack a (.elem a i)) = .ub := by
  obtain ⟨hinv, htk⟩ := hw.inv cfg
  obtain ⟨d, hd, hh, hcap⟩ := hinv.get cfg ha
  simp only [exec, resolve, hd, Option.map_some]
  refine onVar_ub hd (unit0_ub ?_)
  exact emplaceBack_own_ub cfg (s := ⟨w.mem, d⟩) hinv.wf hh (by rintro rfl; simp at hi)
    (by simp only; omega) htk

example : ∃ w, Reached natElem w ∧ exec natElem w (.pushBack 0 (.elem 0 1)) = .ub := by
  obtain ⟨w, hw, h0, _⟩ := demo_reached
  exact ⟨w, hw, array_push_own_full_undefined natElem hw h0 rfl (by decide)⟩

/-- C11 is false: inserting in place an own element that lies behind the position inserts the element
before it. -/
theorem array_insert_own_wrong (ht : cfg.triv = true) {w : World α} (hw : Reached cfg w)
    {a pos i : Nat} {xs : List α} {c : Nat} (ha : observe w a = some (xs, c))
    (hroom : xs.length < c) (hpi : pos < i) (hi : i < xs.length) :
    ∃ w', exec cfg w (.insert a pos (.elem a i)) = .ok pos w' ∧
      observe w' a = some (xs.take pos ++ xs[i - 1] :: xs.drop pos, c) := by
  obtain ⟨hinv, htk⟩ := hw.inv cfg
  obtain ⟨d, hd, hh, hcap⟩ := hinv.get cfg ha
  subst hcap
  obtain ⟨r, s', h1, rfl, h2⟩ := wp_ok (insert_own_shift cfg ht (s := ⟨w.mem, d⟩) hinv.wf hh hroom
    hpi hi htk)
  refine ⟨⟨s'.mem, upd w.vars a (some s'.d)⟩, ?_, ?_⟩
  · simp only [exec, resolve, hd, Option.map_some, onVar, h1]
  · rw [(hinv.update cfg (.inl hd) h2).observe cfg]
    simp [put, insAt]

/-- The inserted value is wrong whenever the two neighbours differ. -/
theorem array_insert_own_not_faithful : ∃ (w : World Nat), Reached natElem w ∧
    observe w 0 = some ([1, 2, 3], 4) ∧
    ∃ w', exec natElem w (.insert 0 0 (.elem 0 2)) = .ok 0 w' ∧
      observe w' 0 = some ([2, 1, 2, 3], 4) ∧ observe w' 0 ≠ some ([3, 1, 2, 3], 4) := by
  obtain ⟨w, h1, h2⟩ := reached_of_spec natElem rfl
    (ops := [.ctorRange 0 [.val 1, .val 2, .val 3], .reserve 0 4]) (rs := [0, 0]) rfl
  have h0 : observe w 0 = some ([1, 2, 3], 4) := by rw [h2]; rfl
  obtain ⟨w', g1, g2⟩ := array_insert_own_wrong natElem rfl h1 (pos := 0) (i := 2) h0 (by decide)
    (by decide) (by decide)
  exact ⟨w, h1, h0, w', g1, g2, by rw [g2]; decide⟩

/-- C12 is false: for class types appending to a full non-empty array, `reserve` beyond the capacity
and erasing any element but the last assign to storage that holds no object. -/
theorem array_class_undefined (ht : cfg.triv = false) {w : World α} (hw : Reached cfg w) {a : Nat}
    {xs : List α} {c : Nat} (ha : observe w a = some (xs, c)) (hx : xs ≠ []) :
    (xs.length = c → ∀ v, exec cfg w (.pushBack a (.val v)) = .ub) ∧
    (∀ n, c < n → exec cfg w (.reserve a n) = .ub) ∧
    (∀ n, c < n → exec cfg w (.resize a n) = .ub) ∧
    (∀ pos, pos + 1 < xs.length → exec cfg w (.erase a pos) = .ub) := by
  obtain ⟨hinv, htk⟩ := hw.inv cfg
  obtain ⟨d, hd, hh, hcap⟩ := hinv.get cfg ha
  have hsz := hh.size
  have hg : ∀ n, growStorage cfg n ⟨w.mem, d⟩ = .ub := fun n =>
    growStorage_class_ub cfg ht (s := ⟨w.mem, d⟩) hinv.wf hh hx htk
  refine ⟨fun hf v => ?_, fun n hn => ?_, fun n hn => ?_, fun pos hp => ?_⟩
  · simp only [exec, resolve]
    refine onVar_ub hd (unit0_ub ?_)
    unfold emplaceBack
    rw [bind_of_ok (show getD (⟨w.mem, d⟩ : St α) = .ok d ⟨w.mem, d⟩ from rfl)]
    apply bind_of_ub
    unfold onlyIf
    rw [if_pos (by omega)]
    exact hg _
  · simp only [exec]
    refine onVar_ub hd (unit0_ub ?_)
    unfold reserve
    rw [bind_of_ok (show getD (⟨w.mem, d⟩ : St α) = .ok d ⟨w.mem, d⟩ from rfl)]
    unfold onlyIf
    rw [if_pos (by omega)]
    exact hg _
  · simp only [exec]
    refine onVar_ub hd (unit0_ub ?_)
    unfold resize
    rw [bind_of_ok (show getD (⟨w.mem, d⟩ : St α) = .ok d ⟨w.mem, d⟩ from rfl)]
    rw [if_pos (by omega)]
    exact hg _
  · simp only [exec]
    exact onVar_ub hd (erase_class_ub cfg ht (s := ⟨w.mem, d⟩) hh hp htk)

/-- C12, the part that holds: histories that never make class-type elements move (`classSafe`) run
without undefined behaviour - no object is read, assigned or destroyed outside its lifetime, none is
abandoned - and yield the expected sequences. -/
theorem array_class_lifetimes_partial {ops : List (Op α)} (ho : okRun cfg AWorld.init ops) :
    ∃ A rs w, specRun AWorld.init ops = some (A, rs) ∧ run cfg World.init ops = .ok rs w ∧
      observe w = A ∧ ((∀ a, A a = none) → ∀ b, w.mem.size b = none) := by
  obtain ⟨A, rs, w, h1, h2, h3, _⟩ := run_ok cfg (Inv.init cfg) rfl ho
  refine ⟨A, rs, w, h1, h2, h3.observe cfg, fun hall => ?_⟩
  exact (array_no_leak cfg ⟨ops, rs, ho, h2⟩).2 fun a => by rw [h3.observe cfg]; exact hall a

/-- A history for class types: reserve, append, insert in the middle, pop, clear, destroy. -/
theorem demo_class : okRun natObj AWorld.init
    [.ctorCap 0 4, .pushBack 0 (.val 1), .pushBack 0 (.val 2), .insert 0 1 (.val 3), .popBack 0,
      .ctorCopy 1 0, .clear 0, .dtor 0, .dtor 1] := by
  refine ⟨.inr (by simp [classSafe, AWorld.init]), _, _, rfl, ?_⟩
  refine ⟨.inr (by simp [classSafe, Op.target, put, grown]), _, _, rfl, ?_⟩
  refine ⟨.inr (by simp [classSafe, Op.target, put, grown]), _, _, rfl, ?_⟩
  refine ⟨.inr (by simp [classSafe, Op.target, put, grown]), _, _, rfl, ?_⟩
  refine ⟨.inr (by simp [classSafe, Op.target, put, grown]), _, _, rfl, ?_⟩
  refine ⟨.inr (by simp [classSafe, Op.target, put, AWorld.init]), _, _, rfl, ?_⟩
  refine ⟨.inr (by simp [classSafe, Op.target, put, grown]), _, _, rfl, ?_⟩
  refine ⟨.inr (by simp [classSafe, Op.target, put, grown]), _, _, rfl, ?_⟩
  refine ⟨.inr (by simp [classSafe, Op.target, put, grown]), _, _, rfl, trivial⟩

/-- C13 is false: if the first element copy of a copy construction throws, the cleanup is undefined
behaviour. -/
theorem array_copy_throw_undefined (ht : cfg.triv = false) {w : World α} (hw : Reached cfg w)
    {a b : Nat} {xs : List α} {c : Nat} (ha : observe w a = none) (hb : observe w b = some (xs, c))
    (hx : xs ≠ []) : exec cfg (withFault w 1) (.ctorCopy a b) = .ub :=
  copy_throw_ub cfg ht (hw.inv cfg).1 hx ha hb

example : ∃ w, Reached natObj w ∧ exec natObj (withFault w 1) (.ctorCopy 1 0) = .ub := by
  have ho : okRun natObj AWorld.init [.ctorFill 0 3 7] :=
    ⟨.inr (by simp [classSafe, AWorld.init]), _, _, rfl, trivial⟩
  obtain ⟨A, rs, w, h1, h2, h3, _⟩ := run_ok natObj (Inv.init natObj) rfl ho
  have hw : Reached natObj w := ⟨_, rs, ho, h2⟩
  have hA : specRun AWorld.init [Op.ctorFill 0 3 7] =
      some (put AWorld.init 0 (some ([7, 7, 7], 3)), [0]) := rfl
  rw [hA] at h1
  cases h1
  exact ⟨w, hw, array_copy_throw_undefined natObj rfl hw (xs := [7, 7, 7]) (c := 3)
    (by rw [h3.observe]; rfl) (by rw [h3.observe]; rfl) (by simp)⟩

/-- C13, the part that holds: whatever call (`throwSafe`: every one except range or copy construction
of elements whose copy throws, and range insertion in place) is interrupted at whatever point, there
is no undefined behaviour; either it completes as specified, or the arrays are as `afterThrow` says -
constructors leave nothing behind, a pre-existing array keeps its elements - and every block still
belongs to an array. -/
theorem array_exception_safety_partial {w : World α} (hw : Reached cfg w) {op : Op α} {A' : AWorld α}
    {r : Nat} (hs : specStep (observe w) op = some (A', r))
    (hc : cfg.triv = true ∨ classSafe (observe w) op) (hsafe : throwSafe cfg.triv (observe w) op)
    (n : Nat) :
    match exec cfg (withFault w n) op with
    | .ok r' w' => r' = r ∧ observe w' = A'
    | .throw w' => afterThrow (observe w) op (observe w') ∧
        ∀ b, w'.mem.size b ≠ none → ∃ a d, w'.vars a = some d ∧ d.blk = b
    | .ub => False := by
  have := exec_good cfg ((hw.inv cfg).1.withFault cfg n) hs hc (.inr hsafe)
  rcases hr : exec cfg (withFault w n) op with ⟨r', w'⟩ | w' | _
  · rw [hr] at this
    exact ⟨this.1, this.2.1.observe cfg⟩
  · rw [hr] at this
    obtain ⟨_, A'', h1, h2⟩ := this
    exact ⟨by rw [h2.observe cfg]; exact h1, h2.owned⟩
  · rw [hr] at this; exact this

/-- C13 for `push_back` / `emplace_back`: a failed append changes no element of any array. -/
theorem array_push_throw_keeps_partial {w : World α} (hw : Reached cfg w) {a : Nat} {xs : List α}
    {c : Nat} (ha : observe w a = some (xs, c)) (hc : cfg.triv = true ∨ xs = [] ∨ xs.length < c)
    (v : α) (n : Nat) :
    match exec cfg (withFault w n) (.pushBack a (.val v)) with
    | .ok _ w' => ∃ c', observe w' = put (observe w) a (some (xs ++ [v], c'))
    | .throw w' => ∃ c', c ≤ c' ∧ observe w' = put (observe w) a (some (xs, c'))
    | .ub => False := by
  have hs : specStep (observe w) (.pushBack a (.val v)) =
      some (put (observe w) a (some (xs ++ [v], grown xs.length c)), 0) := by
    simp [specStep, Op.target, ha, member, argVal, ownArg]
  have := array_exception_safety_partial cfg hw hs
    (hc.imp id fun h => by simpa [classSafe, Op.target, ha] using h) trivial n
  rcases hr : exec cfg (withFault w n) (.pushBack a (.val v)) with ⟨r', w'⟩ | w' | _
  · rw [hr] at this
    exact ⟨_, this.2⟩
  · rw [hr] at this
    obtain ⟨h1, _⟩ := this
    simp only [afterThrow, Op.target, ha, throwContents] at h1
    obtain ⟨xs', c', h2, h3, h4⟩ := h1
    exact ⟨c', h3, by rw [h4, h2]⟩
  · rw [hr] at this; exact this

/-- The exception does happen: a failing allocation during `push_back`. -/
example : ∃ w, Reached natElem w ∧ ∃ w', exec natElem (withFault w 0) (.pushBack 0 (.val 9)) = .throw w' := by
  have ho : specRun (AWorld.init : AWorld Nat) demoState ≠ none := by decide
  obtain ⟨A, rs, w, h1, h2, h3, _⟩ := run_ok natElem (Inv.init natElem) rfl
    (okRun_of_spec natElem rfl ho)
  refine ⟨w, ⟨_, rs, okRun_of_spec natElem rfl ho, h2⟩, ?_⟩
  have h4 : (match run natElem (World.init : World Nat) demoState with
    | .ok _ w => (match exec natElem (withFault w 0) (.pushBack 0 (.val 9)) with
      | .throw _ => true | _ => false) | _ => false) = true := by decide +kernel
  rw [h2] at h4
  simp only at h4
  rcases hr : exec natElem (withFault w 0) (.pushBack 0 (.val 9)) with ⟨_, _⟩ | w' | _
  · rw [hr] at h4; cases h4
  · exact ⟨w', rfl⟩
  · rw [hr] at h4; cases h4

end Verif.Arr
