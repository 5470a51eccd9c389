import Verif.Array.Props

/-!
# A part of an array as the argument of a call on the same array

`a.insert(pos, a.begin() + i, a.begin() + j)` and `a.push_back(a.begin() + i, a.begin() + j)`, on the model of
`Verif.Array.Model` (array.hpp:181-207, 227-236).
-/

set_option autoImplicit false

namespace Verif.Arr

variable {α : Type} (cfg : Elem α)

/-! ### What a user expects -/

/-- The elements with the indices `i`, ..., `j - 1`. -/
def part (xs : List α) (i j : Nat) : List α := (xs.drop i).take (j - i)

/-- The arguments `a.begin() + i, a.begin() + j`: the elements `a[i]`, ..., `a[j - 1]`. -/
def ownRange (a i j : Nat) : List (Arg α) := (List.range' i (j - i)).map (.elem a)

/-! ### Lemmas -/

theorem part_length {xs : List α} {i j : Nat} (hj : j ≤ xs.length) : (part xs i j).length = j - i := by
  simp [part]; omega

theorem part_getElem? {xs : List α} {i j n : Nat} (hn : n < j - i) : (part xs i j)[n]? = xs[i + n]? := by
  rw [part, List.getElem?_take, if_pos hn, List.getElem?_drop]

theorem argVals_own {A : AWorld α} {a c : Nat} {xs : List α} (ha : A a = some (xs, c)) : ∀ (n i : Nat),
    i + n ≤ xs.length → argVals A ((List.range' i n).map (.elem a)) = some ((xs.drop i).take n)
  | 0, i, _ => by simp [argVals]
  | n + 1, i, h => by
    have h1 : i < xs.length := by omega
    rw [List.range'_succ, List.map_cons, argVals, argVals_own ha n (i + 1) (by omega)]
    simp only [argVal, ha, Option.bind_some, List.getElem?_eq_getElem h1]
    rw [List.drop_eq_getElem_cons h1, List.take_succ_cons]

theorem argVals_ownRange {A : AWorld α} {a c i j : Nat} {xs : List α} (ha : A a = some (xs, c)) (hij : i ≤ j)
    (hj : j ≤ xs.length) : argVals A (ownRange a i j) = some (part xs i j) :=
  argVals_own ha (j - i) i (by omega)

theorem ownRange_any {a i j : Nat} (hij : i < j) : (ownRange a i j : List (Arg α)).any (ownArg a) = true := by
  obtain ⟨k, hk⟩ : ∃ k, j - i = k + 1 := ⟨j - i - 1, by omega⟩
  simp [ownRange, hk, List.range'_succ, ownArg]

theorem resolveAll_own {w : World α} {a : Nat} {d : Data} (hd : w.vars a = some d) : ∀ (n i : Nat),
    resolveAll w ((List.range' i n).map (.elem a)) = some ((List.range' i n).map (.ref d.blk))
  | 0, i => rfl
  | n + 1, i => by
    rw [List.range'_succ, List.map_cons, List.map_cons, resolveAll, resolveAll_own hd n (i + 1)]
    simp [resolve, hd]

/-- Constructing consecutive cells of a block from consecutive cells of the same block, which may overlap. -/
theorem wp_constructLoop_own (ht : cfg.triv = true) {b nb pos i e : Nat} {s0 : St α} (ws : Nat → α)
    (hb : e = 0 ∨ s0.mem.size b = some nb ∧ pos + e ≤ nb ∧ i + e ≤ nb)
    (H : ∀ m, m < e → if pos ≤ i + m ∧ i < pos then ws (i + m - pos) = ws m else s0.mem.cell b (i + m) = .live (ws m))
    {E : St α → Prop} : ∀ (r m : Nat) (s : St α), m + r = e → Same s0 s →
    (∀ b' k, s.mem.cell b' k = if b' = b ∧ pos ≤ k ∧ k < pos + m then .live (ws (k - pos)) else s0.mem.cell b' k) →
    wp (constructLoop cfg b (pos + m) ((List.range' (i + m) r).map (.ref b))) s (fun _ s' => Same s0 s' ∧
      ∀ b' k, s'.mem.cell b' k = if b' = b ∧ pos ≤ k ∧ k < pos + e then .live (ws (k - pos)) else s0.mem.cell b' k) E
  | 0, m, s, hm, hs, hc => by
    have : m = e := by omega
    subst this
    simp only [List.range'_zero, List.map_nil, constructLoop]
    rw [wp_pure]
    exact ⟨hs, hc⟩
  | r + 1, m, s, hm, hs, hc => by
    have hme : m < e := by omega
    obtain ⟨hb1, hb2, hb3⟩ := hb.resolve_left (by omega)
    have hsz : s.mem.size b = some nb := by rw [hs.size, hb1]
    have hrd : s.mem.cell b (i + m) = .live (ws m) := by
      have h := H m hme
      rw [hc]
      by_cases hq : pos ≤ i + m ∧ i < pos
      · rw [if_pos hq] at h
        rw [if_pos ⟨rfl, hq.1, by omega⟩, h]
      · rw [if_neg hq] at h
        rw [if_neg (by omega), h]
    rw [List.range'_succ, List.map_cons, constructLoop, wp_bind]
    refine wp_evalSrc' cfg (v := ws m) ⟨(inBounds_iff hsz).mpr (by omega), hrd⟩ (fun s1 e1 => ?_)
      (fun s1 _ _ h => absurd ⟨ht, _, _, rfl⟩ h)
    rw [wp_bind]
    refine wp_construct cfg ((inBounds_iff (by rw [e1.size, hsz])).mpr (by omega)) (.inl ht) fun s2 e2 => ?_
    refine wp_constructLoop_own ht ws hb H r (m + 1) s2 (by omega) ((hs.trans e1.toSame).trans e2.toSame)
      fun b' k => ?_
    rw [e2.cell, e1.cell]
    simp only [upd2]
    by_cases hk : b' = b ∧ k = pos + m
    · rw [if_pos hk, if_pos ⟨hk.1, by omega, by omega⟩, hk.2, Nat.add_sub_cancel_left]
    · rw [if_neg hk, hc]
      by_cases hq : b' = b ∧ pos ≤ k ∧ k < pos + m
      · rw [if_pos hq, if_pos ⟨hq.1, by omega, by omega⟩]
      · rw [if_neg hq, if_neg (by rintro ⟨h1, h2, h3⟩; exact hq ⟨h1, h2, by
          rcases Nat.lt_or_ge k (pos + m) with h | h
          · exact h
          · exact absurd ⟨h1, by omega⟩ hk⟩)]

/-- The index of the element that is copied to place `n` by the insertion in place. -/
def taken (pos i e n : Nat) : Nat :=
  if i < pos then i + n % (pos - i) else if i + n < pos + e then i + n else i + n - e

theorem wp_insertRange_own (ht : cfg.triv = true) {s : St α} {xs : List α} {pos i e : Nat} (hw : WF s.mem)
    (hh : Holds cfg s.mem s.d xs) (hpos : pos ≤ xs.length) (hie : i + e ≤ xs.length)
    (hroom : xs.length + e ≤ s.d.cap) {ys : List α} (hy : ys.length = e)
    (hys : ∀ n, n < e → ys[n]? = xs[taken pos i e n]?) {E : St α → Prop} :
    wp (insertRange cfg pos ((List.range' i e).map (.ref s.d.blk))) s
      (fun r s' => r = pos ∧ Post cfg s s' (insAt xs pos ys) s.d.cap) E := by
  have hsz := hh.size
  have hle := hh.le
  have hlen : ((List.range' i e).map (Src.ref s.d.blk : Nat → Src α)).length = e := by simp
  have hlt : ∀ n, n < e → taken pos i e n < xs.length := by
    intro n hn
    unfold taken
    split
    · rename_i h
      have := Nat.mod_lt n (show pos - i > 0 by omega)
      omega
    · split <;> omega
  unfold insertRange
  rw [wp_bind, wp_getD]
  simp only
  rw [wp_ite, if_neg (by rw [hlen]; omega), hlen, wp_bind]
  refine wp_back cfg false (nb := s.d.cap) (.inl ht) (by omega) ?_ (fun k hk => hh.live cfg (by omega))
    fun s1 e1 c1 => ?_
  · by_cases h : s.d.size - pos = 0
    · exact .inl h
    · exact .inr ⟨hh.alive cfg (by omega), by omega⟩
  rw [wp_bind, wp_setD, wp_bind]
  rcases Nat.eq_zero_or_pos e with h0 | h0
  · subst h0
    have hy0 : ys = [] := List.length_eq_zero_iff.mp hy
    simp only [List.range'_zero, List.map_nil, constructLoop]
    rw [wp_pure, wp_pure]
    refine ⟨rfl, own_post cfg hw hh e1.size e1.next e1.ticks ?_ rfl rfl ?_ ?_ ?_ ?_⟩
    · intro b k hb
      simp only
      rw [c1, if_neg (by rintro ⟨h, _⟩; exact hb h)]
    · rw [insAt_length hpos, hy0]; simp only [List.length_nil]; omega
    · rw [insAt_length hpos, hy0]; simp only [List.length_nil]; omega
    · intro k hk
      have hk' := hk
      rw [insAt_length hpos, hy0] at hk'
      simp only [List.length_nil, Nat.add_zero] at hk'
      have e2 : (insAt xs pos ys)[k] = xs[k] := by simp [insAt, hy0]
      rw [e2]
      simp only
      rw [c1]
      split
      · rename_i h
        rw [show pos + (k - (pos + 0)) = k by omega, hh.cells k (by omega)]
      · exact hh.cells k (by omega)
    · intro h; rw [ht] at h; cases h
  · have hne : xs ≠ [] := by rintro rfl; simp at hie; omega
    have hblk : s1.mem.size s.d.blk = some s.d.cap := by rw [e1.size]; exact hh.alive cfg (by omega)
    have hx0 : 0 < xs.length := List.length_pos_iff.mpr hne
    let ws : Nat → α := fun n => (xs[taken pos i e n]?).getD xs[0]
    have hws : ∀ n (h : n < e), ws n = ys[n] := by
      intro n h
      show (xs[taken pos i e n]?).getD xs[0] = _
      rw [← hys n h, List.getElem?_eq_getElem (by omega)]; rfl
    have key := wp_constructLoop_own cfg ht (b := s.d.blk) (nb := s.d.cap) (pos := pos) (i := i) (e := e)
      (s0 := { s1 with d := { s.d with size := s.d.size + e } }) ws (.inr ⟨hblk, by omega, by omega⟩) ?_ (E := E)
      e 0 { s1 with d := { s.d with size := s.d.size + e } } (by omega) (Same.rfl' _)
      (fun b' k => by rw [if_neg (by omega)])
    · refine wp_mono key ?_ (fun _ h => h)
      rintro _ s2 ⟨e2, c2⟩
      rw [wp_pure]
      refine ⟨rfl, own_post cfg hw hh (by rw [e2.size]; exact e1.size) (by rw [e2.next]; exact e1.next)
        (fun h => e2.ticks (e1.ticks h)) ?_ (by rw [e2.d]) (by rw [e2.d]) ?_ ?_ ?_ ?_⟩
      · intro b k hb
        rw [c2, if_neg (by rintro ⟨h, _⟩; exact hb h)]
        simp only
        rw [c1, if_neg (by rintro ⟨h, _⟩; exact hb h)]
      · rw [e2.d, insAt_length hpos]; simp only; omega
      · rw [insAt_length hpos]; omega
      · intro k hk
        have hk' := hk
        rw [insAt_length hpos] at hk'
        rw [insAt_getElem hpos, c2]
        by_cases h1 : k < pos
        · rw [if_neg (by omega)]
          simp only
          rw [c1, if_neg (by omega), hh.cells _ (by omega)]
          simp [h1]
        · by_cases h2 : k < pos + ys.length
          · rw [if_pos ⟨rfl, by omega, by omega⟩, hws (k - pos) (by omega)]
            simp [h1, h2]
          · rw [if_neg (by omega)]
            simp only
            rw [c1, if_pos ⟨rfl, by omega, by omega⟩, hh.cells _ (by omega)]
            simp only [h1, h2, dif_neg, not_false_eq_true]
            congr 2; omega
      · intro h; rw [ht] at h; cases h
    · intro m hm
      have hval : ∀ n (h : n < e), ws n = xs[taken pos i e n]'(hlt n h) := by
        intro n h
        show (xs[taken pos i e n]?).getD xs[0] = _
        rw [List.getElem?_eq_getElem (hlt n h)]; rfl
      by_cases hq : pos ≤ i + m ∧ i < pos
      · rw [if_pos hq]
        have et : taken pos i e (i + m - pos) = taken pos i e m := by
          unfold taken
          rw [if_pos hq.2, if_pos hq.2, Nat.mod_eq_sub_mod (a := m) (b := pos - i) (by omega)]
          congr 2; omega
        show (xs[taken pos i e (i + m - pos)]?).getD xs[0] = (xs[taken pos i e m]?).getD xs[0]
        rw [et]
      · rw [if_neg hq, hval m hm]
        simp only
        rw [c1]
        by_cases hi : i < pos
        · have et : taken pos i e m = i + m := by
            unfold taken
            rw [if_pos hi, Nat.mod_eq_of_lt (by omega)]
          rw [if_neg (by omega), hh.cells _ (by omega)]
          simp only [et]
        · by_cases h2 : i + m < pos + e
          · have et : taken pos i e m = i + m := by
              unfold taken
              rw [if_neg hi, if_pos h2]
            rw [if_neg (by omega), hh.cells _ (by omega)]
            simp only [et]
          · have et : taken pos i e m = i + m - e := by
              unfold taken
              rw [if_neg hi, if_neg h2]
            rw [if_pos ⟨rfl, by omega, by omega⟩, hh.cells _ (by omega)]
            simp only [et]
            congr 2; omega

/-- Appending a part of a full array reads released storage. -/
theorem pushRange_own_ub (ht : cfg.triv = true) {s : St α} {xs : List α} {i e : Nat} (hw : WF s.mem)
    (hh : Holds cfg s.mem s.d xs) (hie : i + e ≤ xs.length) (h0 : 0 < e) (hfull : s.d.cap < xs.length + e)
    (hn : s.mem.ticks = none) : pushRange cfg ((List.range' i e).map (.ref s.d.blk)) s = .ub := by
  have hsz := hh.size
  have hlen : ((List.range' i e).map (Src.ref s.d.blk : Nat → Src α)).length = e := by simp
  unfold pushRange
  rw [bind_of_ok (show getD s = .ok s.d s from rfl)]
  simp only [hlen]
  unfold onlyIf
  rw [if_pos (by omega)]
  obtain ⟨_, s1, h1, p, h2⟩ := wp_ok (wp_growStorage cfg (n := s.d.size + e)
    (Q := fun _ s' => Post cfg s s' xs (s.d.size + e) ∧ s'.d.blk = s.mem.next)
    (E := fun _ => False) hw hh (.inl ht) (by omega) (fun s' p _ _ h => ⟨p, h⟩) (fun _ _ h => h hn))
  rw [bind_of_ok h1]
  obtain ⟨k, rfl⟩ : ∃ k, e = k + 1 := ⟨e - 1, by omega⟩
  rw [List.range'_succ, List.map_cons]
  unfold pushLoop
  rw [bind_of_ok (show getD s1 = .ok s1.d s1 from rfl)]
  apply bind_of_ub
  apply evalSrc_dead_ub
  by_contra hal
  rcases p.upd.owned s.d.blk hal with h | h
  · have := hh.alive cfg (by have := hh.le; omega)
    rw [h, h2, hw.fresh _ (Nat.le_refl _)] at this
    cases this
  · exact h.2 rfl

/-! ### C129 -/

section Own

variable {cfg} (ht : cfg.triv = true) {w : World α} (hw : Reached cfg w) {a : Nat} {xs : List α}
  {c : Nat} (ha : observe w a = some (xs, c)) {i j : Nat} (hij : i ≤ j) (hj : j ≤ xs.length)
include ht hw ha hij hj

/-- What the insertion in place of a part of the array does, whatever the part and the position: the new elements are
copies of old ones, not always of the right ones. A part that lies across the position is replaced by repetitions of
what it has before the position; of a part that begins behind the position, what lies too far behind is replaced by
elements further to the front. -/
theorem array_insert_own_range_exact (pos : Nat) (hpos : pos ≤ xs.length) (hroom : xs.length + (j - i) ≤ c) :
    ∃ ys, ys.length = j - i ∧
      (∀ n, n < j - i → ys[n]? =
        if i < pos then xs[i + n % (pos - i)]?
        else if i + n < pos + (j - i) then xs[i + n]? else xs[i + n - (j - i)]?) ∧
      ∃ w', exec cfg w (.insertRange a pos (ownRange a i j)) = .ok pos w' ∧
        observe w' a = some (xs.take pos ++ ys ++ xs.drop pos, c) ∧ ∀ x, x ≠ a → observe w' x = observe w x := by
  obtain ⟨hinv, htk⟩ := hw.inv cfg
  obtain ⟨d, hd, hh, hcap⟩ := hinv.get cfg ha
  subst hcap
  have hlt : ∀ n, n < j - i → taken pos i (j - i) n < xs.length := by
    intro n hn
    unfold taken
    split
    · rename_i h
      have := Nat.mod_lt n (show pos - i > 0 by omega)
      omega
    · split <;> omega
  obtain ⟨ys, hys⟩ : ∃ ys, ys = (List.range (j - i)).attach.map fun n =>
      xs[taken pos i (j - i) n.1]'(hlt n.1 (List.mem_range.1 n.2)) := ⟨_, rfl⟩
  have hyl : ys.length = j - i := by rw [hys]; simp
  have hyn : ∀ n, n < j - i → ys[n]? = xs[taken pos i (j - i) n]? := by
    intro n hn
    rw [List.getElem?_eq_getElem (by omega), List.getElem?_eq_getElem (hlt n hn)]
    simp [hys]
  refine ⟨ys, hyl, fun n hn => ?_, ?_⟩
  · rw [hyn n hn]
    unfold taken
    split
    · rfl
    · split <;> rfl
  · obtain ⟨r, s', h1, rfl, h2⟩ := wp_ok (wp_insertRange_own cfg ht (s := ⟨w.mem, d⟩) hinv.wf hh hpos (by omega)
      hroom hyl hyn (E := fun _ => False))
    refine ⟨⟨s'.mem, upd w.vars a (some s'.d)⟩, ?_, ?_, fun x hx => ?_⟩
    · have hr : resolveAll w (ownRange a i j) = some ((List.range' i (j - i)).map (.ref d.blk)) :=
        resolveAll_own hd _ _
      simp only [exec, hr, onVar, hd, h1]
    · rw [(hinv.update cfg (.inl hd) h2).observe cfg]
      simp [put, insAt]
    · rw [(hinv.update cfg (.inl hd) h2).observe cfg]
      simp [put, hx]

/-- C129, the part that holds for `insert`. A part of the array is inserted as it was before the call if the storage is
replaced, and otherwise if the part ends at or before the position, or begins at the position. -/
theorem array_insert_own_range_partial (pos : Nat) (hpos : pos ≤ xs.length)
    (hok : c < xs.length + (j - i) ∨ j ≤ pos ∨ i = pos) :
    ∃ w', exec cfg w (.insertRange a pos (ownRange a i j)) = .ok pos w' ∧
      observe w' a = some (xs.take pos ++ part xs i j ++ xs.drop pos,
        if xs.length + (j - i) ≤ c then c else c + (j - i)) ∧ ∀ x, x ≠ a → observe w' x = observe w x := by
  by_cases hroom : xs.length + (j - i) ≤ c
  · rw [if_pos hroom]
    obtain ⟨ys, h1, h2, h3⟩ := array_insert_own_range_exact ht hw ha hij hj pos hpos hroom
    have : ys = part xs i j := by
      apply List.ext_getElem?
      intro n
      rcases Nat.lt_or_ge n (j - i) with hn | hn
      · rw [h2 n hn, part_getElem? hn]
        rcases hok with h | h | h
        · omega
        · rw [if_pos (by omega), Nat.mod_eq_of_lt (by omega)]
        · rw [if_neg (by omega), if_pos (by omega)]
      · rw [List.getElem?_eq_none (by omega), List.getElem?_eq_none (by rw [part_length hj]; omega)]
    rw [← this]
    exact h3
  · rw [if_neg hroom]
    have hv := argVals_ownRange ha hij hj
    have hl := part_length (i := i) hj
    obtain ⟨w', g1, g2, g3, -⟩ := call_yields (op := .insertRange a pos (ownRange a i j)) (a := a)
      (xs' := xs.take pos ++ part xs i j ++ xs.drop pos) (c' := c + (j - i)) (r := pos) ht hw (by
        simp only [specStep, Op.target, ha, member, hv, hl]
        rw [if_neg (by omega), if_neg (by rintro ⟨h, -⟩; exact hroom h), if_neg hroom])
    exact ⟨w', g1, g2, g3⟩

/-- C129 is false for `insert` in all other cases: for each position and part there are contents with which something
else is inserted, for example elements that are all different. -/
theorem array_insert_own_range_wrong (pos : Nat) (hpos : pos ≤ xs.length) (hroom : xs.length + (j - i) ≤ c)
    (hbad : pos < j ∧ i ≠ pos) (hne : i < j) (hd : xs.Nodup) :
    ∃ w' zs, exec cfg w (.insertRange a pos (ownRange a i j)) = .ok pos w' ∧ observe w' a = some (zs, c) ∧
      zs ≠ xs.take pos ++ part xs i j ++ xs.drop pos := by
  obtain ⟨ys, h1, h2, w', h3, h4, -⟩ := array_insert_own_range_exact ht hw ha hij hj pos hpos hroom
  refine ⟨w', _, h3, h4, fun h => ?_⟩
  have hp : ys = part xs i j := by
    rw [List.append_assoc, List.append_assoc] at h
    have h5 := List.append_cancel_left h
    exact List.append_cancel_right h5
  -- the last place differs
  have hn : j - i - 1 < j - i := by omega
  have h6 := h2 (j - i - 1) hn
  rw [hp, part_getElem? hn] at h6
  have hinj : ∀ k l, k < xs.length → l < xs.length → xs[k]? = xs[l]? → k = l := by
    intro k l hk hl e
    exact (List.getElem?_inj hk hd).1 e
  by_cases hi : i < pos
  · rw [if_pos hi] at h6
    have hm := Nat.mod_lt (j - i - 1) (show pos - i > 0 by omega)
    have := hinj _ _ (by omega) (by omega) h6
    omega
  · rw [if_neg hi, if_neg (by omega)] at h6
    have := hinj _ _ (by omega) (by omega) h6
    omega

/-- C129, the part that holds for `push_back`: a part of the array is appended if there is room for it. -/
theorem array_push_own_range_partial (hroom : xs.length + (j - i) ≤ c) :
    CallYields cfg w (.pushRange a (ownRange a i j)) a (xs ++ part xs i j) c 0 := by
  refine call_yields ht hw ?_
  have hv := argVals_ownRange ha hij hj
  have hl := part_length (i := i) hj
  simp only [specStep, Op.target, ha, member, hv, hl]
  rw [if_neg (by rintro ⟨h, -⟩; omega), Nat.max_eq_left hroom]

omit hij in
/-- C129 is false for `push_back` in all other cases: without room for the part, its elements are read after their
storage has been released. -/
theorem array_push_own_range_undefined (hne : i < j) (hfull : c < xs.length + (j - i)) :
    exec cfg w (.pushRange a (ownRange a i j)) = .ub := by
  obtain ⟨hinv, htk⟩ := hw.inv cfg
  obtain ⟨d, hd, hh, hcap⟩ := hinv.get cfg ha
  subst hcap
  have hr : resolveAll w (ownRange a i j) = some ((List.range' i (j - i)).map (.ref d.blk)) :=
    resolveAll_own hd _ _
  simp only [exec, hr]
  refine onVar_ub hd (unit0_ub ?_)
  exact pushRange_own_ub cfg ht (s := ⟨w.mem, d⟩) hinv.wf hh (by omega) (by omega) hfull htk

end Own

/-- The array 1 2 3 4 with room for eight: its first two elements are inserted at its end and at their own place as
they should; its first three elements inserted after the first are not 1 2 3 but 1 1 1, and its last two elements
inserted at the front are not 3 4 but 1 2. It is appended to itself if it has room for eight, and if it has room for
four only this is undefined. -/
example : ∃ w, Reached natElem w ∧ observe w 0 = some ([1, 2, 3, 4], 8) ∧ observe w 1 = some ([1, 2, 3, 4], 4) ∧
    (∃ w', exec natElem w (.insertRange 0 4 (ownRange 0 0 2)) = .ok 4 w' ∧
      observe w' 0 = some ([1, 2, 3, 4, 1, 2], 8)) ∧
    (∃ w', exec natElem w (.insertRange 0 0 (ownRange 0 0 2)) = .ok 0 w' ∧
      observe w' 0 = some ([1, 2, 1, 2, 3, 4], 8)) ∧
    (∃ w', exec natElem w (.insertRange 1 1 (ownRange 1 0 3)) = .ok 1 w' ∧
      observe w' 1 = some ([1, 1, 2, 3, 2, 3, 4], 7)) ∧
    (∃ w', exec natElem w (.insertRange 0 1 (ownRange 0 0 3)) = .ok 1 w' ∧
      observe w' 0 = some ([1, 1, 1, 1, 2, 3, 4], 8)) ∧
    (∃ w', exec natElem w (.insertRange 0 0 (ownRange 0 2 4)) = .ok 0 w' ∧
      observe w' 0 = some ([1, 2, 1, 2, 3, 4], 8)) ∧
    CallYields natElem w (.pushRange 0 (ownRange 0 0 4)) 0 [1, 2, 3, 4, 1, 2, 3, 4] 8 0 ∧
    exec natElem w (.pushRange 1 (ownRange 1 0 4)) = .ub := by
  obtain ⟨w, hw, h⟩ := reached_of_spec natElem rfl
    (ops := [.ctorRange 0 [.val 1, .val 2, .val 3, .val 4], .reserve 0 8,
      .ctorRange 1 [.val 1, .val 2, .val 3, .val 4]]) (rs := [0, 0, 0]) rfl
  have h0 : observe w 0 = some ([1, 2, 3, 4], 8) := by rw [h]; rfl
  have h1 : observe w 1 = some ([1, 2, 3, 4], 4) := by rw [h]; rfl
  have ex : ∀ {i j pos : Nat} (hij : i ≤ j) (hj : j ≤ 4) (hpos : pos ≤ 4) (ys : List Nat),
      (∀ zs : List Nat, zs.length = j - i → (∀ n, n < j - i → zs[n]? =
        if i < pos then [1, 2, 3, 4][i + n % (pos - i)]?
        else if i + n < pos + (j - i) then [1, 2, 3, 4][i + n]? else [1, 2, 3, 4][i + n - (j - i)]?) → zs = ys) →
      ∃ w', exec natElem w (.insertRange 0 pos (ownRange 0 i j)) = .ok pos w' ∧
        observe w' 0 = some ([1, 2, 3, 4].take pos ++ ys ++ [1, 2, 3, 4].drop pos, 8) := by
    intro i j pos hij hj hpos ys hu
    obtain ⟨zs, g1, g2, w', g3, g4, -⟩ := array_insert_own_range_exact rfl hw h0 hij hj pos hpos
      (show 4 + (j - i) ≤ 8 by omega)
    rw [hu zs g1 g2] at g4
    exact ⟨w', g3, g4⟩
  have par : ∀ {b cap i j pos : Nat} (_ : observe w b = some ([1, 2, 3, 4], cap)) (hij : i ≤ j) (hj : j ≤ 4)
      (hpos : pos ≤ 4) (_ : cap < 4 + (j - i) ∨ j ≤ pos ∨ i = pos),
      ∃ w', exec natElem w (.insertRange b pos (ownRange b i j)) = .ok pos w' ∧
        observe w' b = some ([1, 2, 3, 4].take pos ++ part [1, 2, 3, 4] i j ++ [1, 2, 3, 4].drop pos,
          if 4 + (j - i) ≤ cap then cap else cap + (j - i)) := by
    intro b cap i j pos hb hij hj hpos hok
    obtain ⟨w', g1, g2, -⟩ := array_insert_own_range_partial rfl hw hb hij hj pos hpos hok
    exact ⟨w', g1, g2⟩
  refine ⟨w, hw, h0, h1, par h0 (by decide) (by decide) (by decide) (by decide),
    par h0 (by decide) (by decide) (by decide) (by decide),
    par h1 (by decide) (by decide) (by decide) (by decide),
    ex (i := 0) (j := 3) (pos := 1) (by decide) (by decide) (by decide) [1, 1, 1] ?_,
    ex (i := 2) (j := 4) (pos := 0) (by decide) (by decide) (by decide) [1, 2] ?_,
    array_push_own_range_partial rfl hw h0 (by decide) (by decide) (by decide),
    array_push_own_range_undefined rfl hw h1 (by decide) (by decide) (by decide)⟩
  · intro zs g1 g2
    apply List.ext_getElem?
    intro n
    rcases Nat.lt_or_ge n 3 with hn | hn
    · rw [g2 n hn]
      rcases n with _ | _ | _ | n <;> first | rfl | omega
    · rw [List.getElem?_eq_none (by omega), List.getElem?_eq_none (by simpa using hn)]
  · intro zs g1 g2
    apply List.ext_getElem?
    intro n
    rcases Nat.lt_or_ge n 2 with hn | hn
    · rw [g2 n hn]
      rcases n with _ | _ | n <;> first | rfl | omega
    · rw [List.getElem?_eq_none (by omega), List.getElem?_eq_none (by simpa using hn)]

end Verif.Arr
