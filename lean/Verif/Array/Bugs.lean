import Verif.Array.Reach

/-! Executions of the `Array` model that go wrong, and operation counts (helper lemmas for
`Verif.Array.Props`). -/

set_option autoImplicit false

namespace Verif.Arr

variable {α : Type} (cfg : Elem α)

theorem wp_ok {σ β : Type} {f : M σ β} {s : σ} {Q : β → σ → Prop} (h : wp f s Q (fun _ => False)) :
    ∃ b s', f s = .ok b s' ∧ Q b s' := by
  unfold wp at h
  rcases hr : f s with ⟨b, s'⟩ | s' | _
  · rw [hr] at h; exact ⟨b, s', rfl, h⟩
  · rw [hr] at h; exact h.elim
  · rw [hr] at h; exact h.elim

theorem bind_of_ok {σ β γ : Type} {f : M σ β} {g : β → M σ γ} {s s' : σ} {b : β}
    (h : f s = .ok b s') : (f >>= g) s = g b s' := by
  show M.bind f g s = _
  unfold M.bind; rw [h]

theorem bind_of_ub {σ β γ : Type} {f : M σ β} {g : β → M σ γ} {s : σ}
    (h : f s = .ub) : (f >>= g) s = .ub := by
  show M.bind f g s = _
  unfold M.bind; rw [h]

theorem onVar_ub {w : World α} {a : Nat} {d : Data} {f : A α Nat} (hd : w.vars a = some d)
    (hf : f ⟨w.mem, d⟩ = .ub) : onVar w a f = .ub := by
  unfold onVar; rw [hd]; simp only; rw [hf]

theorem unit0_ub {f : A α Unit} {s : St α} (h : f s = .ub) : unit0 f s = .ub := bind_of_ub h

/-- Relocating objects of class type into raw storage is undefined. -/
theorem fwdLoop_raw_ub (ht : cfg.triv = false) {mv : Bool} {src so dst o n : Nat} {s : St α}
    (hne : src ≠ dst) (hl : Live (s.mem.cell src so)) (hb : inBounds s.mem src so = true)
    (hr : s.mem.cell dst o = .raw) (hn : s.mem.ticks = none) :
    fwdLoop cfg mv src so dst o (n + 1) s = .ub := by
  obtain ⟨v, hv⟩ := hl
  unfold fwdLoop
  have hfetch : wp (fetch cfg mv src so) s (fun _ s' => s'.mem.cell dst o = .raw)
      (fun _ => False) := by
    unfold fetch
    cases mv
    · simp only [Bool.false_eq_true, if_false]
      refine wp_copyFrom cfg hb hv (fun s' e => by rw [e.cell]; exact hr) (fun s' _ h _ => h hn)
    · simp only [if_true]
      refine wp_moveFrom cfg hb hv fun s' e => ?_
      rw [e.cell]; simp only [upd2]
      rw [if_neg (by rintro ⟨h, _⟩; exact hne h.symm)]; exact hr
  obtain ⟨u, s', h1, h2⟩ := wp_ok hfetch
  rw [bind_of_ok h1]
  apply bind_of_ub
  unfold assign
  rw [h2]
  simp [ht, Cell.isRaw]

theorem growStorage_class_ub (ht : cfg.triv = false) {n : Nat} {s : St α} {xs : List α}
    (hw : WF s.mem) (hh : Holds cfg s.mem s.d xs) (hx : xs ≠ []) (hn : s.mem.ticks = none) :
    growStorage cfg n s = .ub := by
  have hpos : 0 < xs.length := List.length_pos_iff.mpr hx
  have hsz := hh.size
  have hle := hh.le
  unfold growStorage
  rw [bind_of_ok (show getD s = .ok s.d s from rfl)]
  obtain ⟨nb, s1, h1, rfl, h3⟩ := wp_ok (f := allocate n) (s := s)
    (Q := fun nb s1 => nb = s.mem.next ∧ AllocEff s s1 n)
    (wp_allocate (fun s1 e => ⟨rfl, e⟩) (fun _ _ h => h hn))
  rw [bind_of_ok h1]
  have hf := h3.fresh hw
  have hb := hh.alive cfg (by omega)
  obtain ⟨g1, g2, g3⟩ := hf.old s.d.blk (by rw [hb]; simp)
  apply bind_of_ub
  obtain ⟨k, hk⟩ : ∃ k, s.d.size = k + 1 := ⟨s.d.size - 1, by omega⟩
  rw [hk]
  refine fwdLoop_raw_ub cfg ht g1 ?_ ?_ (hf.cell_new 0) (h3.ticks hn)
  · rw [g3]; exact hh.live cfg (by omega)
  · exact (inBounds_iff (by rw [g2]; exact hb)).mpr (by omega)

/-- Copying from a block that has been released. -/
theorem evalSrc_dead_ub {b i : Nat} {s : St α} (h : s.mem.size b = none) :
    evalSrc cfg (.ref b i) s = .ub := by
  unfold evalSrc copyFrom
  apply bind_of_ub
  unfold read
  simp [inBounds, h]

/-- `push_back` of an own element on a full array reads the released block. -/
theorem emplaceBack_own_ub {s : St α} {xs : List α} {i : Nat} (hw : WF s.mem)
    (hh : Holds cfg s.mem s.d xs) (hx : xs ≠ []) (hfull : xs.length = s.d.cap)
    (hn : s.mem.ticks = none) : emplaceBack cfg (.ref s.d.blk i) s = .ub := by
  have hpos : 0 < xs.length := List.length_pos_iff.mpr hx
  have hsz := hh.size
  unfold emplaceBack
  rw [bind_of_ok (show getD s = .ok s.d s from rfl)]
  unfold onlyIf
  rw [if_pos (by omega)]
  by_cases ht : cfg.triv = true
  · obtain ⟨_, s1, h1, p, h2⟩ := wp_ok (wp_growStorage cfg (n := s.d.size + max s.d.size 1)
      (Q := fun _ s' => Post cfg s s' xs (s.d.size + max s.d.size 1) ∧ s'.d.blk = s.mem.next)
      (E := fun _ => False) hw hh (.inl ht)
      (by omega) (fun s' p _ _ h => ⟨p, h⟩) (fun _ _ h => h hn))
    rw [bind_of_ok h1, bind_of_ok (show getD s1 = .ok s1.d s1 from rfl)]
    apply bind_of_ub
    apply evalSrc_dead_ub
    by_contra hal
    rcases p.upd.owned s.d.blk hal with h | h
    · have := hh.alive cfg (by omega)
      rw [h, h2, hw.fresh _ (Nat.le_refl _)] at this
      cases this
    · exact h.2 rfl
  · apply bind_of_ub
    exact growStorage_class_ub cfg (by simpa using ht) hw hh hx hn

/-- In-place insertion of an own element behind the position. -/
theorem insert_own_shift (ht : cfg.triv = true) {s : St α} {xs : List α} {pos i : Nat} (hw : WF s.mem)
    (hh : Holds cfg s.mem s.d xs) (hroom : xs.length < s.d.cap) (hpi : pos < i) (hi : i < xs.length)
    (hn : s.mem.ticks = none) :
    wp (insert cfg pos (.ref s.d.blk i)) s (fun r s' => r = pos ∧
      Post cfg s s' (insAt xs pos [xs[i - 1]]) s.d.cap) (fun _ => False) := by
  refine wp_insert cfg (v := xs[i - 1]) hw hh (by omega) (.inl ht) (fun h => by omega) (fun _ h => by omega)
    (fun _ _ => ?_) (fun s' p => ⟨rfl, ?_⟩) (fun _ _ _ _ _ _ h => h hn)
  · simp only [ShiftOk, if_true]
    rw [if_neg (by omega)]
    exact List.getElem?_eq_getElem (by omega)
  · rw [if_neg (by omega)] at p; exact p

/-- `erase` of an element other than the last one, for class types: the element is destroyed and then
assigned to. -/
theorem erase_class_ub (ht : cfg.triv = false) {s : St α} {xs : List α} {pos : Nat}
    (hh : Holds cfg s.mem s.d xs) (hpos : pos + 1 < xs.length) (hn : s.mem.ticks = none) :
    erase cfg pos s = .ub := by
  have hsz := hh.size
  have hle := hh.le
  have hb := hh.alive cfg (by omega)
  unfold erase
  rw [bind_of_ok (show getD s = .ok s.d s from rfl)]
  obtain ⟨_, s1, h1, h2⟩ := wp_ok (wp_destroy cfg (Q := fun _ s1 => Eff s s1
      (upd2 s.mem.cell s.d.blk pos .raw)) (E := fun _ => False)
    ((inBounds_iff hb).mpr (show pos < s.d.cap by omega)) (.inr (hh.live cfg (by omega)))
    (fun s1 e => e))
  rw [bind_of_ok h1]
  apply bind_of_ub
  obtain ⟨k, hk⟩ : ∃ k, s.d.size - (pos + 1) = k + 1 := ⟨s.d.size - (pos + 1) - 1, by omega⟩
  rw [hk]
  unfold fwdLoop
  obtain ⟨v, hv⟩ := hh.live cfg (i := pos + 1) (by omega)
  obtain ⟨u, s2, g1, g2⟩ := wp_ok (f := fetch cfg false s.d.blk (pos + 1)) (s := s1)
    (Q := fun _ s2 => Eff s1 s2 s1.mem.cell) (by
      unfold fetch
      simp only [Bool.false_eq_true, if_false]
      refine wp_copyFrom cfg (v := v) ?_ ?_ (fun _ e => e) (fun _ _ h _ => h (h2.ticks hn))
      · exact (inBounds_iff (by rw [h2.size]; exact hb)).mpr (by omega)
      · rw [h2.cell]; simp only [upd2]; rw [if_neg (by omega)]; exact hv)
  rw [bind_of_ok g1]
  apply bind_of_ub
  unfold assign
  rw [g2.cell, h2.cell]
  simp [upd2, Cell.isRaw, ht]

/-- A program state in which the operation after `n` more potentially throwing ones throws. -/
def withFault (w : World α) (n : Nat) : World α := { w with mem := { w.mem with ticks := some n } }

theorem Inv.withFault {w : World α} {A : AWorld α} (h : Inv cfg w A) (n : Nat) :
    Inv cfg (withFault w n) A :=
  ⟨⟨h.wf.fresh, h.wf.null, h.wf.pos⟩, h.none_iff, fun x d xs c hv hA => by
    obtain ⟨hh, hc⟩ := h.rep x d xs c hv hA
    exact ⟨⟨hh.size, hh.le, hh.blk, hh.cells, hh.rest⟩, hc⟩, h.dist, h.owned⟩

/-- The first element copy of a copy construction throws. -/
theorem copy_throw_ub (ht : cfg.triv = false) {w : World α} {A : AWorld α} (h : Inv cfg w A)
    {a b : Nat} {xs : List α} {c : Nat} (hx : xs ≠ []) (ha : A a = none) (hb : A b = some (xs, c)) :
    exec cfg (withFault w 1) (.ctorCopy a b) = .ub := by
  have h' := h.withFault cfg 1
  obtain ⟨d, hd, hh, hcap⟩ := h'.get cfg hb
  have hpos : 0 < xs.length := List.length_pos_iff.mpr hx
  have hsz := hh.size
  have hle := hh.le
  simp only [exec, hd]
  unfold onNew
  rw [(h'.none_iff a).mpr ha]
  simp only
  suffices hs : ctorRange cfg (refsOf d) (⟨(withFault w 1).mem, .null⟩ : St α) = .ub by rw [hs]
  obtain ⟨k, hk⟩ : ∃ k, d.size = k + 1 := ⟨d.size - 1, by omega⟩
  have hrefs : (refsOf d : List (Src α)) = .ref d.blk 0 :: (List.range' 1 k).map (.ref d.blk) := by
    unfold refsOf
    rw [hk, List.range_eq_range', List.range'_succ]; rfl
  have hlen : (refsOf d : List (Src α)).length = d.size := by simp [refsOf]
  have hblk := hh.alive cfg (by omega)
  have hblk' : w.mem.size d.blk = some d.cap := hblk
  have hne : d.blk ≠ w.mem.next := by
    intro he; rw [he, h.wf.fresh _ (Nat.le_refl _)] at hblk'; cases hblk'
  have hcell : w.mem.cell d.blk 0 = .live xs[0] := hh.cells 0 hpos
  unfold ctorRange
  rw [hlen]
  have h1 : (ctorCap d.size : M (St α) Unit) ⟨(Arr.withFault w 1).mem, .null⟩ = .ok () ⟨{
      size := upd w.mem.size w.mem.next (some d.size)
      cell := upd w.mem.cell w.mem.next (fun _ => .raw)
      next := w.mem.next + 1
      ticks := some 0
      allocs := w.mem.allocs + 1
      moves := w.mem.moves
      copies := w.mem.copies }, ⟨w.mem.next, 0, d.size⟩⟩ := rfl
  rw [bind_of_ok h1, bind_of_ok (f := getD) rfl]
  apply bind_of_ub
  unfold M.tryRethrow
  simp only
  suffices hs : copyLoop cfg w.mem.next 0 (refsOf d) (⟨{
      size := upd w.mem.size w.mem.next (some d.size)
      cell := upd w.mem.cell w.mem.next (fun _ => .raw)
      next := w.mem.next + 1
      ticks := some 0
      allocs := w.mem.allocs + 1
      moves := w.mem.moves
      copies := w.mem.copies }, ⟨w.mem.next, 0, d.size⟩⟩ : St α) = .ub by rw [hs]
  rw [hrefs]
  unfold copyLoop
  apply bind_of_ub
  unfold M.tryRethrow
  have h2 : ∀ s : St α, s.mem.size d.blk = some d.cap → s.mem.cell d.blk 0 = .live xs[0] →
      s.mem.ticks = some 0 →
      evalSrc cfg (.ref d.blk 0) s = .throw { s with mem := { s.mem with ticks := none } } := by
    intro s g1 g2 g3
    show copyFrom cfg d.blk 0 s = _
    unfold copyFrom
    rw [bind_of_ok (b := xs[0]) (s' := s) (by unfold read; simp [inBounds, g1, g2]; omega)]
    show M.bind _ _ _ = _
    unfold M.bind copyTick
    simp [ht, tick, g3]
  have h3 : (do let v ← evalSrc cfg (.ref d.blk 0); construct cfg w.mem.next 0 v : M (St α) Unit) ⟨{
      size := upd w.mem.size w.mem.next (some d.size)
      cell := upd w.mem.cell w.mem.next (fun _ => .raw)
      next := w.mem.next + 1
      ticks := some 0
      allocs := w.mem.allocs + 1
      moves := w.mem.moves
      copies := w.mem.copies }, ⟨w.mem.next, 0, d.size⟩⟩ = .throw ⟨{
      size := upd w.mem.size w.mem.next (some d.size)
      cell := upd w.mem.cell w.mem.next (fun _ => .raw)
      next := w.mem.next + 1
      ticks := none
      allocs := w.mem.allocs + 1
      moves := w.mem.moves
      copies := w.mem.copies }, ⟨w.mem.next, 0, d.size⟩⟩ := by
    show M.bind _ _ _ = _
    unfold M.bind
    rw [h2 _ (by simp [upd, hne, hblk']) (by simp [upd, hne, hcell]) rfl]
  rw [h3]
  rfl

/-! ### Counting -/

/-- Appending one value, with counts. -/
theorem exec_push_counts (ht : cfg.triv = true) {w : World α} {A : AWorld α} (h : Inv cfg w A)
    (hn : w.mem.ticks = none) {a : Nat} {xs : List α} {c : Nat} (hA : A a = some (xs, c)) (v : α) :
    ∃ w', exec cfg w (.pushBack a (.val v)) = .ok 0 w' ∧
      Inv cfg w' (put A a (some (xs ++ [v], grown xs.length c))) ∧ w'.mem.ticks = none ∧
      w'.mem.moves = w.mem.moves + (if xs.length = c then xs.length else 0) ∧
      w'.mem.allocs = w.mem.allocs + (if xs.length = c then 1 else 0) := by
  obtain ⟨d, hd, hh, hc⟩ := h.get cfg hA
  subst hc
  obtain ⟨r, s', h1, h2, h3, h4, h5⟩ := wp_ok (wp_unit0 (f := emplaceBack cfg (.val v))
    (s := ⟨w.mem, d⟩) (E := fun _ => False)
    (Q := fun r s' => r = 0 ∧ Post cfg ⟨w.mem, d⟩ s' (xs ++ [v]) (grown xs.length d.cap) ∧
      s'.mem.moves = w.mem.moves + (if xs.length = d.cap then xs.length else 0) ∧
      s'.mem.allocs = w.mem.allocs + (if xs.length = d.cap then 1 else 0))
    (wp_emplaceBack cfg (v := v) h.wf hh (.inl ht) rfl (fun _ => trivial)
      (fun s' p hm ha => ⟨rfl, p, hm, ha⟩) (fun _ _ _ _ h => h hn)))
  subst h2
  refine ⟨⟨s'.mem, upd w.vars a (some s'.d)⟩, ?_, h.update cfg (.inl hd) h3, h3.ticks hn, h4, h5⟩
  simp only [exec, resolve, onVar, hd, h1]

/-- Relation between the length, the capacity and the counts while appending to an array. -/
def Amort (len cap moves allocs : Nat) : Prop :=
  (allocs = 0 ∧ moves = 0) ∨ (0 < allocs ∧ cap < 2 * len ∧ moves < cap ∧ 2 ^ (allocs - 1) ≤ cap)

theorem Amort.push {len cap moves allocs : Nat} (h : Amort len cap moves allocs)
    (_hle : len ≤ cap) :
    Amort (len + 1) (grown len cap) (moves + (if len = cap then len else 0))
      (allocs + (if len = cap then 1 else 0)) := by
  unfold Amort at *
  unfold grown
  by_cases hf : len = cap
  · simp only [hf, if_true]
    right
    rcases h with ⟨h1, h2⟩ | ⟨h1, h2, h3, h4⟩
    · subst h1 h2
      simp
      omega
    · obtain ⟨k, rfl⟩ : ∃ k, allocs = k + 1 := ⟨allocs - 1, by omega⟩
      simp only [Nat.add_sub_cancel] at h4 ⊢
      rw [Nat.pow_succ]
      omega
  · simp only [hf, if_false, Nat.add_zero]
    rcases h with h | ⟨h1, h2, h3, h4⟩
    · exact .inl h
    · exact .inr ⟨h1, by omega, h3, h4⟩

theorem run_push_counts (ht : cfg.triv = true) {a : Nat} : ∀ (vs : List α) {w : World α}
    {A : AWorld α} {xs : List α} {c m0 k0 m k : Nat}, Inv cfg w A → w.mem.ticks = none →
    A a = some (xs, c) → w.mem.moves = m0 + m → w.mem.allocs = k0 + k →
    Amort xs.length c m k →
    ∃ w' c' m' k', run cfg w (vs.map fun v => .pushBack a (.val v)) = .ok (vs.map fun _ => 0) w' ∧
      Inv cfg w' (put A a (some (xs ++ vs, c'))) ∧
      w'.mem.moves = m0 + m' ∧ w'.mem.allocs = k0 + k' ∧ Amort (xs.length + vs.length) c' m' k'
  | [], w, A, xs, c, m0, k0, m, k, h, _, hA, hm, hk, hI =>
    ⟨w, c, m, k, rfl, by rw [List.append_nil, put_self _ _ _ hA]; exact h, hm, hk, hI⟩
  | v :: vs, w, A, xs, c, m0, k0, m, k, h, hn, hA, hm, hk, hI => by
    obtain ⟨w1, e1, i1, n1, m1, k1⟩ := exec_push_counts cfg ht h hn hA v
    have hle : xs.length ≤ c := by
      obtain ⟨d, hd, hh, hc⟩ := h.get cfg hA
      have := hh.size
      have := hh.le
      omega
    obtain ⟨w', c', m', k', f1, f2, f3, f4, f5⟩ := run_push_counts ht vs (m0 := m0) (k0 := k0)
      (m := m + (if xs.length = c then xs.length else 0))
      (k := k + (if xs.length = c then 1 else 0)) i1 n1
      (show put A a (some (xs ++ [v], grown xs.length c)) a = some (xs ++ [v], grown xs.length c) by
        simp [put])
      (by rw [m1, hm]; omega) (by rw [k1, hk]; omega) (by
        have := hI.push hle
        simpa using this)
    refine ⟨w', c', m', k', ?_, ?_, f3, f4, ?_⟩
    · simp [run, e1, f1]
    · have e : put (put A a (some (xs ++ [v], grown xs.length c))) a (some (xs ++ [v] ++ vs, c')) =
          put A a (some (xs ++ v :: vs, c')) := by
        funext j; simp only [put]; split <;> simp
      rw [e] at f2; exact f2
    · have : xs.length + (v :: vs).length = (xs ++ [v]).length + vs.length := by simp; omega
      rw [this]; exact f5

end Verif.Arr
