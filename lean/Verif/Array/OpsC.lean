import Verif.Array.OpsB

/-! Specifications of the `Array` member functions, continued: insertion and erasure. -/

set_option autoImplicit false

namespace Verif.Arr

variable {α : Type} (cfg : Elem α)

/-- `xs` with `ys` placed before position `pos`. -/
def insAt (xs : List α) (pos : Nat) (ys : List α) : List α := xs.take pos ++ ys ++ xs.drop pos

theorem insAt_length {xs : List α} {pos : Nat} {ys : List α} (h : pos ≤ xs.length) :
    (insAt xs pos ys).length = xs.length + ys.length := by
  simp [insAt]; omega

theorem insAt_getElem {xs : List α} {pos : Nat} {ys : List α} (h : pos ≤ xs.length) (i : Nat)
    (hi : i < (insAt xs pos ys).length) :
    (insAt xs pos ys)[i] =
      if h1 : i < pos then xs[i]
      else if h2 : i < pos + ys.length then ys[i - pos]
      else xs[i - ys.length]'(by rw [insAt_length h] at hi; omega) := by
  have hi' := hi
  rw [insAt_length h] at hi'
  simp only [insAt]
  split
  · rename_i h1
    rw [List.getElem_append_left (by simp; omega), List.getElem_append_left (by simp; omega),
      List.getElem_take]
  · rename_i h1
    split
    · rename_i h2
      rw [List.getElem_append_left (by simp; omega), List.getElem_append_right (by simp; omega)]
      congr 1
      simp; omega
    · rename_i h2
      rw [List.getElem_append_right (by simp; omega), List.getElem_drop]
      congr 1
      simp; omega

/-- What `*p = value` reads in the in-place branch of `insert(pos, value)`, where the elements from
`pos` on have been shifted: for a reference to an own element behind `pos` it is the element before
it. -/
def ShiftOk (m : Mem α) (blk : Nat) (pos : Nat) (xs : List α) (src : Src α) (v : α) : Prop :=
  match src with
  | .val u => u = v
  | .ref b i =>
    if b = blk then
      if i ≤ pos then
        xs[i]?.map (fun x => if i = pos ∧ cfg.triv = false then cfg.husk x else x) = some v
      else xs[i - 1]? = some v
    else inBounds m b i = true ∧ m.cell b i = .live v

theorem wp_reallocInsert (ht : cfg.triv = true) {s : St α} {xs : List α} {src : Src α} {v : α}
    {pos : Nat} {Q : Nat → St α → Prop} {E : St α → Prop}
    (hw : WF s.mem) (hh : Holds cfg s.mem s.d xs) (hpos : pos < xs.length)
    (hsrc : SrcOk s.mem src v)
    (hQ : ∀ s', Post cfg s s' (insAt xs pos [v]) (xs.length + max xs.length 1) → Q pos s')
    (hE : ∀ s', Post cfg s s' xs s.d.cap → s.mem.ticks ≠ none → E s') :
    wp (reallocInsert cfg pos src) s Q E := by
  have hsz := hh.size
  have hle := hh.le
  have hblk := hh.alive cfg (by omega)
  have hb0 : s.d.blk ≠ 0 := by intro h; rw [h, hw.null] at hblk; cases hblk
  unfold reallocInsert
  rw [wp_bind, wp_getD]
  simp only
  rw [wp_bind]
  refine wp_allocate (fun s1 e1 => ?_) (fun s1 e1 h => hE s1 (Eff.post cfg e1 hw hh) h)
  have hf := e1.fresh hw
  obtain ⟨hne, hs1, hc1⟩ := hf.old s.d.blk (by rw [hblk]; simp)
  rw [hblk] at hs1
  have hsrc1 : SrcOk s1.mem src v := by
    cases src with
    | val u => exact hsrc
    | ref b i =>
      obtain ⟨h1, h2⟩ := hsrc
      have hx : s.mem.size b ≠ none := by intro hc; simp [inBounds, hc] at h1
      obtain ⟨_, g2, g3⟩ := hf.old b hx
      exact ⟨by simpa [inBounds, g2] using h1, by rw [g3]; exact h2⟩
  rw [wp_bind, wp_tryRethrow, wp_bind]
  refine wp_evalSrc cfg hsrc1 (fun s2 e2 => ?_) (fun s2 e2 h => ?_)
  · rw [wp_bind]
    refine wp_construct cfg ((inBounds_iff (by rw [e2.size]; exact hf.size_new)).mpr (by omega))
      (.inl ht) fun s3 e3 => ?_
    have hc3 : ∀ i, s3.mem.cell s.d.blk i = s.mem.cell s.d.blk i := by
      intro i
      rw [e3.cell]; simp only [upd2]
      rw [if_neg (by rintro ⟨h, _⟩; exact hne h), e2.cell, hc1]
    have hz3 : s3.mem.size = s1.mem.size := by rw [e3.size, e2.size]
    rw [wp_bind]
    refine wp_fwd cfg true (ns := s.d.cap) (nd := s.d.size + max s.d.size 1) (.inl ht) (.inl hne)
      (.inr ⟨by rw [hz3]; exact hs1, by rw [hz3]; exact hf.size_new, by omega, by omega⟩)
      (fun i hi => by rw [hc3]; exact hh.live cfg (by omega)) fun s4 e4 _ c4 => ?_
    have hc4 : ∀ i, s4.mem.cell s.d.blk i = s.mem.cell s.d.blk i := by
      intro i; rw [c4, if_neg (by rintro ⟨h, _⟩; exact hne h), hc3]
    refine wp_fwd cfg true (ns := s.d.cap) (nd := s.d.size + max s.d.size 1) (.inl ht) (.inl hne)
      (.inr ⟨by rw [e4.size, hz3]; exact hs1, by rw [e4.size, hz3]; exact hf.size_new, by omega,
        by omega⟩)
      (fun i hi => by rw [hc4]; exact hh.live cfg (by omega)) fun s5 e5 _ c5 => ?_
    have hsame : Same s1 s5 := ((e2.toSame.trans e3.toSame).trans e4).trans e5
    rw [wp_bind]
    refine wp_deallocate cfg (by rw [hsame.size]; exact hs1) (.inl ht) fun s6 e6 => ?_
    rw [wp_bind, wp_setD, wp_pure]
    have := replace_post cfg (xs' := insAt xs pos [v])
      (d' := ⟨s.mem.next, s.d.size + 1, s.d.size + max s.d.size 1⟩) hw hh hf hsame
      ?_ (.inr ⟨hb0, e6⟩) rfl (by rw [insAt_length (by omega), hsz]; rfl) rfl
      (by rw [insAt_length (by omega)]; simp; omega) ?_ (by rw [ht]; simp)
    · rw [hsz] at this
      have e : s.d.size = xs.length := hsz
      rw [e]
      exact hQ _ this
    · intro b h1 h2
      funext i
      rw [c5, if_neg (by rintro ⟨h, _⟩; exact h1 h), c4, if_neg (by rintro ⟨h, _⟩; exact h1 h),
        e3.cell]
      simp only [upd2]
      rw [if_neg (by rintro ⟨h, _⟩; exact h1 h), e2.cell]
    · intro i hi
      have hi' := hi
      rw [insAt_length (by omega)] at hi'
      simp only [List.length_cons, List.length_nil] at hi'
      rw [insAt_getElem (by omega), c5]
      split
      · rename_i h
        rw [dif_neg (by omega), dif_neg (by simp; omega), hc4]
        have h1 := hh.cells (i - 1) (by omega)
        have h2 : pos + (i - (pos + 1)) = i - 1 := by omega
        rw [h2, h1]
        simp
      · rename_i h
        rw [c4]
        split
        · rename_i h'
          rw [dif_pos (by omega), hc3]
          have h1 := hh.cells i (by omega)
          have h2 : 0 + (i - 0) = i := by omega
          rw [h2, h1]
        · rename_i h'
          have h3 : i = pos := by
            simp only [true_and] at h h'; omega
          subst h3
          rw [dif_neg (by omega), dif_pos (by simp), e3.cell]
          simp [upd2]
  · rw [wp_bind]
    refine wp_destroy cfg ((inBounds_iff (by rw [e2.size]; exact hf.size_new)).mpr (by omega))
      (.inl ht) fun s3 e3 => ?_
    refine wp_deallocate cfg (by rw [e3.size, e2.size]; exact hf.size_new) (.inl ht)
      fun s4 e4 => ?_
    refine hE _ (undo_post cfg hw hh hf (e2.toSame.trans e3.toSame) ?_ e4)
      (fun h0 => h (e1.ticks h0))
    intro b hb
    funext i
    rw [e3.cell]
    simp only [upd2]
    rw [if_neg (by rintro ⟨h, _⟩; exact hb h), e2.cell]

/-- Insertion of one value. -/
theorem wp_insert {s : St α} {xs : List α} {src : Src α} {v : α}
    {pos : Nat} {Q : Nat → St α → Prop} {E : St α → Prop}
    (hw : WF s.mem) (hh : Holds cfg s.mem s.d xs) (hpos : pos ≤ xs.length)
    (hc : cfg.triv = true ∨ (pos = xs.length ∧ xs = []) ∨ xs.length < s.d.cap)
    (hend : pos = xs.length → SrcOk s.mem src v ∧ (xs.length = s.d.cap → Foreign s.d.blk src))
    (hfull : pos < xs.length → xs.length = s.d.cap → SrcOk s.mem src v)
    (hplace : pos < xs.length → xs.length < s.d.cap → ShiftOk cfg s.mem s.d.blk pos xs src v)
    (hQ : ∀ s', Post cfg s s' (insAt xs pos [v])
        (if xs.length = s.d.cap then xs.length + max xs.length 1 else s.d.cap) → Q pos s')
    (hE : ∀ s' xs' c, Post cfg s s' xs' c → s.d.cap ≤ c → (pos = xs.length ∨ xs.length = s.d.cap → xs' = xs) →
      s.mem.ticks ≠ none → E s') :
    wp (insert cfg pos src) s Q E := by
  have hsz := hh.size
  have hle := hh.le
  unfold insert
  rw [wp_bind, wp_getD, wp_ite]
  split
  · rename_i hp
    obtain ⟨h1, h2⟩ := hend (by omega)
    rw [wp_bind]
    refine wp_emplaceBack cfg hw hh (hc.imp id fun h => h.imp (·.2) id) h1 h2
      (fun s' p _ _ => ?_) (fun s' c p g h => hE s' xs c p g (fun _ => rfl) h)
    rw [wp_bind, wp_getD, wp_pure]
    have e : s'.d.size - 1 = pos := by rw [p.holds.size]; simp; omega
    rw [e]
    refine hQ s' ?_
    have : insAt xs pos [v] = xs ++ [v] := by
      simp [insAt, show pos = xs.length by omega]
    rw [this]
    exact p
  · rename_i hp
    rw [wp_ite]
    split
    · rename_i hf
      have ht : cfg.triv = true := hc.resolve_right (by omega)
      refine wp_reallocInsert cfg ht hw hh (by omega) (hfull (by omega) (by omega))
        (fun s' p => hQ s' ?_) (fun s' p h => hE s' xs _ p (Nat.le_refl _) (fun _ => rfl) h)
      rw [if_pos (by omega)]; exact p
    · rename_i hf
      have hblk := hh.alive cfg (by omega)
      have hsh := hplace (by omega) (by omega)
      obtain ⟨last, hlast⟩ := hh.live cfg (i := s.d.size - 1) (by omega)
      rw [wp_bind]
      refine wp_moveFrom cfg ((inBounds_iff hblk).mpr (by omega)) hlast fun s1 e1 => ?_
      rw [wp_bind]
      refine wp_construct cfg ((inBounds_iff (by rw [e1.size]; exact hblk)).mpr (by omega)) ?_
        fun s2 e2 => ?_
      · by_cases ht : cfg.triv = true
        · exact .inl ht
        · right
          rw [e1.cell]; simp only [upd2]
          rw [if_neg (by omega)]
          exact hh.rest (by simpa using ht) _ (by omega) (by omega)
      rw [wp_bind, wp_setD, wp_bind]
      -- the elements, before and after the shift
      have hc2 : ∀ b i, s2.mem.cell b i = if b = s.d.blk ∧ i = s.d.size then .live last
          else if b = s.d.blk ∧ i = s.d.size - 1 then
            .live (if cfg.triv then last else cfg.husk last) else s.mem.cell b i := by
        intro b i; rw [e2.cell, e1.cell]; rfl
      have key : ∀ s3 : St α, Same { s2 with d := { s.d with size := s.d.size + 1 } } s3 →
          (∀ b i, (b ≠ s.d.blk ∨ i ≠ pos) → s3.mem.cell b i =
            if b = s.d.blk ∧ pos < i ∧ i < s.d.size + 1 then s.mem.cell s.d.blk (i - 1)
            else s.mem.cell b i) →
          s3.mem.cell s.d.blk pos = .live (if cfg.triv = false then cfg.husk (xs[pos]'(by omega))
            else xs[pos]'(by omega)) →
          wp (do let v ← evalSrc cfg src
                 assign cfg s.d.blk pos v
                 pure pos) s3 Q E := by
        intro s3 e3 hc3 ht3
        have hl3 : Live (s3.mem.cell s.d.blk pos) := ⟨_, ht3⟩
        have hz3 : s3.mem.size = s.mem.size := by rw [e3.size]; simp only; rw [e2.size, e1.size]
        -- the array as it stands holds some sequence of the new length
        have hpost : ∀ (s4 : St α) (u : α), s4.mem.size = s3.mem.size → s4.mem.next = s3.mem.next →
            s4.d = s3.d → (s3.mem.ticks = none → s4.mem.ticks = none) →
            (∀ b i, (b ≠ s.d.blk ∨ i ≠ pos) → s4.mem.cell b i = s3.mem.cell b i) →
            s4.mem.cell s.d.blk pos = .live u → Post cfg s s4 (insAt xs pos [u]) s.d.cap := by
          intro s4 u h1 h2 h3 h4 h5 h6
          have hd3 : s3.d = { s.d with size := s.d.size + 1 } := e3.d
          refine own_post cfg hw hh ?_ ?_ ?_ ?_ ?_ ?_ ?_ ?_ ?_ ?_
          · rw [h1, hz3]
          · rw [h2, e3.next]; simp only; rw [e2.next, e1.next]
          · intro h0; exact h4 (e3.ticks (e2.ticks (e1.ticks h0)))
          · intro b i hb
            rw [h5 b i (.inl hb), hc3 b i (.inl hb), if_neg (by rintro ⟨h, _⟩; exact hb h)]
          · rw [h3, hd3]
          · rw [h3, hd3]
          · rw [h3, hd3, insAt_length (by omega), hsz]; rfl
          · rw [insAt_length (by omega)]; simp; omega
          · intro i hi
            have hi' := hi
            rw [insAt_length (by omega)] at hi'
            simp only [List.length_cons, List.length_nil] at hi'
            rw [insAt_getElem (by omega)]
            by_cases h : i = pos
            · subst h
              rw [dif_neg (by omega), dif_pos (by simp), h6]; simp
            · rw [h5 _ _ (.inr h), hc3 _ _ (.inr h)]
              split
              · rw [dif_neg (by omega), dif_neg (by simp; omega)]
                have := hh.cells (i - 1) (by omega)
                rw [this]; simp
              · rename_i h'
                rw [dif_pos (by simp at h'; omega)]
                exact hh.cells i (by simp at h'; omega)
          · intro ht i g1 g2
            rw [insAt_length (by omega)] at g1
            simp only [List.length_cons, List.length_nil] at g1
            rw [h5 _ _ (.inr (by omega)), hc3 _ _ (.inr (by omega)), if_neg (by omega)]
            exact hh.rest ht i (by omega) g2
        have hsrc3 : SrcOk s3.mem src v := by
          cases src with
          | val u => exact hsh
          | ref b i =>
            simp only [ShiftOk] at hsh
            split at hsh
            · rename_i hb
              subst hb
              split at hsh
              · rename_i hi
                rw [List.getElem?_eq_getElem (by omega), Option.map_some, Option.some.injEq] at hsh
                refine ⟨(inBounds_iff (by rw [hz3]; exact hblk)).mpr (by omega), ?_⟩
                by_cases h : i = pos
                · subst h
                  rw [ht3, ← hsh]; simp
                · rw [if_neg (by rintro ⟨h', _⟩; exact h h')] at hsh
                  rw [hc3 _ _ (.inr h), if_neg (by omega), hh.cells i (by omega), hsh]
              · rename_i hi
                rw [List.getElem?_eq_some_iff] at hsh
                obtain ⟨hx1, hx2⟩ := hsh
                refine ⟨(inBounds_iff (by rw [hz3]; exact hblk)).mpr (by omega), ?_⟩
                rw [hc3 _ _ (.inr (by omega)), if_pos ⟨rfl, by omega, by omega⟩,
                  hh.cells (i - 1) (by omega), hx2]
            · rename_i hb
              refine ⟨by simpa [inBounds, hz3] using hsh.1, ?_⟩
              rw [hc3 _ _ (.inl hb), if_neg (by rintro ⟨h, _⟩; exact hb h)]
              exact hsh.2
        rw [wp_bind]
        refine wp_evalSrc cfg hsrc3 (fun s4 e4 => ?_) (fun s4 e4 h => ?_)
        · rw [wp_bind]
          refine wp_assign cfg ((inBounds_iff (by rw [e4.size, hz3]; exact hblk)).mpr (by omega))
            (.inr (by rw [e4.cell]; exact hl3)) fun s5 e5 => ?_
          rw [wp_pure]
          refine hQ s5 ?_
          rw [if_neg (by omega)]
          refine hpost s5 v ?_ ?_ ?_ ?_ ?_ ?_
          · rw [e5.size, e4.size]
          · rw [e5.next, e4.next]
          · rw [e5.d, e4.d]
          · intro h0; exact e5.ticks (e4.ticks h0)
          · intro b i h
            rw [e5.cell]; simp only [upd2]
            rw [if_neg (by rintro ⟨h1, h2⟩; rcases h with h | h; exact h h1; exact h h2), e4.cell]
          · rw [e5.cell]; simp [upd2]
        · obtain ⟨u, hu⟩ := hl3
          refine hE s4 _ _ (hpost s4 u e4.size e4.next e4.d e4.ticks (fun b i _ => by rw [e4.cell])
            (by rw [e4.cell]; exact hu)) (Nat.le_refl _) (fun hx => by omega) ?_
          intro h0
          exact h (e3.ticks (e2.ticks (e1.ticks h0)))
      by_cases ht : cfg.triv = true
      · refine wp_back cfg true (nb := s.d.cap) (.inl ht) (by omega)
          (.inr ⟨by simp only; rw [e2.size, e1.size]; exact hblk, by omega⟩) ?_ fun s3 e3 c3 => ?_
        · intro i hi
          simp only
          rw [hc2, if_neg (by omega), if_neg (by omega)]
          exact hh.live cfg (by omega)
        · have hp3 : s3.mem.cell s.d.blk pos = s.mem.cell s.d.blk pos := by
            rw [c3, if_neg (by omega)]
            simp only
            rw [hc2, if_neg (by omega)]
            split
            · rename_i h; rw [h.2, hlast]
            · rfl
          refine key s3 e3 ?_ (by rw [hp3, hh.cells pos (by omega)]; simp [ht])
          intro b i hbi
          rw [c3]
          simp only
          by_cases hb : b = s.d.blk
          · subst hb
            by_cases h1 : pos + 1 ≤ i ∧ i < pos + 1 + (s.d.size - 1 - pos)
            · rw [if_pos ⟨rfl, h1⟩, if_pos ⟨rfl, by omega, by omega⟩, hc2, if_neg (by omega),
                if_neg (by omega)]
              congr 1; omega
            · rw [if_neg (by rintro ⟨_, h⟩; exact h1 h), hc2]
              by_cases h2 : i = s.d.size
              · subst h2
                rw [if_pos ⟨rfl, rfl⟩, if_pos ⟨rfl, by omega, by omega⟩, hlast]
              · rw [if_neg (by rintro ⟨_, h⟩; exact h2 h)]
                split
                · rename_i h3; rw [if_neg (by omega), h3.2, hlast]
                · rw [if_neg (by omega)]
          · rw [if_neg (by rintro ⟨h, _⟩; exact hb h), if_neg (by rintro ⟨h, _⟩; exact hb h), hc2,
              if_neg (by rintro ⟨h, _⟩; exact hb h), if_neg (by rintro ⟨h, _⟩; exact hb h)]
      · have hx : ∀ i, i < s.d.size - 1 - pos →
            s.mem.cell s.d.blk (pos + i) = .live ((fun i => (xs[pos + i]?).getD last) i) := by
          intro i hi
          rw [hh.cells (pos + i) (by omega)]
          simp [List.getElem?_eq_getElem (show pos + i < xs.length by omega)]
        refine wp_mono (wp_backLoop_one cfg (nb := s.d.cap) (s.d.size - 1 - pos) pos
          { s2 with d := { s.d with size := s.d.size + 1 } }
          (fun i => (xs[pos + i]?).getD last) (if cfg.triv then last else cfg.husk last)
          (.inr ⟨by simp only; rw [e2.size, e1.size]; exact hblk, by omega⟩) ?_ ?_ E) ?_
          (fun _ h => h)
        · intro i hi
          simp only
          rw [hc2, if_neg (by omega), if_neg (by omega)]
          exact hx i hi
        · simp only
          rw [hc2, if_neg (by omega), if_pos ⟨rfl, by omega⟩]
        · rintro _ s3 ⟨e3, hl3, c3⟩
          have ht' : cfg.triv = false := by simpa using ht
          refine key s3 e3 ?_ (by
            rw [hl3]
            by_cases h0 : s.d.size - 1 - pos = 0
            · have := hh.cells (s.d.size - 1) (by omega)
              rw [hlast] at this
              cases this
              simp only [h0, ht', if_true, Bool.false_eq_true, if_false]
              simp only [show s.d.size - 1 = pos by omega]
            · simp only [h0, ht', Bool.false_eq_true, if_false, Nat.add_zero, if_true]
              rw [List.getElem?_eq_getElem (by omega)]; rfl)
          intro b i hbi
          rw [c3 b i hbi]
          simp only
          by_cases hb : b = s.d.blk
          · subst hb
            by_cases h1 : pos + 1 ≤ i ∧ i < pos + 1 + (s.d.size - 1 - pos)
            · rw [if_pos ⟨rfl, h1⟩, if_pos ⟨rfl, by omega, by omega⟩]
              have := hx (i - (pos + 1)) (by omega)
              simp only at this
              rw [← this]
              congr 1; omega
            · rw [if_neg (by rintro ⟨_, h⟩; exact h1 h), hc2]
              by_cases h2 : i = s.d.size
              · subst h2
                rw [if_pos ⟨rfl, rfl⟩, if_pos ⟨rfl, by omega, by omega⟩, hlast]
              · rw [if_neg (by rintro ⟨_, h⟩; exact h2 h), if_neg (by omega), if_neg (by omega)]
          · rw [if_neg (by rintro ⟨h, _⟩; exact hb h), if_neg (by rintro ⟨h, _⟩; exact hb h), hc2,
              if_neg (by rintro ⟨h, _⟩; exact hb h), if_neg (by rintro ⟨h, _⟩; exact hb h)]

end Verif.Arr
