import Verif.LinkedList.Merge
import Verif.LinkedList.ClientsProps

/-! # Merging two lists (C190) -/

set_option autoImplicit false

namespace Verif.LL

open Verif.Sorting

variable {α : Type} {E : Env α} {h : List (Op α × Outcome)} {s s' : St α}

variable {L : Nat → Option (Els α)} {l b : Nat}

/-! ### Lemmas on lists -/

theorem merge_stably {lt : α → α → Bool} (hw : Weak lt) : ∀ {xs ys : List α}, InOrder lt xs → InOrder lt ys →
    StablySorted lt (xs ++ ys) (List.merge xs ys fun x y => !lt y x)
  | [], ys, _, hy => by simpa [List.merge] using hy.stable
  | x :: xs, [], hx, _ => by simpa [List.merge] using hx.stable
  | x :: xs, y :: ys, hx, hy => by
    have hx' := List.pairwise_cons.1 hx
    have hy' := List.pairwise_cons.1 hy
    cases hlt : lt y x with
    | false =>
      rw [List.cons_merge_cons_pos _ _ _ (by simp [hlt])]
      obtain ⟨h1, h2, h3⟩ := merge_stably hw hx'.2 hy
      refine ⟨List.pairwise_cons.2 ⟨fun z hz => ?_, h1⟩, h2.cons x, fun w => ?_⟩
      · rcases List.mem_append.1 (h2.mem_iff.1 hz) with hz | hz
        · exact hx'.1 z hz
        · rcases List.mem_cons.1 hz with rfl | hz
          · exact hlt
          · exact hw.trans _ _ _ hlt (hy'.1 z hz)
      · rw [List.cons_append, List.filter_cons, List.filter_cons, h3 w]
    | true =>
      rw [List.cons_merge_cons_neg _ _ _ (by simp [hlt])]
      obtain ⟨h1, h2, h3⟩ := merge_stably hw hx hy'.2
      have hall : ∀ z ∈ x :: xs, lt y z = true := by
        intro z hz
        rcases List.mem_cons.1 hz with rfl | hz
        · exact hlt
        · cases hyz : lt y z with
          | true => rfl
          | false =>
            have := hw.trans _ _ _ (hx'.1 z hz) hyz
            exact absurd (hw.trans x z y (hx'.1 z hz) hyz) (by simp [hlt])
      refine ⟨List.pairwise_cons.2 ⟨fun z hz => ?_, h1⟩, (h2.cons y).trans List.perm_middle.symm, fun w => ?_⟩
      · rcases List.mem_append.1 (h2.mem_iff.1 hz) with hz | hz
        · exact hw.asymm _ _ (hall z hz)
        · exact hy'.1 z hz
      · rw [List.filter_cons, h3 w, List.filter_append, List.filter_append, List.filter_cons (x := y)]
        split
        · next hyw =>
          rw [Bool.and_eq_true, Bool.not_eq_true', Bool.not_eq_true'] at hyw
          have : (x :: xs).filter (fun x => !lt x w && !lt w x) = [] := by
            rw [List.filter_eq_nil_iff]
            intro z hz hzw
            rw [Bool.and_eq_true, Bool.not_eq_true', Bool.not_eq_true'] at hzw
            -- `z ≤ w ≤ y`, but `y < z`
            have := hw.trans z w y
            have h4 := hw.trans z w y hzw.2 hyw.1
            exact absurd h4 (by simp [hall z hz])
          rw [this]; simp
        · rfl

/-! ### The loop -/

theorem mergeFrom_spec (lt : α → α → Bool) (hlb : l ≠ b) : ∀ (fuel : Nat) (pre post bs : Els α) (s : St α)
    (L : Nat → Option (Els α)), At E s L → L l = some (pre ++ post) → L b = some bs → post.length + bs.length < fuel →
    wp (mergeFrom E lt b fuel (posPtr l pre)) s
      (fun _ s' => ∃ zs, At E s' (upd (upd L l (some (pre ++ zs))) b (some [])) ∧ post.Sublist zs ∧
        zs.map Prod.snd = List.merge (post.map Prod.snd) (bs.map Prod.snd) fun x y => !lt y x)
      (fun s' => ∃ zs c d, At E s' (upd (upd L l (some (pre ++ zs))) b (some d)) ∧ post.Sublist zs ∧ bs = c ++ d ∧ d ≠ [] ∧
        zs.map Prod.snd = List.merge (post.map Prod.snd) (c.map Prod.snd) fun x y => !lt y x)
  | 0, _, _, _, _, _, _, _, _, hf => absurd hf (by omega)
  | fuel + 1, pre, post, [], s, L, ha, hl, hb, _ => by
    unfold mergeFrom
    rw [wp_bind, wp_of_eq (ha.empty hb), wp_ite, if_pos (by rfl), wp_pure]
    exact ⟨post, by rw [upd_self L l hl, upd_self L b hb]; exact ha, .refl _, by simp⟩
  | fuel + 1, pre, post, y :: bs, s, L, ha, hl, hb, hf => by
    unfold mergeFrom
    rw [wp_bind, wp_of_eq (ha.empty hb), wp_ite, if_neg (by simp), wp_bind, wp_of_eq (ha.front hb), wp_bind,
      wp_of_eq (ha.next hl)]
    -- the step that moves `y`
    have step : (∀ x ∈ post.head?, lt y.2 x.2 = true) →
        wp (insertAfter E (posPtr l pre) y.2 >>= fun p => popFront b >>= fun _ => mergeFrom E lt b fuel p) s
          (fun _ s' => ∃ zs, At E s' (upd (upd L l (some (pre ++ zs))) b (some [])) ∧ post.Sublist zs ∧
            zs.map Prod.snd = List.merge (post.map Prod.snd) ((y :: bs).map Prod.snd) fun x y => !lt y x)
          (fun s' => ∃ zs c d, At E s' (upd (upd L l (some (pre ++ zs))) b (some d)) ∧ post.Sublist zs ∧ y :: bs = c ++ d ∧
            d ≠ [] ∧ zs.map Prod.snd = List.merge (post.map Prod.snd) (c.map Prod.snd) fun x y => !lt y x) := by
      intro hy
      have hm : ∀ c : List α, List.merge (post.map Prod.snd) (y.2 :: c) (fun x y => !lt y x) =
          y.2 :: List.merge (post.map Prod.snd) c fun x y => !lt y x := by
        intro c
        cases post with
        | nil => simp
        | cons x post =>
          rw [List.map_cons, List.cons_merge_cons_neg _ _ _ (by simp [hy x (by simp)])]
      rw [wp_bind]
      refine wp_mono (ha.insert hl y.2) ?_ ?_
      · rintro _ s1 ⟨a, rfl, -, h1⟩
        rw [wp_bind]
        have hb1 : upd L l (some (pre ++ (a, y.2) :: post)) b = some ([] ++ y :: bs) := by
          rw [upd_other _ _ (Ne.symm hlb)]; exact hb
        refine wp_mono (h1.erase (pre := []) hb1) ?_ (fun _ hF => hF.elim)
        intro _ s2 h2
        have := mergeFrom_spec lt hlb fuel (pre ++ [(a, y.2)]) post bs s2 _ h2
          (by rw [upd_other _ _ hlb, upd_same]; simp) (by rw [upd_same]; rfl) (by simp at hf; omega)
        rw [posPtr_snoc] at this
        have hupd : ∀ zs d : Els α, upd (upd (upd (upd L l (some (pre ++ (a, y.2) :: post))) b (some ([] ++ bs))) l
            (some (pre ++ [(a, y.2)] ++ zs))) b (some d) = upd (upd L l (some (pre ++ (a, y.2) :: zs))) b (some d) := by
          intro zs d
          rw [upd_comm _ _ _ (Ne.symm hlb), upd_upd, upd_upd, List.append_assoc, List.singleton_append]
        refine wp_mono this ?_ ?_
        · rintro _ s3 ⟨zs, h3, h4, h5⟩
          rw [hupd] at h3
          exact ⟨(a, y.2) :: zs, h3, h4.cons _, by rw [List.map_cons, h5, List.map_cons, hm]⟩
        · rintro s3 ⟨zs, c, d, h3, h4, h5, h6, h7⟩
          rw [hupd] at h3
          exact ⟨(a, y.2) :: zs, y :: c, d, h3, h4.cons _, by rw [h5]; rfl, h6, by rw [List.map_cons, h7, List.map_cons, hm]⟩
      · intro s1 h1
        exact ⟨post, [], y :: bs, by rw [upd_self L l hl, upd_self L b hb]; exact h1, .refl _, rfl, by simp, by simp⟩
    rw [wp_ite]
    cases post with
    | nil =>
      rw [if_pos (by rfl)]
      exact step (by simp)
    | cons x post =>
      rw [if_neg (by simp [ptr, «end»]), wp_bind]
      show wp (deref (some (.node x.1))) s _ _
      rw [wp_of_eq (ha.deref hl), wp_ite]
      cases hlt : lt y.2 x.2 with
      | true =>
        rw [if_pos rfl]
        exact step (by simp [hlt])
      | false =>
        rw [if_neg (by simp)]
        have := mergeFrom_spec lt hlb fuel (pre ++ [x]) post (y :: bs) s L ha (by simpa using hl) hb
          (by simp at hf ⊢; omega)
        rw [show posPtr l (pre ++ [x]) = ptr (x :: post) none from posPtr_snoc ..] at this
        refine wp_mono this ?_ ?_
        · rintro _ s3 ⟨zs, h3, h4, h5⟩
          rw [List.append_assoc, List.singleton_append] at h3
          refine ⟨x :: zs, h3, h4.cons_cons _, ?_⟩
          rw [List.map_cons, h5, List.map_cons, List.map_cons, List.cons_merge_cons_pos _ _ _ (by simp [hlt])]
        · rintro s3 ⟨zs, c, d, h3, h4, h5, h6, h7⟩
          rw [List.append_assoc, List.singleton_append] at h3
          refine ⟨x :: zs, c, d, h3, h4.cons_cons _, h5, h6, ?_⟩
          rw [List.map_cons, h7]
          cases c with
          | nil => simp
          | cons z c =>
            obtain ⟨rfl, -⟩ := List.cons.inj h5
            rw [List.map_cons, List.map_cons, List.cons_merge_cons_pos _ _ _ (by simp [hlt])]

/-! ### C190 -/

theorem its_values (zs : Els α) : (its zs).map Prod.snd = zs.map Prod.snd := by simp [its]

/-- C190. Two different lists in order, in a program with any other lists: afterwards the first holds the elements of both, stably
sorted, its own before equal ones of the second; the iterators to its own elements still refer to them; the second is empty and
the other lists are as before. If an insertion throws, the first holds its own and some first elements of the second,
sorted in the same way, and the second holds exactly the rest: nothing is lost and nothing is there twice. -/
theorem mergeLists_result (hr : Reach E h s) {I : Nat → Option (List (Ptr × α))} (hs : SeesIts s I) {xs ys : List (Ptr × α)}
    (hl : I l = some xs) (hb : I b = some ys) (hlb : l ≠ b) {lt : α → α → Bool} (hw : Weak lt)
    (hx : InOrder lt (xs.map Prod.snd)) (hy : InOrder lt (ys.map Prod.snd)) {fuel : Nat} (hf : xs.length + ys.length < fuel) :
    (∃ s' zs, mergeLists E lt fuel l b s = .ok () s' ∧ (∃ h', Reach E h' s') ∧
      SeesIts s' (put (put I l (some zs)) b (some [])) ∧ xs.Sublist zs ∧
      StablySorted lt (xs.map Prod.snd ++ ys.map Prod.snd) (zs.map Prod.snd)) ∨
    (∃ s' zs c d, mergeLists E lt fuel l b s = .thrown s' ∧ (∃ h', Reach E h' s') ∧
      SeesIts s' (put (put I l (some zs)) b (some d)) ∧ xs.Sublist zs ∧ ys = c ++ d ∧ d ≠ [] ∧
      StablySorted lt (xs.map Prod.snd ++ c.map Prod.snd) (zs.map Prod.snd)) := by
  obtain ⟨L, zl, ha, rfl, hzl, rfl⟩ := at_of hr hs hl
  obtain ⟨zb, hzb, rfl⟩ := Option.map_eq_some_iff.1 hb
  rw [its_values] at hx hy
  rcases wp_or (mergeFrom_spec (E := E) lt hlb fuel [] zl zb s L ha hzl hzb (by simpa [its] using hf)) with
    ⟨_, s', h1, zs, h2, h3, h4⟩ | ⟨s', h1, zs, c, d, h2, h3, h4, h5, h6⟩
  · refine .inl ⟨s', its zs, h1, h2.2, ?_, h3.map _, ?_⟩
    · have := h2.seesPut
      rw [← put_eq, itsOf_put] at this
      exact this
    · rw [its_values, its_values, its_values, h4]
      exact merge_stably hw hx hy
  · subst h4
    refine .inr ⟨s', its zs, its c, its d, h1, h2.2, ?_, h3.map _, by simp [its], by simpa [its] using h5, ?_⟩
    · have := h2.seesPut
      rw [← put_eq, itsOf_put] at this
      exact this
    · rw [its_values, its_values, its_values, h6]
      rw [List.map_append] at hy
      exact merge_stably hw hx (List.pairwise_append.1 hy).1

/-- Two lists in order by tens, in a program with two others. -/
def mergeDemo (E : Env Nat) : M Nat Unit := do
  sortInto goodEnv (fun v w => v / 10 < w / 10) 20 2 [31, 12, 35]
  sortInto goodEnv (fun v w => v / 10 < w / 10) 20 3 [39, 19, 2, 50]
  mergeLists E (fun v w => v / 10 < w / 10) 20 2 3

example :
    shown (mergeDemo goodEnv ((play [.newEmpty 2, .newEmpty 3] demo).getD demo)) 2 = some [2, 12, 19, 31, 35, 39, 50] ∧
    shown (mergeDemo goodEnv ((play [.newEmpty 2, .newEmpty 3] demo).getD demo)) 3 = some [] ∧
    shown (mergeDemo goodEnv ((play [.newEmpty 2, .newEmpty 3] demo).getD demo)) 1 = some [3, 2, 1, 9, 5] :=
  ⟨by decide +kernel, by decide +kernel, by decide +kernel⟩

/-- The third insertion throws: the rest stays in the second list. -/
example : (match mergeDemo (failAt 19) ((play [.newEmpty 2, .newEmpty 3] demo).getD demo) with
    | .thrown s => [2, 3].map fun l => (peek s l).map (List.map Prod.snd)
    | _ => []) = [some [2, 12, 19, 31, 35], some [39, 50]] := by
  decide +kernel

end Verif.LL
