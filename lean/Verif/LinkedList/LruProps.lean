import Verif.LinkedList.Lru
import Verif.LinkedList.ClientsProps

/-! # A cache of the keys requested last (C183) -/

set_option autoImplicit false

namespace Verif.LL

variable {α : Type} [DecidableEq α] {E : Env α} {h : List (Op α × Outcome)} {s s' : St α}

variable {L : Nat → Option (Els α)} {l : Nat}

/-! ### Specification -/

/-- The last `cap` different keys of a history, the latest first. -/
def lastKeys (cap : Nat) (history : List α) : List α := history.reverse.eraseDups.take cap

/-! ### Lemmas on lists -/

theorem eraseP_values (key : α) : ∀ xs : Els α, (xs.eraseP fun x => decide (x.2 = key)).map Prod.snd = (xs.map Prod.snd).erase key
  | [] => rfl
  | x :: xs => by
    by_cases hx : x.2 = key
    · simp [hx]
    · rw [List.eraseP_cons_of_neg (by simpa using hx), List.map_cons, List.map_cons, List.erase_cons_tail (by simpa using hx),
        eraseP_values key xs]

theorem take_erase (key : α) : ∀ (xs : List α) (c : Nat), ((xs.take (c + 1)).erase key).take c = (xs.erase key).take c
  | [], _ => rfl
  | x :: xs, c => by
    by_cases hx : x = key
    · simp [hx, List.take_take]
    · rw [List.take_succ_cons, List.erase_cons_tail (by simpa using hx), List.erase_cons_tail (by simpa using hx)]
      cases c with
      | zero => simp
      | succ c => rw [List.take_succ_cons, List.take_succ_cons, take_erase key xs c]

theorem mem_eraseDups' (x : α) : ∀ (n : Nat) (xs : List α), xs.length ≤ n → (x ∈ xs.eraseDups ↔ x ∈ xs)
  | _, [], _ => by simp
  | 0, _ :: _, hn => by simp at hn
  | n + 1, y :: xs, hn => by
    rw [List.eraseDups_cons, List.mem_cons, List.mem_cons,
      mem_eraseDups' x n _ (le_trans (List.length_filter_le _ _) (by simpa using hn))]
    by_cases hxy : x = y
    · simp [hxy]
    · simp [hxy]

theorem nodup_eraseDups : ∀ (n : Nat) (xs : List α), xs.length ≤ n → xs.eraseDups.Nodup
  | _, [], _ => by simp
  | 0, _ :: _, hn => by simp at hn
  | n + 1, y :: xs, hn => by
    have hle : (xs.filter fun b => !b == y).length ≤ n := le_trans (List.length_filter_le _ _) (by simpa using hn)
    rw [List.eraseDups_cons, List.nodup_cons, mem_eraseDups' y n _ hle]
    exact ⟨by simp, nodup_eraseDups n _ hle⟩

theorem filter_eraseDups (p : α → Bool) : ∀ (n : Nat) (xs : List α), xs.length ≤ n →
    (xs.filter p).eraseDups = xs.eraseDups.filter p
  | _, [], _ => by simp
  | 0, _ :: _, hn => by simp at hn
  | n + 1, y :: xs, hn => by
    have hle : (xs.filter fun b => !b == y).length ≤ n := le_trans (List.length_filter_le _ _) (by simpa using hn)
    by_cases hy : p y = true
    · rw [List.filter_cons_of_pos hy, List.eraseDups_cons, List.eraseDups_cons, List.filter_cons_of_pos hy,
        ← filter_eraseDups p n _ hle, List.filter_filter, List.filter_filter]
      congr 3
      funext b
      exact Bool.and_comm _ _
    · rw [List.filter_cons_of_neg hy, List.eraseDups_cons, List.filter_cons_of_neg hy, ← filter_eraseDups p n _ hle,
        List.filter_filter]
      congr 1
      refine List.filter_congr fun b _ => ?_
      by_cases hb : b = y
      · subst hb; simp [hy]
      · simp [hb]

theorem lastKeys_snoc (cap : Nat) (old : List α) (key : α) :
    (key :: (lastKeys cap old).erase key).take cap = lastKeys cap (old ++ [key]) := by
  unfold lastKeys
  rw [List.reverse_append, List.reverse_singleton, List.singleton_append, List.eraseDups_cons,
    filter_eraseDups _ _ _ le_rfl]
  cases cap with
  | zero => simp
  | succ c =>
    rw [List.take_succ_cons, List.take_succ_cons, take_erase, (nodup_eraseDups _ _ le_rfl).erase_eq_filter]
    rfl

/-! ### The loops -/

theorem eraseKey_spec (key : α) (post : Els α) : ∀ (fuel : Nat) (pre : Els α) (s : St α) (L : Nat → Option (Els α)), At E s L →
    L l = some (pre ++ post) → post.length < fuel →
    wp (eraseKey key fuel (posPtr l pre)) s
      (fun b s' => b = decide (key ∈ post.map Prod.snd) ∧
        At E s' (upd L l (some (pre ++ post.eraseP fun x => decide (x.2 = key))))) (fun _ => False) := by
  induction post with
  | nil =>
    intro fuel pre s L ha hl hf
    obtain ⟨fuel, rfl⟩ : ∃ k, fuel = k + 1 := ⟨fuel - 1, by simp at hf; omega⟩
    unfold eraseKey
    rw [wp_bind, wp_of_eq (ha.next hl), wp_ite, if_pos (show ptr [] none = «end» from rfl), wp_pure]
    exact ⟨by simp, ha.same hl (by simp)⟩
  | cons x post ih =>
    intro fuel pre s L ha hl hf
    obtain ⟨fuel, rfl⟩ : ∃ k, fuel = k + 1 := ⟨fuel - 1, by simp at hf; omega⟩
    have hf' : post.length < fuel := by simp at hf; omega
    unfold eraseKey
    rw [wp_bind, wp_of_eq (ha.next hl), wp_ite, if_neg (by simp [«end»]), wp_bind, ptr_cons,
      wp_of_eq (ha.deref hl), wp_ite]
    split
    · rename_i hb
      rw [wp_bind]
      refine wp_mono (ha.erase hl) (fun _ s1 h1 => ?_) (fun _ h => h)
      rw [wp_pure]
      refine ⟨by simp [hb], ?_⟩
      rwa [List.eraseP_cons_of_pos (by simpa using hb)]
    · rename_i hb
      have := ih fuel (pre ++ [x]) s L ha (by simpa using hl) hf'
      rw [posPtr_snoc] at this
      refine wp_mono this (fun b s1 h1 => ⟨?_, ?_⟩) (fun _ h => h)
      · rw [h1.1]
        have : key ≠ x.2 := fun e => hb e.symm
        simp [this]
      · rw [List.eraseP_cons_of_neg (by simpa using hb)]
        simpa using h1.2

omit [DecidableEq α] in
theorem trim_spec (post : Els α) : ∀ (fuel n : Nat) (pre : Els α) (s : St α) (L : Nat → Option (Els α)), At E s L →
    L l = some (pre ++ post) → post.length < fuel →
    wp (trim fuel n (posPtr l pre)) s (fun _ s' => At E s' (upd L l (some (pre ++ post.take n)))) (fun _ => False) := by
  induction post with
  | nil =>
    intro fuel n pre s L ha hl hf
    obtain ⟨fuel, rfl⟩ : ∃ k, fuel = k + 1 := ⟨fuel - 1, by simp at hf; omega⟩
    unfold trim
    rw [wp_bind, wp_of_eq (ha.next hl), wp_ite, if_pos (show ptr [] none = «end» from rfl), wp_pure]
    exact ha.same hl (by simp)
  | cons x post ih =>
    intro fuel n pre s L ha hl hf
    obtain ⟨fuel, rfl⟩ : ∃ k, fuel = k + 1 := ⟨fuel - 1, by simp at hf; omega⟩
    have hf' : post.length < fuel := by simp at hf; omega
    unfold trim
    rw [wp_bind, wp_of_eq (ha.next hl), wp_ite, if_neg (by simp [«end»])]
    cases n with
    | zero =>
      simp only
      rw [wp_bind]
      refine wp_mono (ha.erase hl) (fun _ s1 h1 => ?_) (fun _ h => h)
      have := ih fuel 0 pre s1 _ h1 (upd_same ..) hf'
      rw [upd_upd] at this
      simpa using this
    | succ n =>
      simp only
      rw [ptr_cons]
      have := ih fuel n (pre ++ [x]) s L ha (by simpa using hl) hf'
      rw [posPtr_snoc] at this
      simpa using this

theorem request_spec (cap fuel : Nat) (key : α) {xs : Els α} (ha : At E s L) (hl : L l = some xs) (hf : xs.length + 1 < fuel) :
    wp (request E cap fuel l key) s
      (fun b s' => b = decide (key ∈ xs.map Prod.snd) ∧ ∃ ys : Els α, At E s' (upd L l (some ys)) ∧
        ys.map Prod.snd = (key :: (xs.map Prod.snd).erase key).take cap)
      (fun s' => At E s' L) := by
  unfold request
  rw [wp_bind]
  refine wp_mono (ha.insert (pre := []) (post := xs) hl key) ?_ (fun _ h => h)
  rintro p s1 ⟨a, rfl, -, h1⟩
  rw [wp_bind]
  have h2 := eraseKey_spec (E := E) (l := l) key xs fuel [(a, key)] s1 _ h1 (by rw [upd_same]; rfl) (by omega)
  refine wp_mono h2 ?_ (fun _ h => h.elim)
  rintro b s2 ⟨hb, h3⟩
  rw [upd_upd] at h3
  rw [wp_bind]
  have h4 := trim_spec (E := E) (l := l) ([(a, key)] ++ xs.eraseP fun x => decide (x.2 = key)) fuel cap [] s2 _ h3
    (by rw [upd_same]; rfl) (by
      have := (List.eraseP_sublist (p := fun x : Nat × α => decide (x.2 = key)) (l := xs)).length_le
      simp only [List.length_append, List.length_singleton]; omega)
  refine wp_mono h4 ?_ (fun _ h => h.elim)
  intro _ s3 h5
  rw [wp_pure]
  rw [upd_upd] at h5
  refine ⟨hb, _, h5, ?_⟩
  rw [List.nil_append, List.map_take, List.map_append, eraseP_values]
  rfl

theorem requests_spec (cap fuel : Nat) (hf : cap + 1 < fuel) (L0 : Nat → Option (Els α)) : ∀ (keys old : List α) (s : St α) (xs : Els α),
    At E s (upd L0 l (some xs)) → xs.map Prod.snd = lastKeys cap old →
    wp (requests E cap fuel l keys) s
      (fun bs s' => (∃ ys : Els α, At E s' (upd L0 l (some ys)) ∧ ys.map Prod.snd = lastKeys cap (old ++ keys)) ∧
        bs.length = keys.length ∧
        ∀ (i : Nat) (hi : i < keys.length) (hb : i < bs.length), (bs[i] = true ↔ keys[i] ∈ lastKeys cap (old ++ keys.take i)))
      (fun s' => ∃ i < keys.length, ∃ ys : Els α, At E s' (upd L0 l (some ys)) ∧
        ys.map Prod.snd = lastKeys cap (old ++ keys.take i))
  | [], old, s, xs, ha, hx => by
    unfold requests
    rw [wp_pure]
    refine ⟨⟨xs, ha, by rw [List.append_nil]; exact hx⟩, rfl, fun i hi => absurd hi (by simp)⟩
  | key :: keys, old, s, xs, ha, hx => by
    unfold requests
    rw [wp_bind]
    have hlen : xs.length ≤ cap := by
      have := congrArg List.length hx
      rw [List.length_map, lastKeys, List.length_take] at this
      omega
    refine wp_mono (request_spec (E := E) cap fuel key ha (upd_same ..) (by omega)) ?_ ?_
    · rintro b s1 ⟨hb, ys, h1, h2⟩
      rw [upd_upd] at h1
      rw [hx, lastKeys_snoc] at h2
      rw [wp_bind]
      refine wp_mono (requests_spec cap fuel hf L0 keys (old ++ [key]) s1 ys h1 h2) ?_ ?_
      · rintro bs s2 ⟨⟨zs, h3, h4⟩, h5, h6⟩
        rw [wp_pure]
        refine ⟨⟨zs, h3, by rw [h4, List.append_assoc, List.singleton_append]⟩, by simp [h5], ?_⟩
        intro i hi hbi
        cases i with
        | zero =>
          simp only [List.getElem_cons_zero, List.take_zero, List.append_nil]
          rw [hb, hx, decide_eq_true_iff]
        | succ i =>
          simp only [List.getElem_cons_succ, List.take_succ_cons]
          have := h6 i (by simpa using hi) (by simpa using hbi)
          rwa [List.append_assoc, List.singleton_append] at this
      · rintro s2 ⟨i, hi, zs, h3, h4⟩
        refine ⟨i + 1, by simpa using hi, zs, h3, ?_⟩
        rw [h4, List.append_assoc, List.singleton_append, List.take_succ_cons]
    · intro s1 h1
      exact ⟨0, by simp, xs, h1, by simpa using hx⟩

/-! ### C183 -/

/-- C183. Any requests to a cache for `cap` keys that begins as an empty list, in a program with any other lists: a request is answered
with `true` exactly if the key is one of the last `cap` different keys requested before it; afterwards the list holds exactly
the last `cap` different keys, the latest first, each once, and the other lists are as before. If a request throws, the list is as
after the requests before it. -/
theorem cache_history (hr : Reach E h s) {I : Nat → Option (List (Ptr × α))} (hs : SeesIts s I) (hl : I l = some []) (cap : Nat)
    (keys : List α) {fuel : Nat} (hf : cap + 1 < fuel) :
    (∃ bs s', requests E cap fuel l keys s = .ok bs s' ∧ (∃ h', Reach E h' s') ∧
      (∃ ys, SeesIts s' (put I l (some ys)) ∧ ys.map Prod.snd = lastKeys cap keys ∧ (ys.map Prod.snd).Nodup) ∧
      bs.length = keys.length ∧
      ∀ (i : Nat) (hi : i < keys.length) (hb : i < bs.length), (bs[i] = true ↔ keys[i] ∈ lastKeys cap (keys.take i))) ∨
    (∃ s', requests E cap fuel l keys s = .thrown s' ∧ (∃ h', Reach E h' s') ∧
      ∃ i < keys.length, ∃ ys, SeesIts s' (put I l (some ys)) ∧ ys.map Prod.snd = lastKeys cap (keys.take i)) := by
  obtain ⟨L, zs, ha, rfl, hz, e⟩ := at_of hr hs hl
  have hz0 : zs = [] := by
    cases zs with
    | nil => rfl
    | cons _ _ => simp [its] at e
  subst hz0
  have hits : ∀ ys : Els α, (its ys).map Prod.snd = ys.map Prod.snd := fun ys => by simp [its, Function.comp_def]
  rcases wp_or (requests_spec (E := E) (l := l) cap fuel hf L keys [] s [] (ha.same hz rfl) (by simp [lastKeys])) with
    ⟨bs, s', hx, ⟨ys, h1, h2⟩, h3, h4⟩ | ⟨s', hx, i, hi, ys, h1, h2⟩
  · refine .inl ⟨bs, s', hx, h1.2, ⟨its ys, h1.seesPut, ?_, ?_⟩, h3, ?_⟩
    · rw [hits, h2, List.nil_append]
    · rw [hits, h2]
      exact (nodup_eraseDups _ _ le_rfl).sublist (List.take_sublist _ _)
    · simpa using h4
  · refine .inr ⟨s', hx, h1.2, i, hi, its ys, h1.seesPut, ?_⟩
    rw [hits, h2, List.nil_append]

/-- C183. A larger cache never misses what a smaller one has. -/
theorem cache_larger (cap cap' : Nat) (hc : cap ≤ cap') (keys : List α) : (lastKeys cap keys).IsPrefix (lastKeys cap' keys) := by
  unfold lastKeys
  exact (List.take_prefix_take_left hc)

/-- The last three different keys of a history. -/
example : lastKeys 3 [1, 2, 3, 2, 4, 4, 2] = [2, 4, 3] := by decide +kernel

/-- The same in a program with two other lists. -/
example :
    gave (requests goodEnv 3 20 2 [1, 2, 3, 2, 4, 4, 2, 1] ((play [.newEmpty 2] demo).getD demo)) =
      some [false, false, false, true, false, true, true, false] ∧
    shown (requests goodEnv 3 20 2 [1, 2, 3, 2, 4, 4, 2, 1] ((play [.newEmpty 2] demo).getD demo)) 2 = some [1, 2, 4] ∧
    shown (requests goodEnv 3 20 2 [1, 2, 3, 2, 4, 4, 2, 1] ((play [.newEmpty 2] demo).getD demo)) 1 = some [3, 2, 1, 9, 5] :=
  ⟨by decide +kernel, by decide +kernel, by decide +kernel⟩

end Verif.LL
