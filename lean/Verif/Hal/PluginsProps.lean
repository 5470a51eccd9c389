import Verif.Hal.Plugins
import Mathlib.Data.List.Basic
import Mathlib.Data.List.Nodup
import Mathlib.Data.List.Perm.Basic

/-! # Plugins (C187) -/

set_option autoImplicit false

namespace Verif.Lib

/-! ## Specification -/

/-- The libraries that shall be loaded, numbered in the order they were found, and how many were found. -/
def wanted : List Cmd → List Nat × Nat → List Nat × Nat
  | [], r => r
  | .load true :: cs, (hs, m) => wanted cs (hs ++ [m], m + 1)
  | .load false :: cs, r => wanted cs r
  | .unload k :: cs, (hs, m) =>
    match hs[k]?, hs.getLast? with
    | some _, some x => wanted cs ((hs.set k x).dropLast, m)
    | _, _ => wanted cs (hs, m)

/-! ## Proofs -/

/-- The list holds the libraries `hs`; the others were closed once each. -/
structure Plugged (s : St) (hs : List Nat) : Prop where
  objs : ∀ i, s.objs i = match i with
    | 0 => none
    | k + 1 => hs[k]?.map some
  nodup : hs.Nodup
  old : ∀ x ∈ hs, x < s.next
  closes : ∀ x, s.closes x = if x < s.next ∧ x ∉ hs then 1 else 0
  null : s.nullCloses = 0

variable {s : St} {hs : List Nat}

theorem load_found (h : Plugged s hs) : ∃ t, load hs.length true s = some (hs.length + 1, t) ∧ Plugged t (hs ++ [s.next]) ∧
    t.next = s.next + 1 := by
  have h0 : s.objs 0 = none := h.objs 0
  have hn : s.objs (hs.length + 1) = none := by rw [h.objs]; simp
  refine ⟨_, by simp [load, step, run, h0, hn, doOpen, dlopen, St.set, isOpen]; rfl, ?_, rfl⟩
  have hfresh : s.next ∉ hs := fun e => Nat.lt_irrefl _ (h.old _ e)
  constructor
  · intro i
    cases i with
    | zero => simp
    | succ k =>
      by_cases e : k = hs.length
      · subst e; simp
      · have e' : k + 1 ≠ hs.length + 1 := by omega
        simp only [Function.update_of_ne e', Function.update_of_ne (Nat.succ_ne_zero k), h.objs]
        by_cases hl : k < hs.length
        · rw [List.getElem?_append_left hl]
        · rw [List.getElem?_eq_none (by omega), List.getElem?_eq_none (by simp; omega)]
  · rw [List.nodup_append]
    exact ⟨h.nodup, by simp, by rintro a ha b hb rfl; simp at hb; exact hfresh (hb ▸ ha)⟩
  · intro x hx
    rcases List.mem_append.1 hx with hx | hx
    · exact Nat.lt_succ_of_lt (h.old x hx)
    · rw [List.mem_singleton] at hx; rw [hx]; exact Nat.lt_succ_self _
  · intro x
    show s.closes x = _
    rw [h.closes x]
    by_cases hx : x = s.next
    · subst hx; simp
    · have : x < s.next + 1 ↔ x < s.next := by omega
      simp [this, hx]
  · exact h.null

theorem load_missing (h : Plugged s hs) : load hs.length false s = some (hs.length, s) := by
  have h0 : s.objs 0 = none := h.objs 0
  have e : Function.update (Function.update (Function.update s.objs 0 (some none)) 0 (some none)) 0 none = s.objs := by
    funext i
    by_cases hi : i = 0
    · subst hi; simp [h0]
    · simp [Function.update_of_ne hi]
  simp [load, step, run, h0, doOpen, dlopen, St.set, isOpen] at e ⊢
  simp [← h0]

theorem unload_step (h : Plugged s hs) {k x y : Nat} (hk : hs[k]? = some y) (hx : hs.getLast? = some x) :
    ∃ t, unload hs.length k s = some (hs.length - 1, t) ∧ Plugged t ((hs.set k x).dropLast) ∧ t.next = s.next := by
  obtain ⟨n, hn⟩ : ∃ n, hs.length = n + 1 := by
    cases hs with
    | nil => simp at hk
    | cons a l => exact ⟨l.length, rfl⟩
  have hkl : k < n + 1 := by rw [← hn]; exact (List.getElem?_eq_some_iff.1 hk).1
  have hlast : hs[n]? = some x := by rw [List.getLast?_eq_getElem?, hn] at hx; simpa using hx
  have ok : s.objs (k + 1) = some (some y) := by rw [h.objs]; simp [hk]
  have on : s.objs (n + 1) = some (some x) := by rw [h.objs]; simp [hlast]
  obtain ⟨t, ht⟩ : ∃ t : St, t = ⟨Function.update (Function.update s.objs (k + 1) (some (some x))) (n + 1) none, s.next,
    Function.update s.closes y (s.closes y + 1), s.nullCloses⟩ := ⟨_, rfl⟩
  refine ⟨t, by simp [unload, step, run, hn, ok, on, St.set, isOpen, doClose, dlclose, ht], ?_, by rw [ht]⟩
  have hnew : ∀ j : Nat, ((hs.set k x).dropLast)[j]? = if j < n then (if j = k then some x else hs[j]?) else none := by
    intro j
    rw [List.getElem?_dropLast, List.length_set, hn, Nat.add_sub_cancel]
    split
    · rw [List.getElem?_set]
      by_cases e : j = k
      · subst e; simp [hn, hkl]
      · simp [e, Ne.symm e]
    · rfl
  have hinj : ∀ i j z : Nat, hs[i]? = some z → hs[j]? = some z → i = j := by
    intro i j z hi hj
    obtain ⟨hi, e1⟩ := List.getElem?_eq_some_iff.1 hi
    obtain ⟨hj, e2⟩ := List.getElem?_eq_some_iff.1 hj
    exact (List.Nodup.getElem_inj_iff h.nodup).1 (e1.trans e2.symm)
  have hmem : ∀ z, z ∈ (hs.set k x).dropLast ↔ z ∈ hs ∧ z ≠ y := by
    intro z
    constructor
    · intro hz
      obtain ⟨j, hj⟩ := List.mem_iff_getElem?.1 hz
      rw [hnew] at hj
      split at hj
      · split at hj
        · rename_i e1 e2
          cases hj
          refine ⟨List.mem_of_getElem? hlast, fun e => ?_⟩
          subst e
          have := hinj k n _ hk hlast
          omega
        · rename_i e1 e2
          refine ⟨List.mem_of_getElem? hj, fun e => ?_⟩
          subst e
          exact e2 (hinj _ _ _ hj hk)
      · cases hj
    · rintro ⟨hz, hzy⟩
      obtain ⟨j, hj⟩ := List.mem_iff_getElem?.1 hz
      have hjl : j < n + 1 := by rw [← hn]; exact (List.getElem?_eq_some_iff.1 hj).1
      by_cases e : j = n
      · subst e
        rw [hlast] at hj
        cases hj
        have hkn : k ≠ j := by
          rintro rfl
          rw [hlast] at hk
          cases hk
          exact hzy rfl
        exact List.mem_of_getElem? (i := k) (by rw [hnew, if_pos (by omega), if_pos rfl])
      · have hjk : j ≠ k := by
          rintro rfl
          rw [hk] at hj
          cases hj
          exact hzy rfl
        exact List.mem_of_getElem? (i := j) (by rw [hnew, if_pos (by omega), if_neg hjk]; exact hj)
  subst ht
  constructor
  · intro i
    cases i with
    | zero => simp [Function.update_of_ne, h.objs]
    | succ j =>
      simp only
      rw [hnew]
      by_cases e : j = n
      · subst e; simp
      · rw [Function.update_of_ne (by omega)]
        by_cases e2 : j = k
        · subst e2
          simp [show j < n by omega]
        · rw [Function.update_of_ne (by omega), h.objs]
          by_cases hl : j < n
          · simp [hl, e2]
          · simp only [hl, if_false]
            rw [List.getElem?_eq_none (by omega)]
  · rw [List.nodup_iff_getElem?_ne_getElem?]
    intro i j hij hj e
    have hjn : j < n := by simpa [hn] using hj
    rw [hnew, hnew, if_pos (by omega), if_pos hjn] at e
    have hi' := List.getElem?_eq_getElem (show i < hs.length by omega)
    have hj' := List.getElem?_eq_getElem (show j < hs.length by omega)
    split at e <;> split at e
    · omega
    · have := hinj n j _ hlast e.symm
      omega
    · have := hinj i n _ e hlast
      omega
    · rw [hj'] at e
      have := hinj i j _ e hj'
      omega
  · intro z hz
    exact h.old z ((hmem z).1 hz).1
  · intro z
    have hy : y ∈ hs := List.mem_of_getElem? hk
    by_cases e : z = y
    · subst e
      simp [hmem, h.closes, hy, h.old z hy]
    · simp only [Function.update_of_ne e, h.closes, hmem]
      simp [e]
  · exact h.null

theorem host_spec : ∀ (cs : List Cmd) (hs : List Nat) (s : St), Plugged s hs →
    ∃ t, host cs hs.length s = some ((wanted cs (hs, s.next)).1.length, t) ∧ Plugged t (wanted cs (hs, s.next)).1 ∧
      t.next = (wanted cs (hs, s.next)).2
  | [], hs, s, h => ⟨s, rfl, h, rfl⟩
  | .load true :: cs, hs, s, h => by
    obtain ⟨t, h1, h2, h3⟩ := load_found h
    obtain ⟨u, k1, k2, k3⟩ := host_spec cs _ t h2
    rw [h3] at k1 k2 k3
    refine ⟨u, ?_, k2, k3⟩
    simp only [host, h1, Option.bind_some]
    rw [List.length_append, List.length_singleton] at k1
    exact k1
  | .load false :: cs, hs, s, h => by
    obtain ⟨u, k1, k2, k3⟩ := host_spec cs hs s h
    refine ⟨u, ?_, k2, k3⟩
    simp only [host, load_missing h, Option.bind_some]
    exact k1
  | .unload k :: cs, hs, s, h => by
    by_cases hk : k < hs.length
    · have hy := List.getElem?_eq_getElem hk
      obtain ⟨x, hx⟩ : ∃ x, hs.getLast? = some x := by
        cases e : hs.getLast? with
        | none => rw [List.getLast?_eq_none_iff] at e; subst e; simp at hk
        | some x => exact ⟨x, rfl⟩
      obtain ⟨t, h1, h2, h3⟩ := unload_step h hy hx
      obtain ⟨u, k1, k2, k3⟩ := host_spec cs _ t h2
      rw [h3] at k1 k2 k3
      have e : wanted (.unload k :: cs) (hs, s.next) = wanted cs ((hs.set k x).dropLast, s.next) := by
        rw [wanted, hy, hx]
      rw [e]
      refine ⟨u, ?_, k2, k3⟩
      rw [host, if_pos hk, h1, Option.bind_some]
      rw [List.length_dropLast, List.length_set] at k1
      exact k1
    · obtain ⟨u, k1, k2, k3⟩ := host_spec cs hs s h
      have e : wanted (.unload k :: cs) (hs, s.next) = wanted cs (hs, s.next) := by
        rw [wanted, List.getElem?_eq_none (by omega)]
      rw [e]
      refine ⟨u, ?_, k2, k3⟩
      rw [host, if_neg hk]
      exact k1

theorem destroy_all : ∀ (ids hs : List Nat) (s : St), List.Forall₂ (fun i x => s.objs i = some (some x)) ids hs → ids.Nodup →
    ∃ t, run (ids.map .destroy) s = some t ∧ t.next = s.next ∧ t.nullCloses = s.nullCloses ∧
      (∀ i, t.objs i = if i ∈ ids then none else s.objs i) ∧ ∀ x, t.closes x = s.closes x + hs.count x
  | [], _, s, .nil, _ => ⟨s, rfl, rfl, rfl, by simp, by simp⟩
  | i :: ids, _, s, .cons (b := y) (l₂ := hs) h hrest, hd => by
    rw [List.nodup_cons] at hd
    obtain ⟨s', hs'⟩ : ∃ s' : St, s' = ⟨Function.update s.objs i none, s.next, Function.update s.closes y (s.closes y + 1),
      s.nullCloses⟩ := ⟨_, rfl⟩
    have h1 : step (.destroy i) s = some s' := by
      simp [step, h, isOpen, doClose, dlclose, St.set, hs']
    have hrest' : List.Forall₂ (fun i x => s'.objs i = some (some x)) ids hs := by
      rw [List.forall₂_iff_get] at hrest ⊢
      refine ⟨hrest.1, fun j a b => ?_⟩
      have hne : ids.get ⟨j, a⟩ ≠ i := fun e => hd.1 (by rw [← e]; exact List.get_mem ..)
      rw [hs']
      exact (Function.update_of_ne hne _ _).trans (hrest.2 j a b)
    obtain ⟨t, k1, k2, k3, k4, k5⟩ := destroy_all ids hs s' hrest' hd.2
    refine ⟨t, ?_, by rw [k2, hs'], by rw [k3, hs'], ?_, ?_⟩
    · rw [List.map_cons, run, h1]
      exact k1
    · intro j
      rw [k4, hs']
      by_cases e : j = i
      · subst e; simp
      · simp [e]
    · intro x
      rw [k5, hs']
      by_cases e : x = y
      · subst e; simp; omega
      · rw [List.count_cons_of_ne (Ne.symm e)]
        simp [e]

/-- C187. A host that loads and unloads plugins in any order, some of which are not found: at any time its list holds exactly the libraries
that were found and not unloaded, each of these is open, and each other was closed exactly once. When the list has ended, every library
found was closed exactly once, and nothing else was closed. -/
theorem plugins_closed_once (cs : List Cmd) :
    ∃ hs m t u, wanted cs ([], 0) = (hs, m) ∧ host cs 0 .init = some (hs.length, t) ∧ t.next = m ∧ hs.Nodup ∧
      (∀ k, t.objs (k + 1) = hs[k]?.map some) ∧
      (∀ x ∈ hs, t.closes x = 0) ∧ (∀ x, x < m → x ∉ hs → t.closes x = 1) ∧
      endList hs.length t = some u ∧ u.next = m ∧ (∀ i, u.objs i = none) ∧ (∀ x, u.closes x = if x < m then 1 else 0) ∧
      u.nullCloses = 0 := by
  have h0 : Plugged .init [] := by
    constructor <;> simp [St.init]
    intro i
    cases i <;> rfl
  obtain ⟨t, h1, h2, h3⟩ := host_spec cs [] .init h0
  obtain ⟨⟨hs, m⟩, he⟩ : ∃ r, r = wanted cs ([], St.init.next) := ⟨_, rfl⟩
  rw [← he] at h1 h2 h3
  dsimp only at h1 h2 h3
  have hids : List.Forall₂ (fun i x => t.objs i = some (some x)) ((List.range hs.length).map (· + 1)) hs := by
    rw [List.forall₂_iff_get]
    refine ⟨by simp, fun j a b => ?_⟩
    rw [h2.objs]
    simp
  obtain ⟨u, k1, k2, k3, k4, k5⟩ := destroy_all _ hs t hids
    (List.nodup_range.map fun a b e => by simpa using e)
  refine ⟨hs, m, t, u, he.symm, h1, h3, h2.nodup, fun k => h2.objs (k + 1), ?_, ?_, ?_, by rw [k2, h3], ?_, ?_, by rw [k3, h2.null]⟩
  · intro x hx
    rw [h2.closes, if_neg (by simp [hx])]
  · intro x hx hn
    rw [h2.closes, if_pos ⟨by rw [h3]; exact hx, hn⟩]
  · rw [List.map_map] at k1
    exact k1
  · intro i
    rw [k4]
    split
    · rfl
    · rename_i hi
      rw [h2.objs]
      cases i with
      | zero => rfl
      | succ k =>
        have : ¬k < hs.length := fun hk => hi (by simpa using hk)
        simp only
        rw [List.getElem?_eq_none (by omega)]
        rfl
  · intro x
    rw [k5, h2.closes, h3]
    by_cases hx : x ∈ hs
    · have := h2.old x hx
      rw [List.count_eq_one_of_mem h2.nodup hx, if_neg (by simp [hx]), if_pos (by omega)]
    · rw [List.count_eq_zero_of_not_mem hx]
      simp [hx]

/-! ## Example -/

/-- Four libraries, of which one is not found; the first is unloaded. -/
example : ((host [.load true, .load true, .load false, .load true, .unload 0] 0 .init).map fun r =>
    (r.1, r.2.objs 1, r.2.objs 2, r.2.closes 0, r.2.closes 1, r.2.closes 2)) =
    some (2, some (some 2), some (some 1), 1, 0, 0) := by decide

end Verif.Lib
