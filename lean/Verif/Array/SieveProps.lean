import Verif.Array.Sieve
import Verif.Array.SetsClientProps
import Mathlib.Data.Nat.Prime.Basic

/-! # The prime numbers below `n` (C188) -/

set_option autoImplicit false

namespace Verif.Arr

/-- Ones where `p` holds. -/
def marks (n : Nat) (p : Nat → Bool) : List Nat := (List.range n).map fun k => (p k).toNat

theorem marks_length (n : Nat) (p : Nat → Bool) : (marks n p).length = n := by simp [marks]

theorem marks_congr {n : Nat} {p q : Nat → Bool} (h : ∀ k, k < n → p k = q k) : marks n p = marks n q := by
  unfold marks
  exact List.map_congr_left fun k hk => by rw [h k (by simpa using hk)]

theorem marks_get {n k : Nat} (p : Nat → Bool) (h : k < n) : (marks n p)[k]? = some (p k).toNat := by
  simp [marks, h]

theorem marks_set {n : Nat} (p : Nat → Bool) (j : Nat) : (marks n p).set j 0 = marks n fun k => p k && !decide (k = j) := by
  apply List.ext_getElem
  · simp [marks]
  · intro k h1 h2
    rw [List.getElem_set]
    by_cases e : j = k
    · subst e; simp [marks]
    · simp [marks, e, Ne.symm e]

variable {cfg : Elem Nat} {w : World Nat} {a c n : Nat} {A : AWorld Nat}

theorem candidates_spec (ht : cfg.triv = true) : ∀ (m k c : Nat) (w : World Nat) (A : AWorld Nat), S cfg w A →
    A a = some (marks k fun x => decide (2 ≤ x), c) →
    Does (candidates cfg a m k) w fun _ w' => ∃ c', S cfg w' (put A a (some (marks (k + m) fun x => decide (2 ≤ x), c')))
  | 0, k, c, w, A, hs, ha => by
    unfold candidates
    exact Does.pure ⟨c, hs.same ha rfl⟩
  | m + 1, k, c, w, A, hs, ha => by
    unfold candidates
    refine Does.bind ((hs.push ht ha _).mono ?_)
    rintro _ w1 ⟨c1, h1⟩
    refine (candidates_spec ht m (k + 1) c1 w1 _ h1 ?_).mono ?_
    · rw [put_same]
      congr 2
      unfold marks
      rw [List.range_succ, List.map_append, List.map_singleton]
      congr 2
      by_cases e : k < 2
      · have : ¬2 ≤ k := by omega
        simp [e, this]
      · simp [e, Nat.not_lt.1 e]
    · rintro _ w2 ⟨c2, h2⟩
      rw [put_put] at h2
      exact ⟨c2, by rwa [show k + 1 + m = k + (m + 1) by omega] at h2⟩

theorem crossOut_spec (ht : cfg.triv = true) {i : Nat} (hi : 0 < i) : ∀ (fuel j : Nat) (p : Nat → Bool) (w : World Nat) (A : AWorld Nat),
    S cfg w A → A a = some (marks n p, c) → n - j < fuel →
    Does (crossOut cfg a i fuel j) w fun _ w' =>
      S cfg w' (put A a (some (marks n fun k => p k && !decide (j ≤ k ∧ i ∣ k - j), c)))
  | 0, _, _, _, _, _, _, hf => by omega
  | fuel + 1, j, p, w, A, hs, ha, hf => by
    unfold crossOut
    refine Does.bind (hs.size ha ?_)
    rw [marks_length]
    split
    · rename_i hj
      have hj : j < n := by exact_mod_cast hj
      refine Does.bind ((hs.set ht ha (by rw [marks_length]; exact hj) 0).mono fun _ w1 h1 => ?_)
      rw [marks_set] at h1
      refine (crossOut_spec ht hi fuel (j + i) _ w1 _ h1 (put_same ..) (by omega)).mono fun _ w2 h2 => ?_
      rw [put_put] at h2
      have e : (marks n fun k => (p k && !decide (k = j)) && !decide (j + i ≤ k ∧ i ∣ k - (j + i))) =
          marks n fun k => p k && !decide (j ≤ k ∧ i ∣ k - j) := by
        refine marks_congr fun k _ => ?_
        have : (j ≤ k ∧ i ∣ k - j) ↔ k = j ∨ (j + i ≤ k ∧ i ∣ k - (j + i)) := by
          constructor
          · rintro ⟨h1, h2⟩
            by_cases e : k = j
            · exact .inl e
            · obtain ⟨m, hm⟩ := h2
              cases m with
              | zero => omega
              | succ m =>
                rw [Nat.mul_succ] at hm
                exact .inr ⟨by omega, m, by omega⟩
          · rintro (rfl | ⟨h1, m, hm⟩)
            · simp
            · exact ⟨by omega, m + 1, by rw [Nat.mul_succ]; omega⟩
        rw [Bool.eq_iff_iff]
        simp only [Bool.and_eq_true, Bool.not_eq_true', decide_eq_false_iff_not, this, not_or, and_assoc]
      rwa [e] at h2
    · rename_i hj
      have hj : n ≤ j := by
        have : ¬j < n := fun h => hj (by exact_mod_cast h)
        omega
      refine Does.pure (hs.same ha (marks_congr fun k hk => ?_))
      have : ¬(j ≤ k ∧ i ∣ k - j) := by omega
      simp [this]

open Classical in
/-- Not divisible by any smaller number below `i`, but 1. -/
noncomputable def survives (i k : Nat) : Bool := decide (2 ≤ k ∧ ∀ d, 2 ≤ d → d < i → d ∣ k → d = k)

theorem survives_iff (i k : Nat) : survives i k = true ↔ 2 ≤ k ∧ ∀ d, 2 ≤ d → d < i → d ∣ k → d = k := by
  simp [survives]

/-- A candidate: its multiples go. -/
theorem survives_cross {i : Nat} (hi : 2 ≤ i) (k : Nat) :
    (survives i k && !decide (i * i ≤ k ∧ i ∣ k - i * i)) = survives (i + 1) k := by
  rw [Bool.eq_iff_iff]
  simp only [Bool.and_eq_true, Bool.not_eq_true', decide_eq_false_iff_not, survives_iff]
  constructor
  · rintro ⟨⟨h1, h2⟩, h3⟩
    refine ⟨h1, fun d hd hdi hdk => ?_⟩
    by_cases e : d = i
    · subst e
      by_contra hne
      obtain ⟨m, rfl⟩ := hdk
      by_cases hm : d ≤ m
      · refine h3 ⟨Nat.mul_le_mul_left _ hm, ?_⟩
        rw [← Nat.mul_sub]
        exact Nat.dvd_mul_right ..
      · have hm2 : 2 ≤ m := by
          rcases m with _ | _ | m
          · omega
          · omega
          · omega
        have := h2 m hm2 (by omega) (Nat.dvd_mul_left ..)
        have : 2 * m ≤ d * m := Nat.mul_le_mul_right _ hd
        omega
    · exact h2 d hd (by omega) hdk
  · rintro ⟨h1, h2⟩
    refine ⟨⟨h1, fun d hd hdi hdk => h2 d hd (by omega) hdk⟩, ?_⟩
    rintro ⟨h3, h4⟩
    have hdvd : i ∣ k := by
      have := Nat.dvd_add h4 (Nat.dvd_mul_right i i)
      rwa [Nat.sub_add_cancel h3] at this
    have := h2 i hi (by omega) hdvd
    have : 2 * i ≤ i * i := Nat.mul_le_mul_right _ hi
    omega

/-- No candidate: its multiples are gone. -/
theorem survives_skip {i : Nat} (hi : 2 ≤ i) (h : survives i i = false) (k : Nat) : survives i k = survives (i + 1) k := by
  have h' : ¬(survives i i = true) := by rw [h]; simp
  rw [survives_iff] at h'
  push Not at h'
  obtain ⟨e, he1, he2, he3, -⟩ := h' hi
  rw [Bool.eq_iff_iff, survives_iff, survives_iff]
  constructor
  · rintro ⟨h1, h2⟩
    refine ⟨h1, fun d hd hdi hdk => ?_⟩
    by_cases hdi' : d = i
    · subst hdi'
      have := h2 e he1 he2 (Nat.dvd_trans he3 hdk)
      have := Nat.le_of_dvd (by omega) hdk
      omega
    · exact h2 d hd (by omega) hdk
  · rintro ⟨h1, h2⟩
    exact ⟨h1, fun d hd hdi hdk => h2 d hd (by omega) hdk⟩

theorem survives_prime {i k : Nat} (h : k < i * i) : survives i k = decide k.Prime := by
  rw [Bool.eq_iff_iff, survives_iff, decide_eq_true_iff]
  constructor
  · rintro ⟨h1, h2⟩
    by_contra hp
    have hm := Nat.minFac_sq_le_self (by omega : 0 < k) hp
    have hlt : k.minFac < i := by
      by_contra hge
      have := Nat.mul_le_mul (Nat.not_lt.1 hge) (Nat.not_lt.1 hge)
      rw [pow_two] at hm
      omega
    have := h2 _ (Nat.minFac_prime (by omega)).two_le hlt (Nat.minFac_dvd k)
    exact hp (this ▸ Nat.minFac_prime (by omega))
  · intro hp
    exact ⟨hp.two_le, fun d hd _ hdk => (hp.eq_one_or_self_of_dvd d hdk).resolve_left (by omega)⟩

theorem sieveFrom_spec (ht : cfg.triv = true) : ∀ (fuel i : Nat) (w : World Nat) (A : AWorld Nat), S cfg w A →
    A a = some (marks n (survives i), c) → 2 ≤ i → n + 2 ≤ fuel + i → 0 < fuel →
    Does (sieveFrom cfg a fuel i) w fun _ w' => S cfg w' (put A a (some (marks n fun k => decide k.Prime, c)))
  | 0, _, _, _, _, _, _, _, h0 => by omega
  | fuel + 1, i, w, A, hs, ha, hi, hf, _ => by
    unfold sieveFrom
    refine Does.bind (hs.size ha ?_)
    rw [marks_length]
    split
    · rename_i hlt
      have hlt : i * i < n := by exact_mod_cast hlt
      have hle : 2 * i ≤ i * i := Nat.mul_le_mul_right _ hi
      refine Does.bind (hs.index ha (marks_get _ (by omega : i < n)) ?_)
      split
      · rename_i hv
        have hv : survives i i = false := by
          cases h : survives i i
          · rfl
          · rw [h] at hv; simp at hv
        refine sieveFrom_spec ht fuel (i + 1) w A hs ?_ (by omega) (by omega) (by omega)
        rw [ha, marks_congr fun k _ => survives_skip hi hv k]
      · rw [Int.toNat_natCast]
        refine Does.bind ((crossOut_spec ht (by omega : 0 < i) _ (i * i) _ w A hs ha (by omega)).mono fun _ w1 h1 => ?_)
        rw [marks_congr fun k _ => survives_cross hi k] at h1
        refine (sieveFrom_spec ht fuel (i + 1) w1 _ h1 (put_same ..) (by omega) (by omega) (by omega)).mono fun _ w2 h2 => ?_
        rwa [put_put] at h2
    · rename_i hge
      have hge : ¬i * i < n := fun h => hge (by exact_mod_cast h)
      exact Does.pure (hs.same ha (marks_congr fun k hk => survives_prime (by omega)))

/-- C188. The sieve in an array that was empty: the call returns, the array has `n` elements, and the one with index `k` is 1 if `k` is prime
and 0 otherwise. No other array changes. -/
theorem sieve_result (ht : cfg.triv = true) (hw : Reached cfg w) (ha : observe w a = some ([], c)) (n : Nat) :
    ∃ w' xs c', sieve cfg a n w = .ok () w' ∧ Reached cfg w' ∧ observe w' = put (observe w) a (some (xs, c')) ∧ xs.length = n ∧
      ∀ (k : Nat) (h : k < xs.length), (k.Prime → xs[k] = 1) ∧ (¬k.Prime → xs[k] = 0) := by
  have key : Does (sieve cfg a n) w fun _ w' => ∃ c', S cfg w' (put (observe w) a (some (marks n fun k => decide k.Prime, c'))) := by
    unfold sieve
    refine Does.bind ((candidates_spec ht n 0 c w _ ⟨hw, rfl⟩ ha).mono ?_)
    rintro _ w1 ⟨c1, h1⟩
    rw [Nat.zero_add] at h1
    have e : (marks n fun x => decide (2 ≤ x)) = marks n (survives 2) := by
      refine marks_congr fun k _ => ?_
      rw [Bool.eq_iff_iff, survives_iff, decide_eq_true_iff]
      exact ⟨fun h => ⟨h, fun d h1 h2 => by omega⟩, fun h => h.1⟩
    rw [e] at h1
    refine (sieveFrom_spec ht _ 2 w1 _ h1 (put_same ..) (by omega) (by omega) (by omega)).mono fun _ w2 h2 => ?_
    rw [put_put] at h2
    exact ⟨c1, h2⟩
  obtain ⟨_, w', h1, c', h2, h3⟩ := key
  refine ⟨w', _, c', h1, h2, h3, marks_length .., fun k h => ?_⟩
  simp only [marks, List.getElem_map, List.getElem_range]
  exact ⟨fun hp => by simp [hp], fun hp => by simp [hp]⟩

/-! ## Example -/

/-- Up to 30. -/
example : (match run ⟨true, id⟩ World.init [.ctor 0] with
    | .ok _ w => match sieve ⟨true, id⟩ 0 30 w with
      | .ok _ w1 => (observe w1 0).map fun x => (List.range 30).filter fun k => x.1[k]? = some 1
      | _ => none
    | _ => none) = some [2, 3, 5, 7, 11, 13, 17, 19, 23, 29] := by
  decide +kernel

end Verif.Arr
