import Verif.Array.Numbers
import Verif.Array.ClientsProps
import Mathlib.Data.Nat.Digits.Lemmas

/-! # Large numbers kept in `Array`s (C185) -/

set_option autoImplicit false

namespace Verif.Arr

/-! ## Specification -/

/-- No array but those in `l` changes. -/
def OnlyIn (l : List Nat) (A A' : AWorld Nat) : Prop := ∀ j, j ∉ l → A' j = A j

/-! ## The loops -/

variable {cfg : Elem Nat} {w : World Nat} {a b c : Nat} {A : AWorld Nat}

theorem put_other {δ : Type} (f : Nat → δ) {i j : Nat} (h : j ≠ i) (x : δ) : put f i x j = f j := by simp [put, h]

/-- The digits of a number that is not zero. -/
theorem digits_pos {B N : Nat} (hB : 1 < B) (h : N ≠ 0) : Nat.digits B N = N % B :: Nat.digits B (N / B) :=
  Nat.digits_def' hB (Nat.pos_of_ne_zero h)

theorem mulAdd_spec (ht : cfg.triv = true) {m : Nat} (hm0 : 0 < m) (hm : m < 2 ^ 32) : ∀ (fuel N carry : Nat) (pre : List Nat) (c : Nat)
    (w : World Nat) (A : AWorld Nat), S cfg w A → A a = some (pre ++ Nat.digits (2 ^ 32) N, c) → carry < 2 ^ 32 →
    (Nat.digits (2 ^ 32) N).length < fuel →
    Does (mulAdd cfg a m fuel pre.length carry) w fun _ w' => ∃ c', S cfg w' (put A a (some (pre ++ Nat.digits (2 ^ 32) (N * m + carry), c')))
  | 0, _, _, _, _, _, _, _, _, _, hf => by omega
  | fuel + 1, N, carry, pre, c, w, A, hs, ha, hc, hf => by
    unfold mulAdd
    refine Does.bind (hs.size ha ?_)
    by_cases hN : N = 0
    · subst hN
      rw [Nat.digits_zero, List.append_nil] at ha
      rw [Nat.digits_zero, List.append_nil, if_pos rfl, Nat.zero_mul, Nat.zero_add]
      split
      · rename_i e
        subst e
        exact Does.pure ⟨c, hs.same ha (by simp)⟩
      · rename_i e
        refine Does.bind ((hs.push ht ha carry).mono ?_)
        rintro _ w1 ⟨c1, h1⟩
        exact Does.pure ⟨c1, by rwa [Nat.digits_of_lt _ _ e hc]⟩
    · have hd := digits_pos (by norm_num : 1 < 2 ^ 32) hN
      rw [hd] at ha hf
      rw [hd, if_neg (by simp; omega)]
      have hlt : N % 2 ^ 32 < 2 ^ 32 := Nat.mod_lt _ (by norm_num)
      have ht64 : N % 2 ^ 32 * m + carry < 2 ^ 64 := by
        have : N % 2 ^ 32 * m ≤ (2 ^ 32 - 1) * (2 ^ 32 - 1) := Nat.mul_le_mul (by omega) (by omega)
        omega
      refine Does.bind (hs.index ha (x := N % 2 ^ 32) (by simp) ?_)
      rw [Nat.mod_eq_of_lt ht64]
      refine Does.bind ((hs.write ht ha _).mono fun _ w1 h1 => ?_)
      obtain ⟨v, hv⟩ : ∃ v, v = N % 2 ^ 32 := ⟨_, rfl⟩
      obtain ⟨q, hq⟩ : ∃ q, q = N / 2 ^ 32 := ⟨_, rfl⟩
      have hNq : N = 2 ^ 32 * q + v := by rw [hv, hq]; exact (Nat.div_add_mod N _).symm
      rw [← hv] at hlt ht64 h1 ⊢
      rw [← hq] at h1 hf
      have key := mulAdd_spec ht hm0 hm fuel q ((v * m + carry) / 2 ^ 32) (pre ++ [(v * m + carry) % 2 ^ 32]) c w1 _ h1
        (by rw [put_same]; simp) (by omega) (by simpa using hf)
      rw [List.length_append, List.length_singleton] at key
      refine key.mono ?_
      rintro _ w2 ⟨c2, h2⟩
      refine ⟨c2, ?_⟩
      rw [put_put] at h2
      have hpos : N * m + carry ≠ 0 := by
        have : 0 < N * m := Nat.mul_pos (Nat.pos_of_ne_zero hN) hm0
        omega
      have e : N * m + carry = (v * m + carry) + 2 ^ 32 * (q * m) := by rw [hNq]; ring
      rw [digits_pos (by norm_num) hpos, e, Nat.add_mul_mod_self_left, Nat.add_mul_div_left _ _ (by norm_num)]
      rw [Nat.add_comm ((v * m + carry) / 2 ^ 32)]
      simpa using h2

theorem readDigits_spec (ht : cfg.triv = true) {base : Nat} (hb0 : 0 < base) (hb : base < 2 ^ 32) : ∀ (ds : List Nat) (N c : Nat)
    (w : World Nat) (A : AWorld Nat), S cfg w A → A a = some (Nat.digits (2 ^ 32) N, c) → (∀ d ∈ ds, d < 2 ^ 32) →
    Does (readDigits cfg a base ds) w fun _ w' => ∃ c', S cfg w'
      (put A a (some (Nat.digits (2 ^ 32) (N * base ^ ds.length + Nat.ofDigits base ds.reverse), c')))
  | [], N, c, w, A, hs, ha, _ => by
    unfold readDigits
    exact Does.pure ⟨c, hs.same ha (by simp)⟩
  | d :: ds, N, c, w, A, hs, ha, hd => by
    unfold readDigits
    refine Does.bind (hs.size ha ?_)
    refine Does.bind ((mulAdd_spec ht hb0 hb _ N d [] c w A hs ha (hd d (by simp)) (by simp)).mono ?_)
    rintro _ w1 ⟨c1, h1⟩
    refine (readDigits_spec ht hb0 hb ds _ c1 w1 _ h1 (put_same ..) fun x hx => hd x (by simp [hx])).mono ?_
    rintro _ w2 ⟨c2, h2⟩
    rw [put_put] at h2
    refine ⟨c2, ?_⟩
    have e : N * base ^ (d :: ds).length + Nat.ofDigits base (d :: ds).reverse =
        (N * base + d) * base ^ ds.length + Nat.ofDigits base ds.reverse := by
      rw [List.reverse_cons, Nat.ofDigits_append, List.length_reverse, Nat.ofDigits_singleton, List.length_cons]
      ring
    rwa [e]

theorem divWords_spec (ht : cfg.triv = true) {m : Nat} (hm0 : 0 < m) (hm : m < 2 ^ 32) : ∀ (n rest : Nat) (P Q : List Nat)
    (w : World Nat) (A : AWorld Nat), S cfg w A → A a = some (P ++ Q, c) → P.length = n → (∀ x ∈ P, x < 2 ^ 32) → rest < m →
    Does (divWords cfg a m n rest) w fun r w' => ∃ P', P'.length = n ∧ (∀ x ∈ P', x < 2 ^ 32) ∧ r < m ∧
      rest * (2 ^ 32) ^ n + Nat.ofDigits (2 ^ 32) P = m * Nat.ofDigits (2 ^ 32) P' + r ∧ S cfg w' (put A a (some (P' ++ Q, c)))
  | 0, rest, P, Q, w, A, hs, ha, hP, _, hr => by
    obtain rfl := List.length_eq_zero_iff.1 hP
    unfold divWords
    exact Does.pure ⟨[], rfl, by simp, hr, by simp, hs.same ha rfl⟩
  | n + 1, rest, P, Q, w, A, hs, ha, hP, hl, hr => by
    obtain ⟨P0, v, rfl⟩ : ∃ P0 v, P = P0 ++ [v] := by
      rcases List.eq_nil_or_concat P with rfl | ⟨P0, v, e⟩
      · simp at hP
      · exact ⟨P0, v, by simpa using e⟩
    have hn : P0.length = n := by simpa using hP
    have hv : v < 2 ^ 32 := hl v (by simp)
    have ha' : A a = some (P0 ++ v :: Q, c) := by simpa using ha
    unfold divWords
    refine Does.bind (hs.index ha' (x := v) (by rw [← hn]; simp) ?_)
    have h64 : rest * 2 ^ 32 + v < 2 ^ 64 := by omega
    rw [Nat.mod_eq_of_lt h64]
    obtain ⟨t, htt⟩ : ∃ t, t = rest * 2 ^ 32 + v := ⟨_, rfl⟩
    rw [← htt] at h64 ⊢
    have hq : t / m < 2 ^ 32 := by
      rw [Nat.div_lt_iff_lt_mul hm0]
      have : (rest + 1) * 2 ^ 32 ≤ m * 2 ^ 32 := Nat.mul_le_mul_right _ hr
      omega
    dsimp only
    rw [Nat.mod_eq_of_lt hq]
    have hw := hs.write ht ha' (t / m)
    rw [hn] at hw
    refine Does.bind (hw.mono fun _ w1 h1 => ?_)
    refine (divWords_spec ht hm0 hm n (t % m) P0 (t / m :: Q) w1 _ h1 (put_same ..) hn (fun x hx => hl x (by simp [hx]))
      (Nat.mod_lt _ hm0)).mono ?_
    rintro r w2 ⟨P', k1, k2, k3, k4, k5⟩
    rw [put_put] at k5
    refine ⟨P' ++ [t / m], by simp [k1], ?_, k3, ?_, by simpa using k5⟩
    · intro x hx
      rcases List.mem_append.1 hx with hx | hx
      · exact k2 x hx
      · rw [List.mem_singleton] at hx; rw [hx]; exact hq
    · rw [Nat.ofDigits_append, Nat.ofDigits_append, Nat.ofDigits_singleton, Nat.ofDigits_singleton, hn, k1]
      obtain ⟨X, hX⟩ : ∃ X, X = (2 ^ 32 : Nat) ^ n := ⟨_, rfl⟩
      rw [pow_succ, ← hX]
      rw [← hX] at k4
      have e : t = m * (t / m) + t % m := (Nat.div_add_mod t m).symm
      calc rest * (X * 2 ^ 32) + (Nat.ofDigits (2 ^ 32) P0 + X * v)
          = X * t + Nat.ofDigits (2 ^ 32) P0 := by rw [htt]; ring
        _ = m * (X * (t / m)) + (t % m * X + Nat.ofDigits (2 ^ 32) P0) := by conv_lhs => rw [e]
                                                                             ring
        _ = m * (Nat.ofDigits (2 ^ 32) P' + X * (t / m)) + r := by rw [k4]; ring

theorem dropZeros_spec (ht : cfg.triv = true) : ∀ (fuel : Nat) (xs : List Nat) (w : World Nat) (A : AWorld Nat), S cfg w A →
    A a = some (xs, c) → (∀ x ∈ xs, x < 2 ^ 32) → xs.length < fuel →
    Does (dropZeros cfg a fuel) w fun _ w' => S cfg w' (put A a (some (Nat.digits (2 ^ 32) (Nat.ofDigits (2 ^ 32) xs), c)))
  | 0, _, _, _, _, _, _, hf => by omega
  | fuel + 1, xs, w, A, hs, ha, hl, hf => by
    unfold dropZeros
    refine Does.bind (hs.empty ha ?_)
    rcases List.eq_nil_or_concat xs with rfl | ⟨ys, v, e⟩
    · rw [if_pos (by rfl)]
      exact Does.pure (hs.same ha (by simp))
    · have e : xs = ys ++ [v] := by simpa using e
      subst e
      rw [if_neg (by simp)]
      refine Does.bind (hs.back ha ?_)
      split
      · rename_i e
        subst e
        refine Does.bind ((hs.pop ht ha).mono fun _ w1 h1 => ?_)
        refine (dropZeros_spec ht fuel ys w1 _ h1 (put_same ..) (fun x hx => hl x (by simp [hx])) (by simp at hf; omega)).mono ?_
        intro _ w2 h2
        rw [put_put] at h2
        simpa [Nat.ofDigits_append] using h2
      · rename_i e
        refine Does.pure (hs.same ha ?_)
        exact (Nat.digits_ofDigits _ (by norm_num) _ hl (fun _ => by simpa using e)).symm

theorem writeDigits_spec (ht : cfg.triv = true) {out base : Nat} (hne : out ≠ a) (hb1 : 1 < base) (hb : base < 2 ^ 32) :
    ∀ (fuel N c : Nat) (os : List Nat) (co : Nat) (w : World Nat) (A : AWorld Nat), S cfg w A →
    A a = some (Nat.digits (2 ^ 32) N, c) → A out = some (os, co) → (Nat.digits base N).length < fuel →
    Does (writeDigits cfg a out base fuel) w fun _ w' => ∃ co', S cfg w'
      (put (put A a (some ([], c))) out (some (os ++ Nat.digits base N, co')))
  | 0, _, _, _, _, _, _, _, _, _, hf => by omega
  | fuel + 1, N, c, os, co, w, A, hs, ha, ho, hf => by
    unfold writeDigits
    refine Does.bind (hs.empty ha ?_)
    by_cases hN : N = 0
    · subst hN
      rw [Nat.digits_zero] at ha
      rw [Nat.digits_zero, if_pos (by rfl)]
      refine Does.pure ⟨co, ?_⟩
      rw [Nat.digits_zero, List.append_nil, put_self A a _ ha, put_self A out _ ho]
      exact hs
    · rw [if_neg (by rw [digits_pos (by norm_num) hN]; simp)]
      refine Does.bind (hs.size ha ?_)
      have hwords : ∀ x ∈ Nat.digits (2 ^ 32) N, x < 2 ^ 32 := fun x hx => Nat.digits_lt_base (by norm_num) hx
      rw [Int.toNat_natCast]
      refine Does.bind ((divWords_spec ht (by omega) hb _ 0 _ [] w A hs (by simpa using ha) rfl hwords (by omega)).mono ?_)
      rintro r w1 ⟨P, h1, h2, h3, h4, h5⟩
      rw [Nat.zero_mul, Nat.zero_add, Nat.ofDigits_digits] at h4
      rw [List.append_nil] at h5
      refine Does.bind ((dropZeros_spec ht _ P w1 _ h5 (put_same ..) h2 (by omega)).mono fun _ w2 h6 => ?_)
      rw [put_put] at h6
      have hdiv : Nat.ofDigits (2 ^ 32) P = N / base := by
        rw [h4, Nat.mul_add_div (by omega), Nat.div_eq_of_lt h3, Nat.add_zero]
      have hmod : r = N % base := by
        rw [h4, Nat.mul_add_mod, Nat.mod_eq_of_lt h3]
      rw [hdiv] at h6
      refine Does.bind ((h6.push ht (a := out) (by rw [put_other _ hne]; exact ho) r).mono ?_)
      rintro _ w3 ⟨c3, h7⟩
      have hd := digits_pos hb1 hN
      rw [hd] at hf
      refine (writeDigits_spec ht hne hb1 hb fuel (N / base) c _ c3 w3 _ h7 (by rw [put_other _ hne.symm, put_same])
        (put_same ..) (by simpa using hf)).mono ?_
      rintro _ w4 ⟨c4, h8⟩
      refine ⟨c4, ?_⟩
      have e : put (put (put (put A a (some (Nat.digits (2 ^ 32) (N / base), c))) out (some (os ++ [r], c3))) a (some ([], c))) out
          (some (os ++ [r] ++ Nat.digits base (N / base), c4)) =
          put (put A a (some ([], c))) out (some (os ++ Nat.digits base N, c4)) := by
        rw [hd, ← hmod]
        funext j
        by_cases j1 : j = out
        · subst j1; simp [put]
        · by_cases j2 : j = a <;> simp [put, j1, j2]
      rwa [e] at h8

theorem addTo_spec (ht : cfg.triv = true) {bs : List Nat} {cb : Nat} (hne : b ≠ a) : ∀ (fuel N K carry : Nat) (pre : List Nat) (c : Nat)
    (w : World Nat) (A : AWorld Nat), S cfg w A → A a = some (pre ++ Nat.digits (2 ^ 32) N, c) → A b = some (bs, cb) →
    bs.drop pre.length = Nat.digits (2 ^ 32) K → carry ≤ 1 →
    (Nat.digits (2 ^ 32) N).length + (Nat.digits (2 ^ 32) K).length + carry < fuel →
    Does (addTo cfg a b fuel pre.length carry) w fun _ w' => ∃ c', S cfg w' (put A a (some (pre ++ Nat.digits (2 ^ 32) (N + K + carry), c')))
  | 0, _, _, _, _, _, _, _, _, _, _, _, _, hf => by omega
  | fuel + 1, N, K, carry, pre, c, w, A, hs, ha, hb, hK, hc, hf => by
    have hB : 1 < 2 ^ 32 := by norm_num
    unfold addTo
    refine Does.bind (hs.size hb ?_)
    have hlt : ((pre.length : Int) < bs.length) ↔ K ≠ 0 := by
      have h1 : (bs.drop pre.length).length = (Nat.digits (2 ^ 32) K).length := by rw [hK]
      rw [List.length_drop] at h1
      constructor
      · rintro h rfl
        simp at h1
        omega
      · intro h
        rw [digits_pos hB h] at h1
        simp at h1
        omega
    by_cases hz : K = 0 ∧ carry = 0
    · rw [if_neg (by rw [hlt]; simp [hz.1, hz.2])]
      exact Does.pure ⟨c, hs.same ha (by simp [hz.1, hz.2])⟩
    · rw [if_pos (by rw [hlt]; by_contra h; push Not at h; exact hz h)]
      -- the word of `a` is there
      have hfirst : Does (oneMore cfg a pre.length) w fun _ w' => ∃ c', S cfg w' (put A a (some (pre ++ N % 2 ^ 32 :: Nat.digits (2 ^ 32) (N / 2 ^ 32), c'))) := by
        unfold oneMore
        refine Does.bind (hs.size ha ?_)
        by_cases hN : N = 0
        · subst hN
          rw [Nat.digits_zero, List.append_nil] at ha
          rw [Nat.digits_zero, List.append_nil, if_pos rfl]
          refine Does.bind ((hs.push ht ha 0).mono ?_)
          rintro _ w1 ⟨c1, h1⟩
          exact Does.pure ⟨c1, by simpa using h1⟩
        · have hd := digits_pos hB hN
          rw [hd] at ha
          rw [hd, if_neg (by simp; omega)]
          exact Does.pure ⟨c, hs.same ha rfl⟩
      obtain ⟨v, hv⟩ : ∃ v, v = N % 2 ^ 32 := ⟨_, rfl⟩
      obtain ⟨q, hq⟩ : ∃ q, q = N / 2 ^ 32 := ⟨_, rfl⟩
      have hNq : N = 2 ^ 32 * q + v := by rw [hv, hq]; exact (Nat.div_add_mod N _).symm
      obtain ⟨u, hu⟩ : ∃ u, u = K % 2 ^ 32 := ⟨_, rfl⟩
      obtain ⟨p, hp⟩ : ∃ p, p = K / 2 ^ 32 := ⟨_, rfl⟩
      have hKp : K = 2 ^ 32 * p + u := by rw [hu, hp]; exact (Nat.div_add_mod K _).symm
      have hvl : v < 2 ^ 32 := by rw [hv]; exact Nat.mod_lt _ (by norm_num)
      have hul : u < 2 ^ 32 := by rw [hu]; exact Nat.mod_lt _ (by norm_num)
      have hNlen : (Nat.digits (2 ^ 32) q).length ≤ (Nat.digits (2 ^ 32) N).length ∧
          (N ≠ 0 → (Nat.digits (2 ^ 32) q).length + 1 = (Nat.digits (2 ^ 32) N).length) := by
        by_cases hN : N = 0
        · subst hN; subst hq; simp
        · subst hq; rw [digits_pos hB hN]; simp
      have hKlen : (Nat.digits (2 ^ 32) p).length ≤ (Nat.digits (2 ^ 32) K).length ∧
          (K ≠ 0 → (Nat.digits (2 ^ 32) p).length + 1 = (Nat.digits (2 ^ 32) K).length) := by
        by_cases h0 : K = 0
        · subst h0; subst hp; simp
        · subst hp; rw [digits_pos hB h0]; simp
      rw [← hv, ← hq] at hfirst
      obtain ⟨_, w1, g1, c1, h1⟩ := hfirst
      have hbi : Does (wordOr b pre.length) w1
          fun x w' => x = u ∧ w' = w1 := by
        unfold wordOr
        refine Does.bind (h1.size (a := b) (by rw [put_other _ hne]; exact hb) ?_)
        by_cases h0 : K = 0
        · rw [if_neg (by rw [hlt]; simpa using h0)]
          exact Does.pure ⟨by simp [hu, h0], rfl⟩
        · rw [if_pos (hlt.2 h0)]
          refine h1.index (a := b) (by rw [put_other _ hne]; exact hb) (x := u) ?_ ⟨rfl, rfl⟩
          have e : (bs.drop pre.length)[0]? = some u := by rw [hK, digits_pos hB h0, ← hu]; rfl
          simpa using e
      refine Does.bind ⟨_, w1, g1, ?_⟩
      refine Does.bind (h1.index (put_same ..) (x := v) (by simp) ?_)
      refine Does.bind (hbi.mono ?_)
      rintro u' w1' ⟨e1, e2⟩
      subst u'
      subst w1'
      rw [Nat.mod_eq_of_lt (by omega : v + u + carry < 2 ^ 64)]
      refine Does.bind ((h1.write ht (put_same ..) _).mono fun _ w2 h2 => ?_)
      rw [put_put] at h2
      have key := addTo_spec ht hne fuel q p ((v + u + carry) / 2 ^ 32) (pre ++ [(v + u + carry) % 2 ^ 32]) c1 w2 _ h2
        (by rw [put_same]; simp) (by rw [put_other _ hne]; exact hb)
        (by
          rw [List.length_append, List.length_singleton, ← List.drop_drop, hK]
          by_cases h0 : K = 0
          · subst h0; subst hp; simp
          · subst hp; rw [digits_pos hB h0]; rfl)
        (by omega)
        (by
          by_cases h0 : N = 0
          · by_cases h0' : K = 0
            · have : v = 0 := by simp [hv, h0]
              have : u = 0 := by simp [hu, h0']
              have : (v + u + carry) / 2 ^ 32 = 0 := by omega
              have := hNlen.1
              have := hKlen.1
              have : carry ≠ 0 := fun e => hz ⟨h0', e⟩
              omega
            · have := hNlen.1
              have := hKlen.2 h0'
              have : v = 0 := by simp [hv, h0]
              have : (v + u + carry) / 2 ^ 32 ≤ carry := by omega
              omega
          · have := hNlen.2 h0
            have := hKlen.1
            by_cases h0' : K = 0
            · have : u = 0 := by simp [hu, h0']
              have : (v + u + carry) / 2 ^ 32 ≤ carry := by omega
              omega
            · have := hKlen.2 h0'
              have : (v + u + carry) / 2 ^ 32 ≤ 1 := by omega
              omega)
      rw [List.length_append, List.length_singleton] at key
      refine key.mono ?_
      rintro _ w3 ⟨c3, h3⟩
      rw [put_put] at h3
      refine ⟨c3, ?_⟩
      have hpos : N + K + carry ≠ 0 := fun e => hz ⟨by omega, by omega⟩
      have e : N + K + carry = (v + u + carry) + 2 ^ 32 * (q + p) := by rw [hNq, hKp]; ring
      rw [digits_pos hB hpos, e, Nat.add_mul_mod_self_left, Nat.add_mul_div_left _ _ (by norm_num)]
      rw [Nat.add_comm ((v + u + carry) / 2 ^ 32)]
      simpa using h3

/-! ## Results -/

/-- C185. Digits are read into an array that was empty, in any base, and written to another in any base: the digits written, the lowest
first, are those of the number the digits read stand for; nothing overflows. No other array changes. -/
theorem convert_result (ht : cfg.triv = true) (hw : Reached cfg w) {out co base base' : Nat} {os : List Nat} (hne : out ≠ a)
    (ha : observe w a = some ([], c)) (ho : observe w out = some (os, co)) (hb : 1 < base ∧ base < 2 ^ 32) (hb' : 1 < base' ∧ base' < 2 ^ 32)
    (ds : List Nat) (hd : ∀ d ∈ ds, d < base) {fuel : Nat} (hf : (Nat.digits base' (Nat.ofDigits base ds.reverse)).length < fuel) :
    ∃ w' c' co', convertDigits cfg a out base base' fuel ds w = .ok () w' ∧ Reached cfg w' ∧
      observe w' a = some ([], c') ∧ observe w' out = some (os ++ Nat.digits base' (Nat.ofDigits base ds.reverse), co') ∧
      OnlyIn [a, out] (observe w) (observe w') := by
  have key : Does (convertDigits cfg a out base base' fuel ds) w fun _ w' => ∃ c' co', S cfg w'
      (put (put (observe w) a (some ([], c'))) out (some (os ++ Nat.digits base' (Nat.ofDigits base ds.reverse), co'))) := by
    unfold convertDigits
    refine Does.bind ((readDigits_spec ht (by omega) hb.2 ds 0 c w _ ⟨hw, rfl⟩ (by simpa using ha)
      fun d h => by have := hd d h; omega).mono ?_)
    rintro _ w1 ⟨c1, h1⟩
    rw [Nat.zero_mul, Nat.zero_add] at h1
    refine (writeDigits_spec ht hne hb'.1 hb'.2 fuel _ c1 os co w1 _ h1 (put_same ..) (by rw [put_other _ hne]; exact ho) hf).mono ?_
    rintro _ w2 ⟨c2, h2⟩
    rw [put_put] at h2
    exact ⟨c1, c2, h2⟩
  obtain ⟨_, w', h1, c', co', h2, h3⟩ := key
  refine ⟨w', c', co', h1, h2, ?_, ?_, ?_⟩
  · rw [h3, put_other _ hne.symm, put_same]
  · rw [h3, put_same]
  · intro j hj
    simp only [List.mem_cons, List.not_mem_nil, or_false, not_or] at hj
    rw [h3, put_other _ hj.2, put_other _ hj.1]

/-- C185. What is read and written in the same base comes back, the other way round. -/
theorem convert_back (ht : cfg.triv = true) (hw : Reached cfg w) {out co base : Nat} (hne : out ≠ a)
    (ha : observe w a = some ([], c)) (ho : observe w out = some ([], co)) (hb : 1 < base ∧ base < 2 ^ 32)
    (ds : List Nat) (hd : ∀ d ∈ ds, d < base) (h0 : ∀ d ∈ ds.head?, d ≠ 0) {fuel : Nat} (hf : ds.length < fuel) :
    ∃ w' co', convertDigits cfg a out base base fuel ds w = .ok () w' ∧ observe w' out = some (ds.reverse, co') := by
  have e : Nat.digits base (Nat.ofDigits base ds.reverse) = ds.reverse := by
    refine Nat.digits_ofDigits _ hb.1 _ (fun d h => hd d (by simpa using h)) fun h => ?_
    rw [List.getLast_reverse]
    exact h0 _ (List.head?_eq_some_head _)
  obtain ⟨w', _, co', h1, -, -, h2, -⟩ := convert_result ht hw hne ha ho hb hb ds hd (fuel := fuel) (by rw [e]; simpa using hf)
  rw [e] at h2
  exact ⟨w', co', h1, by simpa using h2⟩

/-- C185. Adding the number of one array to the number of another, whatever their sizes. Nothing but the sum changes. -/
theorem add_result (ht : cfg.triv = true) (hw : Reached cfg w) {N K cb : Nat} (hne : b ≠ a)
    (ha : observe w a = some (Nat.digits (2 ^ 32) N, c)) (hb : observe w b = some (Nat.digits (2 ^ 32) K, cb)) {fuel : Nat}
    (hf : (Nat.digits (2 ^ 32) N).length + (Nat.digits (2 ^ 32) K).length < fuel) :
    ∃ w' c', addTo cfg a b fuel 0 0 w = .ok () w' ∧ Reached cfg w' ∧
      observe w' = put (observe w) a (some (Nat.digits (2 ^ 32) (N + K), c')) := by
  obtain ⟨_, w', h1, c', h2, h3⟩ := addTo_spec ht hne fuel N K 0 [] c w _ ⟨hw, rfl⟩ ha hb (by simp) (by omega) (by omega)
  exact ⟨w', c', h1, h2, h3⟩

/-! ## Examples -/

/-- 9000000001, which needs two words, comes back in base 10 and has two digits in base 2^31. -/
example : (match run ⟨true, id⟩ World.init [.ctor 0, .ctor 1, .ctor 2] with
    | .ok _ w => match convertDigits ⟨true, id⟩ 0 1 10 10 20 [9, 0, 0, 0, 0, 0, 0, 0, 0, 1] w,
        convertDigits ⟨true, id⟩ 0 1 10 (2 ^ 31) 20 [9, 0, 0, 0, 0, 0, 0, 0, 0, 1] w with
      | .ok _ w1, .ok _ w2 => some ((observe w1 1).map Prod.fst, (observe w2 1).map Prod.fst)
      | _, _ => none
    | _ => none) = some (some [1, 0, 0, 0, 0, 0, 0, 0, 0, 9], some [410065409, 4]) := by
  decide +kernel

/-- A carry that runs through all words. -/
example : (match run ⟨true, id⟩ World.init [.ctorRange 0 [.val 4294967295, .val 4294967295], .ctorRange 1 [.val 1]] with
    | .ok _ w => match addTo ⟨true, id⟩ 0 1 9 0 0 w with
      | .ok _ w1 => some ((observe w1 0).map Prod.fst, (observe w1 1).map Prod.fst)
      | _ => none
    | _ => none) = some (some [0, 0, 1], some [1]) := by
  decide +kernel

end Verif.Arr
