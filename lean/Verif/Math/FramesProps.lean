import Verif.Math.Frames
import Verif.Math.VectorProps
import Mathlib.LinearAlgebra.Span.Basic

/-! C177: frames of unit vectors. -/

set_option autoImplicit false

namespace Verif.Math

variable {n : Nat}

/-! ### Specification -/

/-- All combinations of the vectors. -/
def Combos (l : List (Vec ℝ n)) : Submodule ℝ (Vec ℝ n) := Submodule.span ℝ {x | x ∈ l}

/-- Unit vectors at right angles. -/
def Orthonormals (l : List (Vec ℝ n)) : Prop := (∀ e ∈ l, e ⬝ᵥ e = 1) ∧ l.Pairwise fun e e' => e ⬝ᵥ e' = 0

/-- No vector is a combination of those before it. -/
def Independents (l : List (Vec ℝ n)) : Prop := ∀ k (h : k < l.length), l[k] ∉ Combos (l.take k)

/-! ### Auxiliary facts -/

theorem combos_append (a b : List (Vec ℝ n)) : Combos (a ++ b) = Combos a ⊔ Combos b := by
  rw [Combos, Combos, Combos, ← Submodule.span_union]
  congr 1
  ext x; simp

theorem combos_mem {l : List (Vec ℝ n)} {x : Vec ℝ n} (h : x ∈ l) : x ∈ Combos l := Submodule.subset_span h

theorem dot_self_zero {a : Vec ℝ n} (h : a ⬝ᵥ a = 0) : a = 0 := by
  funext i
  have := (Finset.sum_eq_zero_iff_of_nonneg fun i _ => mul_self_nonneg (a i)).mp h i (Finset.mem_univ i)
  exact mul_self_eq_zero.mp this

theorem removeParts_spec : ∀ (es : List (Vec ℝ n)) (v : Vec ℝ n), Orthonormals es →
    (∀ e ∈ es, removeParts es v ⬝ᵥ e = 0) ∧ v - removeParts es v ∈ Combos es ∧
    ∀ u, (∀ e ∈ es, e ⬝ᵥ u = 0) → removeParts es v ⬝ᵥ u = v ⬝ᵥ u
  | [], v, _ => by simp [removeParts]
  | e :: es, v, ⟨h1, h2⟩ => by
    obtain ⟨p1, p2⟩ := List.pairwise_cons.mp h2
    have ee := h1 e List.mem_cons_self
    obtain ⟨g1, g2, g3⟩ := removeParts_spec es (sub v (mulS e (dot v e)))
      ⟨fun x hx => h1 x (List.mem_cons_of_mem _ hx), p2⟩
    have hw : ∀ u, sub v (mulS e (dot v e)) ⬝ᵥ u = v ⬝ᵥ u - (v ⬝ᵥ e) * (e ⬝ᵥ u) := by
      intro u
      rw [sub_eq, mulS_eq, ← dot_eq_dotProduct, dot_sub_smul, dot_eq_dotProduct, dot_eq_dotProduct, dot_eq_dotProduct]
    rw [removeParts]
    refine ⟨?_, ?_, ?_⟩
    · intro x hx
      rcases List.mem_cons.mp hx with rfl | hx
      · rw [g3 x fun y hy => by rw [dotProduct_comm]; exact p1 y hy, hw, ee]; ring
      · exact g1 x hx
    · have e1 : v - removeParts es (sub v (mulS e (dot v e))) =
          (dot v e) • e + (sub v (mulS e (dot v e)) - removeParts es (sub v (mulS e (dot v e)))) := by
        have e0 : v = (dot v e) • e + sub v (mulS e (dot v e)) := by rw [sub_eq, mulS_eq]; abel
        rw [← add_sub_assoc, ← e0]
      rw [e1]
      have e2 : Combos (e :: es) = Combos [e] ⊔ Combos es := combos_append [e] es
      rw [e2]
      exact Submodule.add_mem_sup (Submodule.smul_mem _ _ (combos_mem List.mem_cons_self)) g2
    · intro u hu
      rw [g3 u fun y hy => hu y (List.mem_cons_of_mem _ hy), hw, hu e List.mem_cons_self]; ring

theorem orthonormalize_spec : ∀ (vs es : List (Vec ℝ n)), Orthonormals es →
    (∀ k (h : k < vs.length), vs[k] ∉ Combos (es ++ vs.take k)) →
    ∃ new : List (Vec ℝ n), orthonormalize es vs = es ++ new ∧ ∃ hl : new.length = vs.length, Orthonormals (es ++ new) ∧
      (∀ k, Combos (es ++ new.take k) = Combos (es ++ vs.take k)) ∧ ∀ k (h : k < vs.length), 0 < new[k] ⬝ᵥ vs[k]
  | [], es, ho, _ => ⟨[], by simp [orthonormalize], rfl, by simpa using ho, by simp, by simp⟩
  | v :: vs, es, ho, hi => by
    obtain ⟨g1, g2, g3⟩ := removeParts_spec es v ho
    have hv : v ∉ Combos es := by
      have := hi 0 (by simp)
      rwa [List.take_zero, List.append_nil] at this
    have hne : removeParts es v ≠ 0 := by
      intro h; rw [h, sub_zero] at g2; exact hv g2
    obtain ⟨-, ⟨c, hc, hce⟩, -, -⟩ := normalize_unit _ hne
    have hlen := (normalize_unit _ hne).1
    set e := normalize (removeParts es v) with he
    have hee : e ⬝ᵥ e = 1 := by
      have := (length_sq e).2.2.1
      rw [length_norm, hlen, dot_eq_dotProduct] at this
      rw [← this]; norm_num
    have hort : ∀ x ∈ es, e ⬝ᵥ x = 0 := by
      intro x hx
      rw [hce, smul_dotProduct, g1 x hx, smul_zero]
    have hsp : Combos (es ++ [e]) = Combos (es ++ [v]) := by
      have hve : v = (v - removeParts es v) + c⁻¹ • e := by
        rw [hce, smul_smul, inv_mul_cancel₀ hc.ne', one_smul]; abel
      have single : ∀ x : Vec ℝ n, Combos [x] = Submodule.span ℝ {x} := by
        intro x; rw [Combos]; congr 1; ext y; simp
      rw [combos_append, combos_append, single, single]
      apply le_antisymm
      · refine sup_le le_sup_left ?_
        rw [Submodule.span_singleton_le_iff_mem]
        have : e = c • v + (-c) • (v - removeParts es v) := by rw [hce]; simp [smul_sub]
        rw [this, add_comm]
        exact Submodule.add_mem_sup (Submodule.smul_mem _ _ g2) (Submodule.smul_mem _ _ (Submodule.mem_span_singleton_self v))
      · refine sup_le le_sup_left ?_
        rw [Submodule.span_singleton_le_iff_mem]
        have := Submodule.add_mem_sup g2 (Submodule.smul_mem _ c⁻¹ (Submodule.mem_span_singleton_self e))
        rwa [← hve] at this
    have hsp' : ∀ l, Combos (es ++ [e] ++ l) = Combos (es ++ v :: l) := by
      intro l
      rw [combos_append, hsp, ← combos_append, List.append_assoc, List.singleton_append]
    have ho' : Orthonormals (es ++ [e]) := by
      refine ⟨?_, ?_⟩
      · intro x hx
        rcases List.mem_append.mp hx with hx | hx
        · exact ho.1 x hx
        · rw [List.mem_singleton.mp hx]; exact hee
      · rw [List.pairwise_append]
        refine ⟨ho.2, List.pairwise_singleton _ _, ?_⟩
        intro a ha b hb
        rw [List.mem_singleton.mp hb, dotProduct_comm]; exact hort a ha
    obtain ⟨new, k1, k2, k3, k4, k5⟩ := orthonormalize_spec vs (es ++ [e]) ho' (by
      intro k hk
      have := hi (k + 1) (by simpa using hk)
      rw [hsp']
      simpa using this)
    refine ⟨e :: new, ?_, by simp [k2], by simpa using k3, ?_, ?_⟩
    · rw [orthonormalize, ← he, k1, List.append_assoc, List.singleton_append]
    · intro k
      cases k with
      | zero => simp
      | succ k =>
        have := k4 k
        rw [hsp' (vs.take k), List.append_assoc, List.singleton_append] at this
        simpa using this
    · intro k hk
      cases k with
      | zero =>
        show 0 < e ⬝ᵥ v
        have h1 : removeParts es v ⬝ᵥ e = v ⬝ᵥ e := g3 e fun x hx => by rw [dotProduct_comm]; exact hort x hx
        have h2 : e ⬝ᵥ e = c * (removeParts es v ⬝ᵥ e) := by
          conv_lhs => rw [hce, smul_dotProduct, ← hce]
          rfl
        rw [dotProduct_comm, ← h1]
        rw [hee] at h2
        by_contra hneg
        have := mul_nonpos_of_nonneg_of_nonpos hc.le (not_lt.mp hneg)
        linarith
      | succ k =>
        simp only [List.getElem_cons_succ]
        exact k5 k (by simpa using hk)

/-! ### The theorems -/

/-- C177. Orthonormalisation: as many unit vectors at right angles; the first `k` have the same combinations as the first `k` that
were given; each is on the same side as the one it was made from. -/
theorem orthonormalize_result (vs : List (Vec ℝ n)) (h : Independents vs) :
    ∃ hl : (orthonormalize [] vs).length = vs.length, Orthonormals (orthonormalize [] vs) ∧
      (∀ k, Combos ((orthonormalize [] vs).take k) = Combos (vs.take k)) ∧
      ∀ k (h : k < vs.length), 0 < (orthonormalize [] vs)[k] ⬝ᵥ vs[k] := by
  obtain ⟨new, h1, h2, h3, h4, h5⟩ := orthonormalize_spec vs [] ⟨by simp, List.Pairwise.nil⟩ h
  rw [List.nil_append] at h1
  subst h1
  exact ⟨h2, h3, h4, h5⟩

/-- C177. The result is determined by this: vectors that have the properties above are those that are computed. -/
theorem orthonormalize_unique (vs es : List (Vec ℝ n)) (h : Independents vs) (hl : es.length = vs.length) (ho : Orthonormals es)
    (hs : ∀ k, Combos (es.take k) = Combos (vs.take k)) (hp : ∀ k (h : k < vs.length), 0 < es[k] ⬝ᵥ vs[k]) :
    orthonormalize [] vs = es := by
  obtain ⟨rl, r1, r2, r3⟩ := orthonormalize_result vs h
  set rs := orthonormalize [] vs
  have perp : ∀ (l : List (Vec ℝ n)) (u : Vec ℝ n), (∀ x ∈ l, x ⬝ᵥ u = 0) → ∀ y ∈ Combos l, y ⬝ᵥ u = 0 := by
    intro l u hu y hy
    refine Submodule.span_induction (p := fun y _ => y ⬝ᵥ u = 0) (fun x hx => hu x hx) (by simp) ?_ ?_ hy
    · intro a b _ _ ha hb; rw [add_dotProduct, ha, hb, add_zero]
    · intro c a _ ha; rw [smul_dotProduct, ha, smul_zero]
  have before : ∀ (l : List (Vec ℝ n)), Orthonormals l → ∀ k (hk : k < l.length), ∀ x ∈ l.take k, x ⬝ᵥ l[k] = 0 := by
    intro l hlo k hk x hx
    obtain ⟨i, hi, rfl⟩ := List.mem_iff_getElem.mp hx
    rw [List.length_take] at hi
    rw [List.getElem_take]
    exact List.pairwise_iff_getElem.mp hlo.2 i k (by omega) hk (by omega)
  refine List.ext_getElem (by rw [rl, hl]) fun k hk hk' => ?_
  have hkv : k < vs.length := by omega
  -- `es[k]` is a combination of the first `k + 1` results, at right angles to the first `k`
  have hmem : es[k] ∈ Combos (rs.take k ++ [rs[k]]) := by
    have e1 : rs.take k ++ [rs[k]] = rs.take (k + 1) := List.take_append_getElem hk
    rw [e1, r2 (k + 1), ← hs (k + 1)]
    refine combos_mem ?_
    rw [List.mem_iff_getElem]
    exact ⟨k, by simp; omega, by simp⟩
  rw [combos_append] at hmem
  obtain ⟨a, ha, b, hb, hab⟩ := Submodule.mem_sup.mp hmem
  have hb' : ∃ c : ℝ, c • rs[k] = b := by
    rw [Combos] at hb
    have : ({x | x ∈ [rs[k]]} : Set (Vec ℝ n)) = {rs[k]} := by ext y; simp
    rw [this] at hb
    exact Submodule.mem_span_singleton.mp hb
  obtain ⟨c, rfl⟩ := hb'
  have hae : a ⬝ᵥ es[k] = 0 := by
    refine perp (es.take k) _ (before es ho k hk') a ?_
    rw [hs k, ← r2 k]; exact ha
  have har : a ⬝ᵥ rs[k] = 0 := perp (rs.take k) _ (before rs r1 k hk) a ha
  have ha0 : a ⬝ᵥ a = 0 := by
    have : a ⬝ᵥ es[k] = a ⬝ᵥ a + c * (a ⬝ᵥ rs[k]) := by
      conv_lhs => rw [← hab]
      rw [dotProduct_add, dotProduct_smul]; rfl
    rw [hae, har, mul_zero, add_zero] at this
    exact this.symm
  have ha1 : a = 0 := dot_self_zero ha0
  rw [ha1, zero_add] at hab
  have hc2 : c * c = 1 := by
    have h1 := ho.1 _ (List.getElem_mem hk')
    have h2 := r1.1 _ (List.getElem_mem hk)
    rw [← hab, smul_dotProduct, dotProduct_smul, h2] at h1
    simpa using h1
  have hcp : 0 < c := by
    have h1 := hp k hkv
    have h2 := r3 k hkv
    rw [← hab, smul_dotProduct, smul_eq_mul] at h1
    exact (pos_iff_pos_of_mul_pos h1).mpr h2
  have : c = 1 := by nlinarith
  rw [← hab, this, one_smul]

/-! ### The camera -/

/-- C177. The frame of a camera that is not at its target and does not look along `up`: it consists of unit vectors at right angles,
right-handed. -/
theorem lookAt_frame (eye target up : Vec ℝ 3) (h : cross (target - eye) up ≠ 0) :
    Orthonormals [(lookAt eye target up).right, (lookAt eye target up).up, (lookAt eye target up).ahead] ∧
    cross (lookAt eye target up).right (lookAt eye target up).up = -(lookAt eye target up).ahead := by
  have hd : target - eye ≠ 0 := by
    intro h0; apply h; rw [h0]; funext i; fin_cases i <;> simp [cross]
  obtain ⟨hf1, ⟨c, hc, hfc⟩, -, -⟩ := normalize_unit _ hd
  have hfu : cross (normalize (target - eye)) up ≠ 0 := by
    rw [hfc, (cross_right_handed (target - eye) up 0 c).2.2.2.2]
    exact smul_ne_zero hc.ne' h
  obtain ⟨hs1, ⟨k, hk, hsk⟩, -, -⟩ := normalize_unit _ hfu
  have unit : ∀ v : Vec ℝ 3, ‖WithLp.toLp 2 v‖ = 1 → v ⬝ᵥ v = 1 := by
    intro v hv
    have := (length_sq v).2.2.1
    rw [length_norm, hv, dot_eq_dotProduct] at this
    rw [← this]; norm_num
  have e : lookAt eye target up = ⟨normalize (cross (normalize (target - eye)) up),
      cross (normalize (cross (normalize (target - eye)) up)) (normalize (target - eye)), normalize (target - eye)⟩ := by
    unfold lookAt; rw [sub_eq]
  rw [e]
  have hff := unit _ hf1
  have hss := unit _ hs1
  have hsf : normalize (cross (normalize (target - eye)) up) ⬝ᵥ normalize (target - eye) = 0 := by
    rw [hsk, smul_dotProduct, (cross_laws _ up).2.1, smul_zero]
  generalize normalize (cross (normalize (target - eye)) up) = s at hss hsf
  generalize normalize (target - eye) = f at hff hsf
  obtain ⟨-, l1, l2, -, l3⟩ := cross_laws s f
  refine ⟨⟨?_, ?_⟩, ?_⟩
  · intro x hx
    simp only [List.mem_cons, List.not_mem_nil, or_false] at hx
    rcases hx with rfl | rfl | rfl
    · exact hss
    · show cross s f ⬝ᵥ cross s f = 1
      rw [l3, hss, hff, hsf]; norm_num
    · exact hff
  · simp only [List.pairwise_cons, List.mem_cons, List.not_mem_nil, or_false, forall_eq_or_imp, forall_eq, false_imp_iff,
      implies_true, List.Pairwise.nil, and_true]
    exact ⟨⟨by rw [dotProduct_comm]; exact l1, hsf⟩, l2⟩
  · simp only [dotProduct, Fin.sum_univ_three] at hss hsf
    funext i
    fin_cases i <;> simp [cross]
    · linear_combination s 0 * hsf - f 0 * hss
    · linear_combination s 1 * hsf - f 1 * hss
    · linear_combination s 2 * hsf - f 2 * hss

/-- C177. What the camera sees: distances are kept and nothing is mirrored, the eye is at the origin, the target straight ahead at its
distance, and `up` points upwards. -/
theorem lookAt_view (eye target up p q r : Vec ℝ 3) (h : cross (target - eye) up ≠ 0) :
    let v := toView (lookAt eye target up) eye
    distance (v p) (v q) = distance p q ∧ cross (v p) (v q) ⬝ᵥ v r = cross (p - eye) (q - eye) ⬝ᵥ (r - eye) ∧ v eye = 0 ∧
    v target = ![0, 0, -distance eye target] ∧ v (eye + up) 0 = 0 ∧ 0 < v (eye + up) 1 := by
  obtain ⟨⟨h1, h2⟩, h3⟩ := lookAt_frame eye target up h
  have hd : target - eye ≠ 0 := by
    intro h0; apply h; rw [h0]; funext i; fin_cases i <;> simp [cross]
  obtain ⟨-, ⟨c, hc, hfc⟩, hlen, -⟩ := normalize_unit _ hd
  have hfu : cross (normalize (target - eye)) up ≠ 0 := by
    rw [hfc, (cross_right_handed (target - eye) up 0 c).2.2.2.2]
    exact smul_ne_zero hc.ne' h
  obtain ⟨-, ⟨k, hk, hsk⟩, -, -⟩ := normalize_unit _ hfu
  have ef : (lookAt eye target up).ahead = normalize (target - eye) := by unfold lookAt; rw [sub_eq]
  have es : (lookAt eye target up).right = k • cross (lookAt eye target up).ahead up := by
    rw [ef, ← hsk]; unfold lookAt; rw [sub_eq]
  have eu : (lookAt eye target up).up = cross (lookAt eye target up).right (lookAt eye target up).ahead := rfl
  have hpos : 0 < cross (lookAt eye target up).ahead up ⬝ᵥ cross (lookAt eye target up).ahead up := by
    rw [ef]
    exact lt_of_le_of_ne (Finset.sum_nonneg fun i _ => mul_self_nonneg _) fun h0 => hfu (dot_self_zero h0.symm)
  have hdist : distance eye target • (lookAt eye target up).ahead = target - eye := by
    rw [ef, distance, (length_sq _).2.1, sub_eq]; exact hlen
  generalize lookAt eye target up = fr at *
  obtain ⟨s, u, f⟩ := fr
  simp only at *
  have hss := h1 s (by simp)
  have huu := h1 u (by simp)
  have hff := h1 f (by simp)
  simp only [List.pairwise_cons, List.mem_cons, List.not_mem_nil, or_false, forall_eq_or_imp, forall_eq, false_imp_iff,
    implies_true, List.Pairwise.nil, and_true] at h2
  obtain ⟨⟨hsu, hsf⟩, huf⟩ := h2
  have hview : ∀ p, toView ⟨s, u, f⟩ eye p = ![s ⬝ᵥ (p - eye), u ⬝ᵥ (p - eye), -(f ⬝ᵥ (p - eye))] := by
    intro p; rw [toView, sub_eq, dot_eq_dotProduct, dot_eq_dotProduct, dot_eq_dotProduct]
  -- the rows form an orthogonal matrix, and so do the columns
  let M : Matrix (Fin 3) (Fin 3) ℝ := ![s, u, -f]
  have hM : M * M.transpose = 1 := by
    ext i j
    rw [Matrix.mul_apply]
    change M i ⬝ᵥ M j = _
    fin_cases i <;> fin_cases j
    · exact hss
    · exact hsu
    · show s ⬝ᵥ (-f) = 0
      rw [dotProduct_neg, hsf, neg_zero]
    · show u ⬝ᵥ s = 0
      rw [dotProduct_comm]; exact hsu
    · exact huu
    · show u ⬝ᵥ (-f) = 0
      rw [dotProduct_neg, huf, neg_zero]
    · show (-f) ⬝ᵥ s = 0
      rw [neg_dotProduct, dotProduct_comm, hsf, neg_zero]
    · show (-f) ⬝ᵥ u = 0
      rw [neg_dotProduct, dotProduct_comm, huf, neg_zero]
    · show (-f) ⬝ᵥ (-f) = 1
      rw [neg_dotProduct, dotProduct_neg, neg_neg, hff]
  have hM' : M.transpose * M = 1 := mul_eq_one_comm.mp hM
  have hV : ∀ p, toView ⟨s, u, f⟩ eye p = M.mulVec (p - eye) := by
    intro p
    rw [hview]
    funext i
    fin_cases i
    · rfl
    · rfl
    · show -(f ⬝ᵥ (p - eye)) = (-f) ⬝ᵥ (p - eye)
      rw [neg_dotProduct]
  have hdet : M.det = 1 := by
    have e : M.det = cross s u ⬝ᵥ (-f) := by
      rw [Matrix.det_fin_three]
      simp only [M, dotProduct, Fin.sum_univ_three, cross]
      simp
      ring
    rw [e, h3, neg_dotProduct, dotProduct_neg, neg_neg, hff]
  refine ⟨?_, ?_, ?_, ?_, ?_, ?_⟩
  · rw [distance_norm, distance_norm, dist_eq_norm, dist_eq_norm, ← WithLp.toLp_sub, ← WithLp.toLp_sub, ← length_norm, ← length_norm,
      length_eq, length_eq]
    congr 1
    have e : (fun i => toView ⟨s, u, f⟩ eye p i - toView ⟨s, u, f⟩ eye q i) = M.mulVec (p - q) := by
      rw [hV, hV]
      have : M.mulVec (p - q) = M.mulVec (p - eye) - M.mulVec (q - eye) := by
        rw [← Matrix.mulVec_sub]; congr 1; abel
      rw [this]; rfl
    show (fun i => toView ⟨s, u, f⟩ eye p i - toView ⟨s, u, f⟩ eye q i) ⬝ᵥ
      (fun i => toView ⟨s, u, f⟩ eye p i - toView ⟨s, u, f⟩ eye q i) = (p - q) ⬝ᵥ (p - q)
    rw [e, Matrix.dotProduct_mulVec, Matrix.vecMul_mulVec, hM', Matrix.vecMul_one]
  · have tr : ∀ a b c : Vec ℝ 3, cross a b ⬝ᵥ c = (Matrix.of ![a, b, c]).det := by
      intro a b c
      rw [Matrix.det_fin_three]
      simp only [dotProduct, Fin.sum_univ_three, cross]
      simp
      ring
    rw [tr, tr, hV, hV, hV]
    have : (Matrix.of ![M.mulVec (p - eye), M.mulVec (q - eye), M.mulVec (r - eye)]) =
        (Matrix.of ![p - eye, q - eye, r - eye]) * M.transpose := by
      ext i j
      rw [Matrix.mul_apply]
      fin_cases i <;> simp [Matrix.mulVec, dotProduct, mul_comm]
    rw [this, Matrix.det_mul, Matrix.det_transpose, hdet, mul_one]
  · rw [hV, sub_self, Matrix.mulVec_zero]
  · rw [hview, ← hdist, dotProduct_smul, dotProduct_smul, dotProduct_smul, hsf, huf, hff]
    simp
  · rw [hview]
    show s ⬝ᵥ (eye + up - eye) = 0
    rw [add_sub_cancel_left, es, smul_dotProduct, (cross_laws f up).2.2.1, smul_zero]
  · rw [hview]
    show 0 < u ⬝ᵥ (eye + up - eye)
    rw [add_sub_cancel_left]
    have e1 : u ⬝ᵥ up = s ⬝ᵥ cross f up := by
      rw [eu]; simp only [dotProduct, Fin.sum_univ_three, cross]; simp; ring
    rw [e1, es, smul_dotProduct, smul_eq_mul]
    exact mul_pos hk hpos

/-! ### Cases -/

/-- Two vectors that are neither unit vectors nor at right angles. -/
example : Independents [![(2 : ℝ), 0], ![3, 5]] := by
  intro k hk h
  simp only [List.length_cons, List.length_nil] at hk
  have key : ∀ l : List (Vec ℝ 2), ∀ i, (∀ x ∈ l, x i = 0) → ∀ y ∈ Combos l, y i = 0 := by
    intro l i hl y hy
    refine Submodule.span_induction (p := fun y _ => y i = 0) (fun x hx => hl x hx) rfl ?_ ?_ hy
    · intro a b _ _ ha hb; rw [Pi.add_apply, ha, hb, add_zero]
    · intro c a _ ha; rw [Pi.smul_apply, ha, smul_zero]
  have : k = 0 ∨ k = 1 := by omega
  rcases this with rfl | rfl
  · have := key _ 0 (by simp) _ h
    simp at this
  · have := key _ 1 (by simp) _ h
    simp at this

/-- A camera on the hill that looks down at the origin. -/
example : cross ((![0, 0, 0] : Vec ℝ 3) - ![3, 4, 5]) ![0, 1, 0] ≠ 0 := by
  intro h
  have := congrFun h 0
  simp [cross] at this

end Verif.Math
