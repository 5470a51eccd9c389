import Verif.Math.IeeeLemmas
import Verif.Math.RoundingMoreProps

/-!
C99. Vector and matrix operations on real `float`s and `double`s: the error bounds of C84 and C85, which are
stated for an unbounded exponent, hold whenever the computation raises no exception.

The vocabulary of the statements: `IVal F` are the values of an IEEE 754 type, `x.Finite` is `std::isfinite`,
`x.toReal` the real number `x` stands for, `F.u` the unit roundoff.  `raised` of the same computation carried
out on `ins a` says whether an operation in it overflowed, underflowed, divided by zero or was invalid.
-/

set_option autoImplicit false

namespace Verif.Math

variable {F : Format} {n : Nat}

/-- The components as inputs of a computation whose exceptions are recorded. -/
def ins (a : Vec (IVal F) n) : Vec (Flagged F) n := fun i => .input (a i)

/-- The entries as inputs of a computation whose exceptions are recorded. -/
def insM {c r : Nat} (m : Mat (IVal F) c r) : Mat (Flagged F) c r := fun i j => .input (m i j)

/-- The components as inputs of a computation whose exceptions are recorded. -/
def insQ (q : Quat (IVal F)) : Quat (Flagged F) := ⟨.input q.w, .input q.x, .input q.y, .input q.z⟩

theorem transfer {f : Flagged F} {g : IVal F} {x : FP F.wide} (h1 : Records f g) (h2 : Agrees f x) (hr : ¬f.raised) :
    g.Finite ∧ g.toReal = x.val := by
  have := h2 hr
  rw [show f.val = g from h1] at this
  exact this

theorem rec_ins (a : Vec (IVal F) n) (i : Fin n) : Records (ins a i) (a i) := rfl
theorem agr_ins {a : Vec (IVal F) n} (h : ∀ i, (a i).Finite) (i : Fin n) : Agrees (ins a i) (a i).widen :=
  agrees_input (h i)

section
variable [ILibm F]

/-- C99. `dot`, `length` and `distance`: if no exception is raised the result is finite and as close to the
exact one as C84 says. -/
theorem ieee_dot_length_error (a b : Vec (IVal F) n) (ha : ∀ i, (a i).Finite) (hb : ∀ i, (b i).Finite) :
    (¬(dot (ins a) (ins b)).raised → (dot a b).Finite ∧
      |(dot a b).toReal - ∑ i, (a i).toReal * (b i).toReal| ≤
        ((1 + F.u) ^ n - 1) * ∑ i, |(a i).toReal * (b i).toReal|) ∧
    (¬(length (ins a)).raised → (length a).Finite ∧
      (1 - F.u) * √((1 - F.u) ^ n) * √(∑ i, (a i).toReal ^ 2) ≤ (length a).toReal ∧
      (length a).toReal ≤ (1 + F.u) * √((1 + F.u) ^ n) * √(∑ i, (a i).toReal ^ 2)) ∧
    (¬(distance (ins a) (ins b)).raised → (distance a b).Finite ∧
      (1 - F.u) ^ 2 * √((1 - F.u) ^ n) * √(∑ i, ((a i).toReal - (b i).toReal) ^ 2) ≤ (distance a b).toReal ∧
      (distance a b).toReal ≤ (1 + F.u) ^ 2 * √((1 + F.u) ^ n) * √(∑ i, ((a i).toReal - (b i).toReal) ^ 2)) := by
  refine ⟨fun h => ?_, fun h => ?_, fun h => ?_⟩
  · obtain ⟨h1, h2⟩ := transfer (records_ops.dot (rec_ins a) (rec_ins b)) (agrees_ops.dot (agr_ins ha) (agr_ins hb)) h
    rw [h2]; exact ⟨h1, fp_dot_error _ _⟩
  · obtain ⟨h1, h2⟩ := transfer (records_ops.length (rec_ins a)) (agrees_ops.length (agr_ins ha)) h
    rw [h2]; exact ⟨h1, fp_length_error fun i => (a i).widen⟩
  · obtain ⟨h1, h2⟩ := transfer (records_ops.distance (rec_ins a) (rec_ins b))
      (agrees_ops.distance (agr_ins ha) (agr_ins hb)) h
    rw [h2]; exact ⟨h1, fp_distance_error (fun i => (a i).widen) fun i => (b i).widen⟩

/-- C99. `normalize`, both forms: if no exception is raised (which includes dividing by a length of zero) the
result is a positive multiple of the vector up to one rounding per component and has length 1 up to the
factors of C84. -/
theorem ieee_normalize_error (v : Vec (IVal F) n) (hv : ∀ i, (v i).Finite) (h0 : ∃ i, (v i).toReal ≠ 0)
    (h : ∀ i, ¬(normalize (ins v) i).raised) (h' : ∀ i, ¬(normalizeM (ins v) i).raised) :
    (∀ i, (normalize v i).Finite ∧ (normalizeM v i).Finite ∧ (normalizeM v i).toReal = (normalize v i).toReal) ∧
    (∃ k : ℝ, 0 < k ∧
      ∀ i, |(normalize v i).toReal - k * (v i).toReal| ≤ F.u * |k * (v i).toReal|) ∧
    (1 - F.u) ^ 2 / ((1 + F.u) * √((1 + F.u) ^ n)) ≤ √(∑ i, (normalize v i).toReal ^ 2) ∧
    √(∑ i, (normalize v i).toReal ^ 2) ≤ (1 + F.u) ^ 2 / ((1 - F.u) * √((1 - F.u) ^ n)) := by
  let _ : Indet (FP F.wide) := ⟨fun _ => 0⟩
  have t1 := fun i => transfer (records_ops.normalize (rec_ins v) i) (agrees_ops.normalize (agr_ins hv) i) (h i)
  have t2 := fun i => transfer (records_ops.normalizeM (rec_ins v) i) (agrees_ops.normalizeM (agr_ins hv) i) (h' i)
  obtain ⟨e1, e2, e3, e4⟩ := fp_normalize_error (fun i => (v i).widen) h0
  simp only [fun i => (t1 i).2]
  exact ⟨fun i => ⟨(t1 i).1, (t2 i).1, by rw [(t2 i).2, e1]⟩, e2, e3, e4⟩

/-- C99. `cross`, `lerp` and `reflect`, component by component. -/
theorem ieee_cross_lerp_reflect_error (a b : Vec (IVal F) 3) (x y : Vec (IVal F) n) (t : IVal F)
    (ha : ∀ i, (a i).Finite) (hb : ∀ i, (b i).Finite) (hx : ∀ i, (x i).Finite) (hy : ∀ i, (y i).Finite)
    (ht : t.Finite) :
    (∀ i, ¬(cross (ins a) (ins b) i).raised → (cross a b i).Finite ∧
      |(cross a b i).toReal - ((a (i + 1)).toReal * (b (i + 2)).toReal - (a (i + 2)).toReal * (b (i + 1)).toReal)| ≤
        ((1 + F.u) ^ 2 - 1) *
          (|(a (i + 1)).toReal * (b (i + 2)).toReal| + |(a (i + 2)).toReal * (b (i + 1)).toReal|)) ∧
    (∀ i, ¬(lerp (ins x) (ins y) (.input t) i).raised → (lerp x y t i).Finite ∧
      |(lerp x y t i).toReal - ((y i).toReal * t.toReal + (x i).toReal * (1 - t.toReal))| ≤
        ((1 + F.u) ^ 3 - 1) * (|(y i).toReal * t.toReal| + |(x i).toReal * (1 - t.toReal)|)) ∧
    (∀ i, ¬(reflect (ins x) (ins y) i).raised → (reflect x y i).Finite ∧
      |(reflect x y i).toReal -
          ((x i).toReal - 2 * (∑ j, (x j).toReal * (y j).toReal) * (y i).toReal)| ≤
        ((1 + F.u) ^ (n + 2) - 1) *
          (|(x i).toReal| + 2 * (∑ j, |(x j).toReal * (y j).toReal|) * |(y i).toReal|)) := by
  refine ⟨fun i h => ?_, fun i h => ?_, fun i h => ?_⟩
  · obtain ⟨h1, h2⟩ := transfer (records_ops.cross (rec_ins a) (rec_ins b) i)
      (agrees_ops.cross (agr_ins ha) (agr_ins hb) i) h
    rw [h2]
    exact ⟨h1, (fp_cross_error (fun i => (a i).widen) (fun i => (b i).widen) (fun _ _ => 0)).1 i⟩
  · obtain ⟨h1, h2⟩ := transfer (records_ops.lerp (rec_ins x) (rec_ins y) (s := .input t) (t := t) rfl i)
      (agrees_ops.lerp (agr_ins hx) (agr_ins hy) (agrees_input ht) i) h
    rw [h2]
    exact ⟨h1, fp_lerp_error _ _ _ _⟩
  · obtain ⟨h1, h2⟩ := transfer (records_ops.reflect (rec_ins x) (rec_ins y) i)
      (agrees_ops.reflect (agr_ins hx) (agr_ins hy) i) h
    rw [h2]
    exact ⟨h1, fp_reflect_error _ _ _⟩

/-- C99. Products of matrices with vectors and matrices, entry by entry. -/
theorem ieee_matrix_error [Indet (IVal F)] [Indet (Flagged F)] {c r k : Nat} (a : Mat (IVal F) c r)
    (b : Mat (IVal F) k c) (v : Vec (IVal F) c) (ha : ∀ i j, (a i j).Finite) (hb : ∀ i j, (b i j).Finite)
    (hv : ∀ i, (v i).Finite) :
    (∀ j, ¬(mulVec (insM a) (ins v) j).raised → (mulVec a v j).Finite ∧
      |(mulVec a v j).toReal - ∑ i, (a i j).toReal * (v i).toReal| ≤
        ((1 + F.u) ^ c - 1) * ∑ i, |(a i j).toReal * (v i).toReal|) ∧
    (∀ i j, ¬(mulMat (insM a) (insM b) i j).raised → (mulMat a b i j).Finite ∧
      |(mulMat a b i j).toReal - ∑ l, (a l j).toReal * (b i l).toReal| ≤
        ((1 + F.u) ^ c - 1) * ∑ l, |(a l j).toReal * (b i l).toReal|) := by
  let _ : Indet (FP F.wide) := ⟨fun _ => 0⟩
  obtain ⟨e1, e2⟩ := fp_matrix_error (fun i j => (a i j).widen) (fun i j => (b i j).widen) (fun i => (v i).widen)
  refine ⟨fun j h => ?_, fun i j h => ?_⟩
  · obtain ⟨h1, h2⟩ := transfer (records_ops.mulVec (m := insM a) (m' := a) (fun _ _ => rfl) (rec_ins v) j)
      (agrees_ops.mulVec (fun i j => agrees_input (ha i j)) (agr_ins hv) j) h
    rw [h2]
    exact ⟨h1, e1 j⟩
  · obtain ⟨h1, h2⟩ := transfer
      (records_ops.mulMat (a := insM a) (a' := a) (b := insM b) (b' := b) (fun _ _ => rfl) (fun _ _ => rfl) i j)
      (agrees_ops.mulMat (fun i j => agrees_input (ha i j)) (fun i j => agrees_input (hb i j)) i j) h
    rw [h2]
    exact ⟨h1, e2 i j⟩

/-- C99. Determinants of matrices with entries of magnitude at most `B`. -/
theorem ieee_determinant_error (B : ℝ) :
    (∀ m : Mat (IVal F) 2 2, (∀ i j, (m i j).Finite ∧ |(m i j).toReal| ≤ B) → ¬(det2 (insM m)).raised →
      (det2 m).Finite ∧ |(det2 m).toReal - Matrix.det (Matrix.of fun i j => (m i j).toReal)| ≤
        ((1 + F.u) ^ 2 - 1) * (2 * B ^ 2)) ∧
    (∀ m : Mat (IVal F) 3 3, (∀ i j, (m i j).Finite ∧ |(m i j).toReal| ≤ B) → ¬(det3 (insM m)).raised →
      (det3 m).Finite ∧ |(det3 m).toReal - Matrix.det (Matrix.of fun i j => (m i j).toReal)| ≤
        ((1 + F.u) ^ 5 - 1) * (6 * B ^ 3)) ∧
    (∀ m : Mat (IVal F) 4 4, (∀ i j, (m i j).Finite ∧ |(m i j).toReal| ≤ B) → ¬(det4 (insM m)).raised →
      (det4 m).Finite ∧ |(det4 m).toReal - Matrix.det (Matrix.of fun i j => (m i j).toReal)| ≤
        ((1 + F.u) ^ 9 - 1) * (24 * B ^ 4)) := by
  obtain ⟨e2, e3, e4⟩ := fp_determinant_error (R := F.wide) B
  refine ⟨fun m hm h => ?_, fun m hm h => ?_, fun m hm h => ?_⟩
  · obtain ⟨h1, h2⟩ := transfer (records_ops.det2 (m := insM m) (m' := m) fun _ _ => rfl)
      (agrees_ops.det2 fun i j => agrees_input (hm i j).1) h
    rw [h2]
    exact ⟨h1, e2 (fun i j => (m i j).widen) fun i j => (hm i j).2⟩
  · obtain ⟨h1, h2⟩ := transfer (records_ops.det3 (m := insM m) (m' := m) fun _ _ => rfl)
      (agrees_ops.det3 fun i j => agrees_input (hm i j).1) h
    rw [h2]
    exact ⟨h1, e3 (fun i j => (m i j).widen) fun i j => (hm i j).2⟩
  · obtain ⟨h1, h2⟩ := transfer (records_ops.det4 (m := insM m) (m' := m) fun _ _ => rfl)
      (agrees_ops.det4 fun i j => agrees_input (hm i j).1) h
    rw [h2]
    exact ⟨h1, e4 (fun i j => (m i j).widen) fun i j => (hm i j).2⟩

/-- The quaternion of real numbers that a quaternion with finite components stands for. -/
def realQ (q : Quat (IVal F)) : Quaternion ℝ := ⟨q.w.toReal, q.x.toReal, q.y.toReal, q.z.toReal⟩

/-- C99. The product of quaternions. -/
theorem ieee_quaternion_error (p q : Quat (IVal F))
    (hp : p.w.Finite ∧ p.x.Finite ∧ p.y.Finite ∧ p.z.Finite) (hq : q.w.Finite ∧ q.x.Finite ∧ q.y.Finite ∧ q.z.Finite)
    (hr : ¬((insQ p).mul (insQ q)).w.raised ∧ ¬((insQ p).mul (insQ q)).x.raised ∧
      ¬((insQ p).mul (insQ q)).y.raised ∧ ¬((insQ p).mul (insQ q)).z.raised) :
    ((p.mul q).w.Finite ∧ (p.mul q).x.Finite ∧ (p.mul q).y.Finite ∧ (p.mul q).z.Finite) ∧
    ∀ f : Quaternion ℝ → ℝ,
      f = QuaternionAlgebra.re ∨ f = QuaternionAlgebra.imI ∨ f = QuaternionAlgebra.imJ ∨ f = QuaternionAlgebra.imK →
      |f (realQ (p.mul q)) - f (realQ p * realQ q)| ≤ ((1 + F.u) ^ 4 - 1) *
        (√(p.w.toReal ^ 2 + p.x.toReal ^ 2 + p.y.toReal ^ 2 + p.z.toReal ^ 2) *
         √(q.w.toReal ^ 2 + q.x.toReal ^ 2 + q.y.toReal ^ 2 + q.z.toReal ^ 2)) := by
  obtain ⟨p1, p2, p3, p4⟩ := hp
  obtain ⟨q1, q2, q3, q4⟩ := hq
  obtain ⟨r1, r2, r3, r4⟩ := hr
  let p' : Quat (FP F.wide) := ⟨p.w.widen, p.x.widen, p.y.widen, p.z.widen⟩
  let q' : Quat (FP F.wide) := ⟨q.w.widen, q.x.widen, q.y.widen, q.z.widen⟩
  obtain ⟨a1, a2, a3, a4⟩ := (agrees_ops (F := F)).quatMul (p := insQ p) (p' := p') (q := insQ q) (q' := q')
    ⟨agrees_input p1, agrees_input p2, agrees_input p3, agrees_input p4⟩
    ⟨agrees_input q1, agrees_input q2, agrees_input q3, agrees_input q4⟩
  obtain ⟨b1, b2, b3, b4⟩ := (records_ops (F := F)).quatMul (p := insQ p) (p' := p) (q := insQ q) (q' := q)
    ⟨rfl, rfl, rfl, rfl⟩ ⟨rfl, rfl, rfl, rfl⟩
  obtain ⟨f1, e1⟩ := transfer b1 a1 r1
  obtain ⟨f2, e2⟩ := transfer b2 a2 r2
  obtain ⟨f3, e3⟩ := transfer b3 a3 r3
  obtain ⟨f4, e4⟩ := transfer b4 a4 r4
  refine ⟨⟨f1, f2, f3, f4⟩, fun f hf => ?_⟩
  have := (fp_quaternion_error p' q' f hf).1
  have e : realQ (p.mul q) = valQ (p'.mul q') := by
    unfold realQ valQ; rw [e1, e2, e3, e4]
  rw [e]
  exact this

/-- C99. `translate` and `scale`, entry by entry. -/
theorem ieee_translate_scale_error (m : Mat (IVal F) 4 4) (v : Vec (IVal F) 3) (hm : ∀ i j, (m i j).Finite)
    (hv : ∀ i, (v i).Finite) (j : Fin 4) :
    (∀ i, i ≠ 3 → translate m v i = m i) ∧ scale m v 3 = m 3 ∧
    (¬(translate (insM m) (ins v) 3 j).raised → (translate m v 3 j).Finite ∧
      |(translate m v 3 j).toReal - ((m 0 j).toReal * (v 0).toReal + (m 1 j).toReal * (v 1).toReal +
          (m 2 j).toReal * (v 2).toReal + (m 3 j).toReal)| ≤
        ((1 + F.u) ^ 4 - 1) * (|(m 0 j).toReal * (v 0).toReal| + |(m 1 j).toReal * (v 1).toReal| +
          |(m 2 j).toReal * (v 2).toReal| + |(m 3 j).toReal|)) ∧
    (∀ i : Fin 3, ¬(scale (insM m) (ins v) i.castSucc j).raised → (scale m v i.castSucc j).Finite ∧
      |(scale m v i.castSucc j).toReal - (m i.castSucc j).toReal * (v i).toReal| ≤
        F.u * |(m i.castSucc j).toReal * (v i).toReal|) := by
  obtain ⟨-, g2, g3, -⟩ := fp_translate_scale_error (fun i j => (m i j).widen) (fun i => (v i).widen) j
  refine ⟨fun i hi => ?_, rfl, fun h => ?_, fun i h => ?_⟩
  · unfold translate
    fin_cases i
    · rfl
    · rfl
    · rfl
    · exact absurd rfl hi
  · obtain ⟨h1, h2⟩ := transfer
      (records_ops.translate (m := insM m) (m' := m) (fun _ _ => rfl) (rec_ins v) 3 j)
      (agrees_ops.translate (fun i j => agrees_input (hm i j)) (agr_ins hv) 3 j) h
    rw [h2]
    exact ⟨h1, g2⟩
  · obtain ⟨h1, h2⟩ := transfer
      (records_ops.scale (m := insM m) (m' := m) (fun _ _ => rfl) (rec_ins v) i.castSucc j)
      (agrees_ops.scale (fun i j => agrees_input (hm i j)) (agr_ins hv) i.castSucc j) h
    rw [h2]
    exact ⟨h1, g3 i⟩

end

/-- An exact result of ordinary size raises no exception. -/
theorem Format.not_exc {z : ℝ} (h1 : F.tiny ≤ |z|) (h2 : |z| ≤ 2 ^ F.emax) : ¬F.Exc z := by
  rintro (h | ⟨h, -⟩)
  · rw [F.rnd_abs] at h
    have h3 := F.rnd_mono h2
    rw [F.pow_rep (by have := F.grid_neg; have := F.emax_ge; omega)] at h3
    linarith [F.pow_le_largest (le_refl F.emax)]
  · have h3 := F.rnd_mono h1
    rw [← F.rnd_abs, F.rnd_normal h1] at h3
    have h4 : F.rnd F.tiny = F.tiny :=
      F.pow_rep (by unfold Format.grid; have := F.hp; omega)
    rw [h4] at h3
    linarith

/-- In every format the length of the vector (1, 1) and its normalisation raise no exception, so the theorems
apply to it: the computed length is close to √2. -/
example [ILibm F] : ¬(length (ins ![(1 : IVal F), 1])).raised ∧
    (∀ i, (![(1 : IVal F), 1] i).Finite) ∧ ∑ i, (![(1 : IVal F), 1] i).toReal ^ 2 = 2 := by
  have t1 : F.tiny ≤ 1 := by
    have := zpow_le_zpow_right₀ (by norm_num : (1 : ℝ) ≤ 2) (show F.emin ≤ 0 by
      unfold Format.emin; have := F.emax_ge; omega)
    simpa [Format.tiny] using this
  have t2 : (4 : ℝ) ≤ 2 ^ F.emax := by
    have := zpow_le_zpow_right₀ (by norm_num : (1 : ℝ) ≤ 2) F.emax_ge
    norm_num at this ⊢; exact this
  have one : F.rnd (1 * 1) = 1 := by rw [mul_one]; exact F.one_Rep.2.1
  have two : F.rnd (1 + 1) = 2 := by rw [one_add_one_eq_two]; exact F.two_Rep.2.1
  have m1 : (1 : IVal F) * 1 = 1 := by
    have h : |F.rnd (1 * 1)| ≤ F.largest := by rw [one]; exact F.one_Rep.2.2
    have h0 : F.rnd (1 * 1) ≠ 0 := by rw [one]; norm_num
    exact ((dif_neg h0).trans (dif_pos h)).trans (IVal.num_congr one)
  have m2 : (1 : IVal F) + 1 = 2 := by
    have h : |F.rnd (1 + 1)| ≤ F.largest := by rw [two]; exact F.two_Rep.2.2
    have h0 : F.rnd (1 + 1) ≠ 0 := by rw [two]; norm_num
    exact ((dif_neg h0).trans (dif_pos h)).trans (IVal.num_congr two)
  have m0 : (0 : IVal F) + 1 = 1 := rfl
  refine ⟨?_, fun i => ?_, ?_⟩
  · have hd : dot (ins ![(1 : IVal F), 1]) (ins ![(1 : IVal F), 1]) =
        ((0 : Flagged F) + .input 1 * .input 1) + .input 1 * .input 1 := by
      simp [dot, forLoop, List.finRange_succ, ins]
    unfold length
    rw [hd]
    have hv : (((0 : Flagged F) + .input 1 * .input 1) + .input 1 * .input 1).val = 2 := by
      change ((0 : IVal F) + 1 * 1) + 1 * 1 = 2
      rw [m1, m0, m2]
    have hr : ¬(((0 : Flagged F) + .input 1 * .input 1) + .input 1 * .input 1).raised := by
      change ¬((False ∨ (False ∨ False ∨ F.Exc (1 * 1)) ∨ (0 : IVal F).addExc (1 * 1)) ∨
        (False ∨ False ∨ F.Exc (1 * 1)) ∨ ((0 : IVal F) + 1 * 1).addExc (1 * 1))
      rw [m1, m0]
      have e1 : ¬F.Exc (1 * 1) := F.not_exc (by simpa using t1) (by rw [mul_one, abs_one]; linarith)
      have e2 : ¬(1 : IVal F).addExc 1 := F.not_exc (z := 1 + 1) (by norm_num; linarith) (by norm_num; linarith)
      have e3 : ¬(0 : IVal F).addExc 1 := id
      simp only [e1, e2, e3, or_false, not_false_eq_true]
    rintro (h | h)
    · exact hr h
    · rw [hv] at h
      rcases h with h | h
      · linarith
      · refine F.not_exc ?_ ?_ h
        · rw [abs_of_nonneg (Real.sqrt_nonneg _)]
          exact t1.trans (by rw [Real.one_le_sqrt]; norm_num)
        · rw [abs_of_nonneg (Real.sqrt_nonneg _)]
          refine le_trans ?_ t2
          rw [Real.sqrt_le_left (by norm_num)]; norm_num
  · fin_cases i <;> exact trivial
  · rw [Fin.sum_univ_two]
    change (1 : ℝ) ^ 2 + 1 ^ 2 = 2
    norm_num

end Verif.Math
