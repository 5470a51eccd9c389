import Verif.Math.RoundingMoreProps
import Verif.Math.PrecisionProps
import Verif.Math.IeeeProps
import Verif.Math.IeeeSpecialProps

/-!
C147: the laws of vectors, matrices and quaternions in floating point — those that rounding leaves alone, and
how far apart the two sides of the others are.
-/

set_option autoImplicit false

namespace Verif.Math

variable {R : Rounding} {c r k l n : Nat}

/-! ### Sums of products of computed numbers -/

theorem foldl_approx (a b : Vec (FP R) n) (e f M N : Fin n → ℝ) (p : Nat)
    (h : ∀ i, Approx (a i * b i) (e i * f i) (M i * N i) p) :
    ∀ (xs : List (Fin n)) (s : FP R) (t S : ℝ) (q : Nat), p ≤ q → Approx s t S q →
    Approx (xs.foldl (fun r i => r + a i * b i) s) (t + (xs.map fun i => e i * f i).sum)
      (S + (xs.map fun i => M i * N i).sum) (q + xs.length)
  | [], s, t, S, q, _, hs => by simpa using hs
  | i :: xs, s, t, S, q, hq, hs => by
    have h1 := hs.add ((h i).mono hq le_rfl)
    have := foldl_approx a b e f M N p h xs _ _ _ (q + 1) (by omega) h1
    rw [List.foldl_cons, List.map_cons, List.map_cons, List.sum_cons, List.sum_cons, List.length_cons]
    rw [show q + (xs.length + 1) = q + 1 + xs.length by ring, ← add_assoc, ← add_assoc]
    exact this

/-- `dot` of vectors whose components were themselves computed. -/
theorem Approx.dotOf (a b : Vec (FP R) n) (e f M N : Fin n → ℝ) (p q : Nat) (ha : ∀ i, Approx (a i) (e i) (M i) p)
    (hb : ∀ i, Approx (b i) (f i) (N i) q) :
    Approx (Math.dot a b) (∑ i, e i * f i) (∑ i, M i * N i) (p + q + n) := by
  rw [← list_sum, ← list_sum]
  unfold Math.dot forLoop
  cases n with
  | zero => exact ⟨by simp, by simp⟩
  | succ n =>
    rw [List.finRange_succ, List.foldl_cons, List.map_cons, List.map_cons, List.sum_cons, List.sum_cons]
    have h := foldl_approx a b e f M N (p + q + 1) (fun i => (ha i).mul (hb i)) ((List.finRange n).map Fin.succ)
      (a 0 * b 0) _ _ _ le_rfl ((ha 0).mul (hb 0))
    rw [List.length_map, List.length_finRange, show p + q + 1 + n = p + q + (n + 1) by ring] at h
    beta_reduce
    rw [FP.zeroAdd]
    exact h

/-- Two computations of the same number. -/
theorem Approx.apart {x y : FP R} {e M : ℝ} {p : Nat} (hx : Approx x e M p) (hy : Approx y e M p) :
    |x.val - y.val| ≤ 2 * (((1 + R.u) ^ p - 1) * M) := by
  have h := abs_sub_le x.val e y.val
  have h1 := hx.err
  have h2 := hy.err
  rw [abs_sub_comm] at h2
  linarith

/-! ### Laws that rounding leaves alone -/

theorem dot_swap {T : Type} [Zero T] [Add T] [Mul T] (h : ∀ x y : T, x * y = y * x) (a b : Vec T n) :
    dot a b = dot b a := by
  unfold dot; simp only [h]

theorem transpose_product {T : Type} [Zero T] [One T] [Add T] [Mul T] [Indet T] (h : ∀ x y : T, x * y = y * x)
    (a : Mat T c r) (b : Mat T k c) : transpose (mulMat a b) = mulMat (transpose b) (transpose a) := by
  rw [mulMat_dot, mulMat_dot, transpose_apply, transpose_apply, transpose_apply]
  funext j i
  exact dot_swap h _ _

/-- C147. Bit for bit, for all values of `float` and `double` (NaN, infinities, zeros of both signs): the
transpose of a product is the product of the transposes in opposite order, transposing twice changes nothing,
the 2x2 determinant of the transpose is that of the matrix, and every column of a product is the product with
that column. -/
theorem ieee_transpose_laws {F : Format} [Indet (IVal F)] (a : Mat (IVal F) c r) (b : Mat (IVal F) k c)
    (m : Mat (IVal F) 2 2) :
    transpose (mulMat a b) = mulMat (transpose b) (transpose a) ∧ transpose (transpose a) = a ∧
    det2 (transpose m) = det2 m ∧ ∀ i, column (mulMat a b) i = mulVec a (column b i) := by
  refine ⟨transpose_product IVal.mulComm a b, ?_, ?_, fun i => ?_⟩
  · rw [transpose_apply, transpose_apply]
  · rw [transpose_apply]; unfold det2; rw [IVal.mulComm (m 0 1)]
  · unfold column; rw [mulMat_dot, mulVec_dot]

/-- C147. The same without overflow and underflow, and there also: signs and factors of two pass through
products of matrices and vectors exactly, and exchanging the columns of a 2x2 matrix changes the sign of its
determinant exactly. -/
theorem fp_product_laws [Indet (FP R)] (a : Mat (FP R) c r) (b : Mat (FP R) k c) (v : Vec (FP R) c)
    (m : Mat (FP R) 2 2) :
    transpose (mulMat a b) = mulMat (transpose b) (transpose a) ∧ det2 (transpose m) = det2 m ∧
    det2 ![m 1, m 0] = -det2 m ∧
    mulVec a (neg v) = neg (mulVec a v) ∧ mulVec (matNeg a) v = neg (mulVec a v) ∧
    mulMat a (matNeg b) = matNeg (mulMat a b) ∧ mulMat (matNeg a) b = matNeg (mulMat a b) ∧
    mulVec a (mulS v 2) = mulS (mulVec a v) 2 ∧ mulMat a (matMulS b 2) = matMulS (mulMat a b) 2 ∧
    mulMat (matMulS a 2) b = matMulS (mulMat a b) 2 := by
  have ng : ∀ x y : Vec (FP R) c, dot x (fun i => -y i) = -dot x y := fun x y => by
    have := (fp_dot_exact x y).2.2.1
    rwa [neg_apply] at this
  have ng' : ∀ x y : Vec (FP R) c, dot (fun i => -x i) y = -dot x y := fun x y => by
    have := (fp_dot_exact x y).2.1
    rwa [neg_apply] at this
  have tw' : ∀ x y : Vec (FP R) c, dot (fun i => x i * 2) y = dot x y * 2 := fun x y => by
    have := (fp_dot_exact x y).2.2.2.1
    rw [← FP.twoVal] at this
    have := FP.ext this
    simpa only [mulS, vecOpS_apply] using this
  have tw : ∀ x y : Vec (FP R) c, dot x (fun i => y i * 2) = dot x y * 2 := fun x y => by
    rw [dot_swap FP.mulComm, tw', dot_swap FP.mulComm]
  refine ⟨transpose_product FP.mulComm a b, ?_, ?_, ?_, ?_, ?_, ?_, ?_, ?_, ?_⟩
  · rw [transpose_apply]; unfold det2; rw [FP.mulComm (m 0 1)]
  · show m 1 0 * m 0 1 - m 0 0 * m 1 1 = -(m 0 0 * m 1 1 - m 1 0 * m 0 1)
    rw [FP.negSub]
  · simp only [mulVec_dot, neg_apply, ng]
  · simp only [mulVec_dot, neg_apply, matNeg_apply, ng']
  · simp only [mulMat_dot, matNeg_apply, ng]
  · simp only [mulMat_dot, matNeg_apply, ng']
  · simp only [mulVec_dot, mulS, vecOpS_apply, tw]
  · simp only [mulMat_dot, matMulS, matOpS_apply, tw]
  · simp only [mulMat_dot, matMulS, matOpS_apply, tw']

/-! ### Products in another grouping -/

section
variable [Indet (FP R)]

theorem Approx.entry (a : Mat (FP R) c r) (b : Mat (FP R) k c) (i : Fin k) (j : Fin r) :
    Approx (mulMat a b i j) (∑ p, (a p j).val * (b i p).val) (∑ p, |(a p j).val| * |(b i p).val|) c := by
  rw [mulMat_dot]
  have := Approx.dotOf (fun p => a p j) (b i) _ _ _ _ 0 0 (fun p => Approx.exact _) (fun p => Approx.exact _)
  simpa only [zero_add] using this

theorem Approx.image (a : Mat (FP R) c r) (v : Vec (FP R) c) (j : Fin r) :
    Approx (mulVec a v j) (∑ p, (a p j).val * (v p).val) (∑ p, |(a p j).val| * |(v p).val|) c := by
  rw [mulVec_dot]
  have := Approx.dotOf (fun p => a p j) v _ _ _ _ 0 0 (fun p => Approx.exact _) (fun p => Approx.exact _)
  simpa only [zero_add] using this

omit [Indet (FP R)] in
/-- Three factors: `(x y) z` and `x (y z)`, as sums of products. -/
theorem regroup (x : Fin c → FP R) (y : Fin k → Fin c → FP R) (z : Fin k → FP R) (xy : Fin k → FP R)
    (yz : Fin c → FP R)
    (h1 : ∀ i, Approx (xy i) (∑ p, (x p).val * (y i p).val) (∑ p, |(x p).val| * |(y i p).val|) c)
    (h2 : ∀ p, Approx (yz p) (∑ i, (y i p).val * (z i).val) (∑ i, |(y i p).val| * |(z i).val|) k) :
    |(dot xy z).val - (dot x yz).val| ≤
      2 * (((1 + R.u) ^ (c + k) - 1) * ∑ i, ∑ p, |(x p).val| * |(y i p).val| * |(z i).val|) := by
  have a1 := Approx.dotOf xy z _ _ _ _ c 0 h1 (fun i => Approx.exact _)
  have a2 := Approx.dotOf x yz _ _ _ _ 0 k (fun i => Approx.exact _) h2
  rw [show c + 0 + k = c + k by ring] at a1
  rw [show 0 + k + c = c + k by ring] at a2
  have e1 : ∀ f : ℝ → ℝ, ∑ i, (∑ p, f (x p).val * f (y i p).val) * f (z i).val =
      ∑ i, ∑ p, f (x p).val * f (y i p).val * f (z i).val := fun f => by
    simp only [Finset.sum_mul]
  have e2 : ∀ f : ℝ → ℝ, ∑ p, f (x p).val * (∑ i, f (y i p).val * f (z i).val) =
      ∑ i, ∑ p, f (x p).val * f (y i p).val * f (z i).val := fun f => by
    simp only [Finset.mul_sum]
    rw [Finset.sum_comm]
    simp only [mul_assoc]
  have q1 := e1 id
  have q2 := e2 id
  simp only [id_eq] at q1 q2
  rw [q1, e1 abs] at a1
  rw [q2, e2 abs] at a2
  exact a1.apart a2

/-- C147. Transforming by a product of matrices, or by one after the other: each component of `(A*B)*v` and
`A*(B*v)` differs by at most `2((1+u)^(c+k) - 1) Σ|A||B||v|`, each entry of `(A*B)*C` and `A*(B*C)` likewise. -/
theorem fp_product_regroup (a : Mat (FP R) c r) (b : Mat (FP R) k c) (d : Mat (FP R) l k) (v : Vec (FP R) k) :
    (∀ j, |(mulVec (mulMat a b) v j).val - (mulVec a (mulVec b v) j).val| ≤
      2 * (((1 + R.u) ^ (c + k) - 1) * ∑ i, ∑ p, |(a p j).val| * |(b i p).val| * |(v i).val|)) ∧
    (∀ q j, |(mulMat (mulMat a b) d q j).val - (mulMat a (mulMat b d) q j).val| ≤
      2 * (((1 + R.u) ^ (c + k) - 1) * ∑ i, ∑ p, |(a p j).val| * |(b i p).val| * |(d q i).val|)) := by
  refine ⟨fun j => ?_, fun q j => ?_⟩
  · have := regroup (fun p => a p j) b v (fun i => mulMat a b i j) (mulVec b v)
      (fun i => Approx.entry a b i j) (fun p => Approx.image b v p)
    rw [mulVec_dot (mulMat a b), mulVec_dot a]
    exact this
  · have := regroup (fun p => a p j) b (d q) (fun i => mulMat a b i j) (mulMat b d q)
      (fun i => Approx.entry a b i j) (fun p => Approx.entry b d q p)
    rw [mulMat_dot (mulMat a b), mulMat_dot a (mulMat b d)]
    exact this

/-- C147. A matrix times a sum, a sum of matrices times a vector, a matrix times a multiple: each component
differs from the sum, or the multiple, of the products by at most `2((1+u)^(c+1) - 1)` times the magnitudes of
its terms. -/
theorem fp_product_linear (a b : Mat (FP R) c r) (v w : Vec (FP R) c) (s : FP R) (j : Fin r) :
    |(mulVec a (add v w) j).val - (add (mulVec a v) (mulVec a w) j).val| ≤
      2 * (((1 + R.u) ^ (c + 1) - 1) * ∑ i, |(a i j).val| * (|(v i).val| + |(w i).val|)) ∧
    |(mulVec (matAdd a b) v j).val - (add (mulVec a v) (mulVec b v) j).val| ≤
      2 * (((1 + R.u) ^ (c + 1) - 1) * ∑ i, (|(a i j).val| + |(b i j).val|) * |(v i).val|) ∧
    |(mulVec a (mulS v s) j).val - (mulS (mulVec a v) s j).val| ≤
      2 * (((1 + R.u) ^ (c + 1) - 1) * ∑ i, |(a i j).val| * (|(v i).val| * |s.val|)) := by
  have E := fun x : FP R => Approx.exact x
  refine ⟨?_, ?_, ?_⟩
  · have h1 := Approx.dotOf (fun i => a i j) (fun i => v i + w i) _ _ _ _ 0 1 (fun i => E _)
      (fun i => (E (v i)).add (E (w i)))
    have h2 := (Approx.image a v j).add (Approx.image a w j)
    rw [show 0 + 1 + c = c + 1 by ring] at h1
    rw [← Finset.sum_add_distrib, ← Finset.sum_add_distrib] at h2
    simp only [← mul_add] at h2
    have := h1.apart h2
    rw [mulVec_dot a (add v w)]
    simp only [add, vecOp_apply]
    exact this
  · have h1 := Approx.dotOf (fun i => a i j + b i j) v _ _ _ _ 1 0 (fun i => (E (a i j)).add (E (b i j)))
      (fun i => E _)
    have h2 := (Approx.image a v j).add (Approx.image b v j)
    rw [show 1 + 0 + c = c + 1 by ring] at h1
    rw [← Finset.sum_add_distrib, ← Finset.sum_add_distrib] at h2
    simp only [← add_mul] at h2
    have := h1.apart h2
    rw [mulVec_dot (matAdd a b)]
    simp only [add, vecOp_apply, matAdd, matOp_apply]
    exact this
  · have h1 := Approx.dotOf (fun i => a i j) (fun i => v i * s) _ _ _ _ 0 1 (fun i => E _)
      (fun i => (E (v i)).mul (E s))
    have h2 := (Approx.image a v j).mul (E s)
    rw [show 0 + 1 + c = c + 1 by ring] at h1
    rw [Finset.sum_mul, Finset.sum_mul, show c + 0 + 1 = c + 1 by ring] at h2
    simp only [mul_assoc] at h2
    have := h1.apart h2
    rw [mulVec_dot a (mulS v s)]
    simp only [mulS, vecOpS_apply]
    exact this

end

/-- C147. The grouping of products with `float` or `double` components as they are — limited exponent,
subnormal numbers, infinities, NaN: if neither computation raises an exception both results are finite and as
close. -/
theorem ieee_product_regroup {F : Format} [Indet (IVal F)] [Indet (Flagged F)] (a : Mat (IVal F) c r)
    (b : Mat (IVal F) k c) (d : Mat (IVal F) l k) (v : Vec (IVal F) k) (ha : ∀ i j, (a i j).Finite)
    (hb : ∀ i j, (b i j).Finite) (hd : ∀ i j, (d i j).Finite) (hv : ∀ i, (v i).Finite) :
    (∀ j, ¬(mulVec (mulMat (insM a) (insM b)) (ins v) j).raised →
      ¬(mulVec (insM a) (mulVec (insM b) (ins v)) j).raised →
      (mulVec (mulMat a b) v j).Finite ∧ (mulVec a (mulVec b v) j).Finite ∧
      |(mulVec (mulMat a b) v j).toReal - (mulVec a (mulVec b v) j).toReal| ≤
        2 * (((1 + F.u) ^ (c + k) - 1) * ∑ i, ∑ p, |(a p j).toReal| * |(b i p).toReal| * |(v i).toReal|)) ∧
    (∀ q j, ¬(mulMat (mulMat (insM a) (insM b)) (insM d) q j).raised →
      ¬(mulMat (insM a) (mulMat (insM b) (insM d)) q j).raised →
      (mulMat (mulMat a b) d q j).Finite ∧ (mulMat a (mulMat b d) q j).Finite ∧
      |(mulMat (mulMat a b) d q j).toReal - (mulMat a (mulMat b d) q j).toReal| ≤
        2 * (((1 + F.u) ^ (c + k) - 1) * ∑ i, ∑ p, |(a p j).toReal| * |(b i p).toReal| * |(d q i).toReal|)) := by
  let _ : ILibm F := ⟨fun x => x, fun x => x⟩
  let _ : Libm F.wide := exampleLibm F.wide
  let _ : Indet (FP F.wide) := ⟨fun _ => 0⟩
  have ra : ∀ i j, Records (insM a i j) (a i j) := fun _ _ => rfl
  have rb : ∀ i j, Records (insM b i j) (b i j) := fun _ _ => rfl
  have rd : ∀ i j, Records (insM d i j) (d i j) := fun _ _ => rfl
  have ga : ∀ i j, Agrees (insM a i j) (a i j).widen := fun i j => agrees_input (ha i j)
  have gb : ∀ i j, Agrees (insM b i j) (b i j).widen := fun i j => agrees_input (hb i j)
  have gd : ∀ i j, Agrees (insM d i j) (d i j).widen := fun i j => agrees_input (hd i j)
  obtain ⟨e1, e2⟩ := fp_product_regroup (fun i j => (a i j).widen) (fun i j => (b i j).widen)
    (fun i j => (d i j).widen) (fun i => (v i).widen)
  refine ⟨fun j h h' => ?_, fun q j h h' => ?_⟩
  · obtain ⟨h1, h2⟩ := transfer (records_ops.mulVec (records_ops.mulMat ra rb) (rec_ins v) j)
      (agrees_ops.mulVec (agrees_ops.mulMat ga gb) (agr_ins hv) j) h
    obtain ⟨h3, h4⟩ := transfer (records_ops.mulVec ra (records_ops.mulVec rb (rec_ins v)) j)
      (agrees_ops.mulVec ga (agrees_ops.mulVec gb (agr_ins hv)) j) h'
    rw [h2, h4]
    exact ⟨h1, h3, e1 j⟩
  · obtain ⟨h1, h2⟩ := transfer (records_ops.mulMat (records_ops.mulMat ra rb) rd q j)
      (agrees_ops.mulMat (agrees_ops.mulMat ga gb) gd q j) h
    obtain ⟨h3, h4⟩ := transfer (records_ops.mulMat ra (records_ops.mulMat rb rd) q j)
      (agrees_ops.mulMat ga (agrees_ops.mulMat gb gd) q j) h'
    rw [h2, h4]
    exact ⟨h1, h3, e2 q j⟩

/-! ### Geometry -/

/-- C147. The computed cross product is orthogonal to both factors up to `((1+u)⁵ - 1)` times the magnitudes of
the terms. -/
theorem fp_cross_orthogonal (a b : Vec (FP R) 3) :
    |(dot (cross a b) a).val| ≤ ((1 + R.u) ^ 5 - 1) * ∑ i,
      (|(a (i + 1)).val| * |(b (i + 2)).val| + |(a (i + 2)).val| * |(b (i + 1)).val|) * |(a i).val| ∧
    |(dot (cross a b) b).val| ≤ ((1 + R.u) ^ 5 - 1) * ∑ i,
      (|(a (i + 1)).val| * |(b (i + 2)).val| + |(a (i + 2)).val| * |(b (i + 1)).val|) * |(b i).val| := by
  have E := fun x : FP R => Approx.exact x
  have h : ∀ i, Approx (cross a b i) ((a (i + 1)).val * (b (i + 2)).val - (a (i + 2)).val * (b (i + 1)).val)
      (|(a (i + 1)).val| * |(b (i + 2)).val| + |(a (i + 2)).val| * |(b (i + 1)).val|) 2 := by
    intro i
    fin_cases i
    · exact ((E (a 1)).mul (E (b 2))).sub ((E (a 2)).mul (E (b 1)))
    · exact ((E (a 2)).mul (E (b 0))).sub ((E (a 0)).mul (E (b 2)))
    · exact ((E (a 0)).mul (E (b 1))).sub ((E (a 1)).mul (E (b 0)))
  constructor
  · have := (Approx.dotOf (cross a b) a _ _ _ _ 2 0 h (fun i => E _)).err
    have z : ∑ i, ((a (i + 1)).val * (b (i + 2)).val - (a (i + 2)).val * (b (i + 1)).val) * (a i).val = 0 := by
      rw [Fin.sum_univ_three]
      simp only [Fin.isValue, zero_add, show (1 : Fin 3) + 1 = 2 by rfl, show (1 : Fin 3) + 2 = 0 by rfl,
        show (2 : Fin 3) + 1 = 0 by rfl, show (2 : Fin 3) + 2 = 1 by rfl]
      ring
    rwa [z, sub_zero] at this
  · have := (Approx.dotOf (cross a b) b _ _ _ _ 2 0 h (fun i => E _)).err
    have z : ∑ i, ((a (i + 1)).val * (b (i + 2)).val - (a (i + 2)).val * (b (i + 1)).val) * (b i).val = 0 := by
      rw [Fin.sum_univ_three]
      simp only [Fin.isValue, zero_add, show (1 : Fin 3) + 1 = 2 by rfl, show (1 : Fin 3) + 2 = 0 by rfl,
        show (2 : Fin 3) + 1 = 0 by rfl, show (2 : Fin 3) + 2 = 1 by rfl]
      ring
    rwa [z, sub_zero] at this

/-- `reflect` of a vector that was itself computed. -/
theorem Approx.reflectOf (v m : Vec (FP R) n) (e M : Fin n → ℝ) (p : Nat) (h : ∀ i, Approx (v i) (e i) (M i) p)
    (i : Fin n) :
    Approx (Math.reflect v m i) (e i - (m i).val * (∑ j, e j * (m j).val) * 2)
      (M i + |(m i).val| * (∑ j, M j * |(m j).val|) * 2) (p + (n + 2)) := by
  have h1 := Approx.dotOf v m _ _ _ _ p 0 h (fun j => Approx.exact _)
  have h2 := ((h i).mono (by omega : p ≤ 0 + (p + 0 + n) + 1) le_rfl).sub ((Approx.exact (m i)).mul h1).two
  rw [show 0 + (p + 0 + n) + 1 + 1 = p + (n + 2) by ring] at h2
  simp only [Math.reflect, Math.sub, mulS, vecOp_apply, vecOpS_apply]
  exact h2

/-- C147. Reflecting twice gives the vector back: each component up to `((1+u)^(2n+4) - 1)` times the magnitudes
of the terms and four times the amount by which the normal is not a unit vector. -/
theorem fp_reflect_twice (v m : Vec (FP R) n) (i : Fin n) :
    |(reflect (reflect v m) m i).val - (v i).val| ≤
      ((1 + R.u) ^ (2 * n + 4) - 1) * (|(v i).val| +
        4 * (∑ j, |(v j).val| * |(m j).val|) * (1 + ∑ j, (m j).val ^ 2) * |(m i).val|) +
      4 * |∑ j, (v j).val * (m j).val| * |∑ j, (m j).val ^ 2 - 1| * |(m i).val| := by
  have h1 := Approx.reflectOf v m _ _ 0 (fun j => Approx.exact _)
  have h2 := (Approx.reflectOf (reflect v m) m _ _ (0 + (n + 2)) h1 i).err
  rw [show 0 + (n + 2) + (n + 2) = 2 * n + 4 by ring] at h2
  set S := ∑ j, (v j).val * (m j).val
  set A := ∑ j, |(v j).val| * |(m j).val|
  set N := ∑ j, (m j).val ^ 2
  have s1 : ∑ j, ((v j).val - (m j).val * S * 2) * (m j).val = S - 2 * S * N := by
    simp only [sub_mul, Finset.sum_sub_distrib]
    rw [show 2 * S * N = ∑ j, (m j).val * S * 2 * (m j).val by
      rw [Finset.mul_sum]; exact Finset.sum_congr rfl fun j _ => by ring]
  have s2 : ∑ j, (|(v j).val| + |(m j).val| * A * 2) * |(m j).val| = A + 2 * A * N := by
    simp only [add_mul, Finset.sum_add_distrib]
    rw [show 2 * A * N = ∑ j, |(m j).val| * A * 2 * |(m j).val| by
      rw [Finset.mul_sum]
      exact Finset.sum_congr rfl fun j _ => by rw [← sq_abs (m j).val]; ring]
  rw [s1, s2] at h2
  have e1 : (v i).val - (m i).val * S * 2 - (m i).val * (S - 2 * S * N) * 2 =
      (v i).val + 4 * S * (N - 1) * (m i).val := by ring
  have e2 : |(v i).val| + |(m i).val| * A * 2 + |(m i).val| * (A + 2 * A * N) * 2 =
      |(v i).val| + 4 * A * (1 + N) * |(m i).val| := by ring
  rw [e1, e2] at h2
  have h3 := abs_sub_le (reflect (reflect v m) m i).val ((v i).val + 4 * S * (N - 1) * (m i).val) (v i).val
  rw [add_sub_cancel_left, abs_mul, abs_mul, abs_mul, abs_of_pos (by norm_num : (0 : ℝ) < 4)] at h3
  linarith

/-! ### Quaternions -/

/-- The length of a quaternion. -/
noncomputable def lenQ (q : Quat (FP R)) : ℝ := √(q.w.val ^ 2 + q.x.val ^ 2 + q.y.val ^ 2 + q.z.val ^ 2)

/-- Each coordinate is computed up to `k` roundings. -/
def ApproxQ (q : Quat (FP R)) (e M : Quat ℝ) (k : Nat) : Prop :=
  Approx q.w e.w M.w k ∧ Approx q.x e.x M.x k ∧ Approx q.y e.y M.y k ∧ Approx q.z e.z M.z k

/-- The magnitudes of the terms of a product. -/
def magQ (P Q : Quat ℝ) : Quat ℝ :=
  ⟨P.w * Q.w + P.x * Q.x + P.y * Q.y + P.z * Q.z, P.x * Q.w + P.w * Q.x + P.y * Q.z + P.z * Q.y,
   P.w * Q.y + P.x * Q.z + P.y * Q.w + P.z * Q.x, P.w * Q.z + P.x * Q.y + P.y * Q.x + P.z * Q.w⟩

theorem ApproxQ.mul {p q : Quat (FP R)} {e f P Q : Quat ℝ} {j k : Nat} (hp : ApproxQ p e P j) (hq : ApproxQ q f Q k) :
    ApproxQ (p.mul q) (e.mul f) (magQ P Q) (j + k + 4) := by
  obtain ⟨pw, px, py, pz⟩ := hp
  obtain ⟨qw, qx, qy, qz⟩ := hq
  have m2 : j + k + 1 ≤ j + k + 1 + 1 := by omega
  have m3 : j + k + 1 ≤ j + k + 1 + 1 + 1 := by omega
  exact ⟨(((pw.mul qw).sub (px.mul qx)).sub ((py.mul qy).mono m2 le_rfl)).sub ((pz.mul qz).mono m3 le_rfl),
    (((px.mul qw).add (pw.mul qx)).add ((py.mul qz).mono m2 le_rfl)).sub ((pz.mul qy).mono m3 le_rfl),
    (((pw.mul qy).sub (px.mul qz)).add ((py.mul qw).mono m2 le_rfl)).add ((pz.mul qx).mono m3 le_rfl),
    (((pw.mul qz).add (px.mul qy)).sub ((py.mul qx).mono m2 le_rfl)).add ((pz.mul qw).mono m3 le_rfl)⟩

theorem cauchy4 (a b c d a' b' c' d' : ℝ) : a * a' + b * b' + c * c' + d * d' ≤
    √(a ^ 2 + b ^ 2 + c ^ 2 + d ^ 2) * √(a' ^ 2 + b' ^ 2 + c' ^ 2 + d' ^ 2) := by
  rw [← Real.sqrt_mul (by positivity)]
  refine Real.le_sqrt_of_sq_le ?_
  nlinarith [sq_nonneg (a * b' - b * a'), sq_nonneg (a * c' - c * a'), sq_nonneg (a * d' - d * a'),
    sq_nonneg (b * c' - c * b'), sq_nonneg (b * d' - d * b'), sq_nonneg (c * d' - d * c')]

/-- The coordinates of the magnitudes are at most the product of the lengths. -/
theorem magQ_le (P Q : Quat ℝ) (S T : ℝ) (hS : √(P.w ^ 2 + P.x ^ 2 + P.y ^ 2 + P.z ^ 2) ≤ S)
    (hT : √(Q.w ^ 2 + Q.x ^ 2 + Q.y ^ 2 + Q.z ^ 2) ≤ T) :
    (magQ P Q).w ≤ S * T ∧ (magQ P Q).x ≤ S * T ∧ (magQ P Q).y ≤ S * T ∧ (magQ P Q).z ≤ S * T := by
  have key : √(P.w ^ 2 + P.x ^ 2 + P.y ^ 2 + P.z ^ 2) * √(Q.w ^ 2 + Q.x ^ 2 + Q.y ^ 2 + Q.z ^ 2) ≤ S * T :=
    mul_le_mul hS hT (Real.sqrt_nonneg _) ((Real.sqrt_nonneg _).trans hS)
  refine ⟨(cauchy4 P.w P.x P.y P.z Q.w Q.x Q.y Q.z).trans key, ?_, ?_, ?_⟩
  · refine le_trans (le_of_eq ?_) ((cauchy4 P.w P.x P.y P.z Q.x Q.w Q.z Q.y).trans (le_trans (le_of_eq ?_) key))
    · simp only [magQ]; ring
    · congr 2; ring
  · refine le_trans (le_of_eq ?_) ((cauchy4 P.w P.x P.y P.z Q.y Q.z Q.w Q.x).trans (le_trans (le_of_eq ?_) key))
    · simp only [magQ]
    · congr 2; ring
  · refine le_trans (le_of_eq ?_) ((cauchy4 P.w P.x P.y P.z Q.z Q.y Q.x Q.w).trans (le_trans (le_of_eq ?_) key))
    · simp only [magQ]
    · congr 2; ring

theorem magQ_assoc (P Q S : Quat ℝ) : magQ (magQ P Q) S = magQ P (magQ Q S) := by
  simp only [magQ, Quat.mk.injEq]
  refine ⟨?_, ?_, ?_, ?_⟩ <;> ring

theorem mulQ_assoc (P Q S : Quat ℝ) : (P.mul Q).mul S = P.mul (Q.mul S) := by
  simp only [Quat.mul, Quat.mk.injEq]
  refine ⟨?_, ?_, ?_, ?_⟩ <;> ring

/-- C147. `(p*q)*s` and `p*(q*s)`: each coordinate differs by at most `4((1+u)⁸ - 1) |p| |q| |s|`. -/
theorem fp_quaternion_regroup (p q s : Quat (FP R)) (f : Quat (FP R) → FP R)
    (hf : f = Quat.w ∨ f = Quat.x ∨ f = Quat.y ∨ f = Quat.z) :
    |(f ((p.mul q).mul s)).val - (f (p.mul (q.mul s))).val| ≤
      4 * ((1 + R.u) ^ 8 - 1) * (lenQ p * lenQ q * lenQ s) := by
  have E : ∀ t : Quat (FP R), ApproxQ t ⟨t.w.val, t.x.val, t.y.val, t.z.val⟩
      ⟨|t.w.val|, |t.x.val|, |t.y.val|, |t.z.val|⟩ 0 := fun t =>
    ⟨Approx.exact _, Approx.exact _, Approx.exact _, Approx.exact _⟩
  have L : ∀ t : Quat (FP R), √(|t.w.val| ^ 2 + |t.x.val| ^ 2 + |t.y.val| ^ 2 + |t.z.val| ^ 2) ≤ lenQ t := fun t => by
    simp only [sq_abs]; exact le_rfl
  have h1 := ((E p).mul (E q)).mul (E s)
  have h2 := (E p).mul ((E q).mul (E s))
  rw [mulQ_assoc, magQ_assoc] at h1
  have l0 : 0 ≤ lenQ p * lenQ q := mul_nonneg (Real.sqrt_nonneg _) (Real.sqrt_nonneg _)
  -- the magnitudes
  have g := magQ_le ⟨|p.w.val|, |p.x.val|, |p.y.val|, |p.z.val|⟩ ⟨|q.w.val|, |q.x.val|, |q.y.val|, |q.z.val|⟩ _ _
    (L p) (L q)
  set PQ := magQ ⟨|p.w.val|, |p.x.val|, |p.y.val|, |p.z.val|⟩ ⟨|q.w.val|, |q.x.val|, |q.y.val|, |q.z.val|⟩ with hPQ
  have n0 : 0 ≤ PQ.w ∧ 0 ≤ PQ.x ∧ 0 ≤ PQ.y ∧ 0 ≤ PQ.z := by
    rw [hPQ]; unfold magQ; refine ⟨?_, ?_, ?_, ?_⟩ <;> positivity
  have hPQs : √(PQ.w ^ 2 + PQ.x ^ 2 + PQ.y ^ 2 + PQ.z ^ 2) ≤ 2 * (lenQ p * lenQ q) := by
    refine Real.sqrt_le_iff.mpr ⟨by linarith, ?_⟩
    have a1 := pow_le_pow_left₀ n0.1 g.1 2
    have a2 := pow_le_pow_left₀ n0.2.1 g.2.1 2
    have a3 := pow_le_pow_left₀ n0.2.2.1 g.2.2.1 2
    have a4 := pow_le_pow_left₀ n0.2.2.2 g.2.2.2 2
    rw [mul_pow]; linarith
  have b := magQ_le PQ ⟨|s.w.val|, |s.x.val|, |s.y.val|, |s.z.val|⟩ _ _ hPQs (L s)
  rw [hPQ, magQ_assoc] at b
  have fin : ∀ {x y : FP R} {e M : ℝ}, Approx x e M (0 + 0 + 4 + 0 + 4) → Approx y e M (0 + (0 + 0 + 4) + 4) →
      M ≤ 2 * (lenQ p * lenQ q) * lenQ s →
      |x.val - y.val| ≤ 4 * ((1 + R.u) ^ 8 - 1) * (lenQ p * lenQ q * lenQ s) := by
    intro x y e M hx hy hM
    have h3 := Approx.apart (p := 8) hx hy
    have h4 := Approx.pow_ge R 8
    have h5 : ((1 + R.u) ^ 8 - 1) * M ≤ ((1 + R.u) ^ 8 - 1) * (2 * (lenQ p * lenQ q) * lenQ s) :=
      mul_le_mul_of_nonneg_left hM (by linarith)
    linarith
  rcases hf with rfl | rfl | rfl | rfl
  · exact fin h1.1 h2.1 b.1
  · exact fin h1.2.1 h2.2.1 b.2.1
  · exact fin h1.2.2.1 h2.2.2.1 b.2.2.1
  · exact fin h1.2.2.2 h2.2.2.2 b.2.2.2

/-! ### Cases -/

/-- Transforming a point of magnitude at most 1000 by two 4x4 `double` matrices with entries of magnitude at most
1, at once or one after the other, gives coordinates that agree to one in 10^10. -/
example [Indet (FP double53)] (a b : Mat (FP double53) 4 4) (v : Vec (FP double53) 4)
    (ha : ∀ i j, |(a i j).val| ≤ 1) (hb : ∀ i j, |(b i j).val| ≤ 1) (hv : ∀ i, |(v i).val| ≤ 1000) (j : Fin 4) :
    |(mulVec (mulMat a b) v j).val - (mulVec a (mulVec b v) j).val| ≤ 1 / 10 ^ 10 := by
  refine ((fp_product_regroup a b a v).1 j).trans ?_
  have hu : double53.u = (2 : ℝ) ^ (-53 : ℤ) := rfl
  have h1 : ∑ i, ∑ p, |(a p j).val| * |(b i p).val| * |(v i).val| ≤ ∑ _i : Fin 4, ∑ _p : Fin 4, (1000 : ℝ) := by
    refine Finset.sum_le_sum fun i _ => Finset.sum_le_sum fun p _ => ?_
    have := mul_le_mul (mul_le_mul (ha p j) (hb i p) (abs_nonneg _) zero_le_one) (hv i) (abs_nonneg _) (by norm_num)
    linarith
  have h2 : ∑ _i : Fin 4, ∑ _p : Fin 4, (1000 : ℝ) = 16000 := by simp; norm_num
  rw [h2] at h1
  have h3 : (1 + double53.u) ^ (4 + 4) - 1 ≤ 1 / 10 ^ 15 := by rw [hu]; norm_num
  have h4 : 0 ≤ (1 + double53.u) ^ (4 + 4) - 1 := by rw [hu]; norm_num
  have h5 := mul_le_mul h3 h1 (Finset.sum_nonneg fun i _ => Finset.sum_nonneg fun p _ => by positivity) (by norm_num)
  linarith

/-- Rounding to two binary digits. -/
noncomputable abbrev digits2 : Rounding := nearestEven 2 (by norm_num)

/-- The two groupings are not equal, so the bounds cannot all be zero: with two digits, the rows (1, 1) times
((4, 0, 0), (0, 1, 1)) times (1, 1, 1) is (4 + 1) + 1 = 4 or 4 + (1 + 1) = 6. -/
theorem fp_product_regroup_not_exact : ∃ (a : Mat (FP digits2) 2 1) (b : Mat (FP digits2) 3 2)
    (v : Vec (FP digits2) 3), ∀ _ : Indet (FP digits2), mulVec (mulMat a b) v ≠ mulVec a (mulVec b v) := by
  obtain ⟨x, y, z, h⟩ := fp_add_not_assoc
  refine ⟨fun _ _ => 1, ![![x 0, 0], ![0, y 0], ![0, z 0]], fun _ => 1, fun _ e => h ?_⟩
  have e0 := congrFun e 0
  simp only [mulVec_dot, mulMat_dot, dot, forLoop, List.finRange_succ, List.finRange_zero, List.map_cons, List.map_nil,
    List.foldl_cons, List.foldl_nil] at e0
  simp [FP.zeroAdd, FP.addZero, FP.mulOne, FP.mulComm 1] at e0
  funext i
  obtain rfl : i = 0 := Subsingleton.elim _ _
  simp only [add, vecOp_apply]
  exact e0

end Verif.Math
