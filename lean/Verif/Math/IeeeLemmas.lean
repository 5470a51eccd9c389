import Verif.Math.Ieee
import Verif.Math.RoundingLemmas

/-!
Helper lemmas: computations with the same text on two component types whose operations correspond give
corresponding results; the instances are "a value and its record" and "no exception and the unbounded
exponent".
-/

set_option autoImplicit false

namespace Verif.Math

/-- The operations of two component types correspond. -/
structure OpsRel {T U : Type} [Zero T] [One T] [OfNat T 2] [Neg T] [Add T] [Sub T] [Mul T] [Div T] [MathFns T]
    [Zero U] [One U] [OfNat U 2] [Neg U] [Add U] [Sub U] [Mul U] [Div U] [MathFns U] (ρ : T → U → Prop) : Prop where
  zero : ρ 0 0
  one : ρ 1 1
  two : ρ 2 2
  neg : ∀ {a x}, ρ a x → ρ (-a) (-x)
  add : ∀ {a b x y}, ρ a x → ρ b y → ρ (a + b) (x + y)
  sub : ∀ {a b x y}, ρ a x → ρ b y → ρ (a - b) (x - y)
  mul : ∀ {a b x y}, ρ a x → ρ b y → ρ (a * b) (x * y)
  div : ∀ {a b x y}, ρ a x → ρ b y → ρ (a / b) (x / y)
  sqrt : ∀ {a x}, ρ a x → ρ (MathFns.sqrt a) (MathFns.sqrt x)

namespace OpsRel

variable {T U : Type} [Zero T] [One T] [OfNat T 2] [Neg T] [Add T] [Sub T] [Mul T] [Div T] [MathFns T]
  [Zero U] [One U] [OfNat U 2] [Neg U] [Add U] [Sub U] [Mul U] [Div U] [MathFns U] {ρ : T → U → Prop}
  {n c r k : Nat}

omit [Zero T] [One T] [OfNat T 2] [Neg T] [Add T] [Sub T] [Mul T] [Div T] [MathFns T]
  [Zero U] [One U] [OfNat U 2] [Neg U] [Add U] [Sub U] [Mul U] [Div U] [MathFns U] in
theorem loop (f : Fin n → T → T) (g : Fin n → U → U) (h : ∀ i s t, ρ s t → ρ (f i s) (g i t)) {s : T} {t : U}
    (hst : ρ s t) : ρ (forLoop n f s) (forLoop n g t) := by
  unfold forLoop
  generalize List.finRange n = l
  induction l generalizing s t with
  | nil => exact hst
  | cons i l ih => exact ih (h i s t hst)

variable (H : OpsRel ρ)
include H

theorem dot {a b : Vec T n} {x y : Vec U n} (h1 : ∀ i, ρ (a i) (x i)) (h2 : ∀ i, ρ (b i) (y i)) :
    ρ (Math.dot a b) (Math.dot x y) :=
  loop _ _ (fun i _ _ h => H.add h (H.mul (h1 i) (h2 i))) H.zero

theorem cross {a b : Vec T 3} {x y : Vec U 3} (h1 : ∀ i, ρ (a i) (x i)) (h2 : ∀ i, ρ (b i) (y i)) (i : Fin 3) :
    ρ (Math.cross a b i) (Math.cross x y i) := by
  unfold Math.cross
  fin_cases i <;> exact H.sub (H.mul (h1 _) (h2 _)) (H.mul (h1 _) (h2 _))

theorem length {a : Vec T n} {x : Vec U n} (h : ∀ i, ρ (a i) (x i)) : ρ (Math.length a) (Math.length x) :=
  H.sqrt (H.dot h h)

theorem lengthM {a : Vec T n} {x : Vec U n} (h : ∀ i, ρ (a i) (x i)) : ρ (Math.lengthM a) (Math.lengthM x) := by
  match n, a, x, h with
  | 2, a, x, h => exact H.sqrt (H.add (H.mul (h _) (h _)) (H.mul (h _) (h _)))
  | 3, a, x, h => exact H.sqrt (H.add (H.add (H.mul (h _) (h _)) (H.mul (h _) (h _))) (H.mul (h _) (h _)))
  | 4, a, x, h =>
    exact H.sqrt (H.add (H.add (H.add (H.mul (h _) (h _)) (H.mul (h _) (h _))) (H.mul (h _) (h _)))
      (H.mul (h _) (h _)))
  | 0, a, x, h => exact H.sqrt (loop _ _ (fun i _ _ hs => H.add hs (H.mul (h i) (h i))) H.zero)
  | 1, a, x, h => exact H.sqrt (loop _ _ (fun i _ _ hs => H.add hs (H.mul (h i) (h i))) H.zero)
  | n + 5, a, x, h => exact H.sqrt (loop _ _ (fun i _ _ hs => H.add hs (H.mul (h i) (h i))) H.zero)

theorem addV {a b : Vec T n} {x y : Vec U n} (h1 : ∀ i, ρ (a i) (x i)) (h2 : ∀ i, ρ (b i) (y i)) (i : Fin n) :
    ρ (Math.add a b i) (Math.add x y i) := by
  unfold Math.add; rw [vecOp_apply, vecOp_apply]; exact H.add (h1 i) (h2 i)

theorem subV {a b : Vec T n} {x y : Vec U n} (h1 : ∀ i, ρ (a i) (x i)) (h2 : ∀ i, ρ (b i) (y i)) (i : Fin n) :
    ρ (Math.sub a b i) (Math.sub x y i) := by
  unfold Math.sub; rw [vecOp_apply, vecOp_apply]; exact H.sub (h1 i) (h2 i)

theorem mulV {a b : Vec T n} {x y : Vec U n} (h1 : ∀ i, ρ (a i) (x i)) (h2 : ∀ i, ρ (b i) (y i)) (i : Fin n) :
    ρ (Math.mul a b i) (Math.mul x y i) := by
  unfold Math.mul; rw [vecOp_apply, vecOp_apply]; exact H.mul (h1 i) (h2 i)

theorem mulS {a : Vec T n} {x : Vec U n} {s : T} {t : U} (h1 : ∀ i, ρ (a i) (x i)) (h2 : ρ s t) (i : Fin n) :
    ρ (Math.mulS a s i) (Math.mulS x t i) := by
  unfold Math.mulS; rw [vecOpS_apply, vecOpS_apply]; exact H.mul (h1 i) h2

theorem divS {a : Vec T n} {x : Vec U n} {s : T} {t : U} (h1 : ∀ i, ρ (a i) (x i)) (h2 : ρ s t) (i : Fin n) :
    ρ (Math.divS a s i) (Math.divS x t i) := by
  unfold Math.divS; rw [vecOpS_apply, vecOpS_apply]; exact H.div (h1 i) h2

theorem distance {a b : Vec T n} {x y : Vec U n} (h1 : ∀ i, ρ (a i) (x i)) (h2 : ∀ i, ρ (b i) (y i)) :
    ρ (Math.distance a b) (Math.distance x y) := H.lengthM (H.subV h2 h1)

theorem normalize {a : Vec T n} {x : Vec U n} (h : ∀ i, ρ (a i) (x i)) (i : Fin n) :
    ρ (Math.normalize a i) (Math.normalize x i) := H.mulS h (H.div H.one (H.length h)) i

theorem normalizeM {a : Vec T n} {x : Vec U n} (h : ∀ i, ρ (a i) (x i)) (i : Fin n) :
    ρ (Math.normalizeM a i) (Math.normalizeM x i) := H.mulS h (H.div H.one (H.lengthM h)) i

theorem reflect {a b : Vec T n} {x y : Vec U n} (h1 : ∀ i, ρ (a i) (x i)) (h2 : ∀ i, ρ (b i) (y i)) (i : Fin n) :
    ρ (Math.reflect a b i) (Math.reflect x y i) :=
  H.subV h1 (H.mulS (H.mulS h2 (H.dot h1 h2)) H.two) i

theorem lerp {a b : Vec T n} {x y : Vec U n} {s : T} {t : U} (h1 : ∀ i, ρ (a i) (x i)) (h2 : ∀ i, ρ (b i) (y i))
    (h3 : ρ s t) (i : Fin n) : ρ (Math.lerp a b s i) (Math.lerp x y t i) :=
  H.addV (H.mulS h2 h3) (H.mulS h1 (H.sub H.one h3)) i

theorem mulVec [Indet T] [Indet U] {m : Mat T c r} {m' : Mat U c r} {a : Vec T c} {x : Vec U c}
    (h1 : ∀ i j, ρ (m i j) (m' i j)) (h2 : ∀ i, ρ (a i) (x i)) (j : Fin r) :
    ρ (Math.mulVec m a j) (Math.mulVec m' x j) := by
  rw [mulVec_dot, mulVec_dot]; exact H.dot (fun i => h1 i j) h2

theorem mulMat [Indet T] [Indet U] {a : Mat T c r} {a' : Mat U c r} {b : Mat T k c} {b' : Mat U k c}
    (h1 : ∀ i j, ρ (a i j) (a' i j)) (h2 : ∀ i j, ρ (b i j) (b' i j)) (i : Fin k) (j : Fin r) :
    ρ (Math.mulMat a b i j) (Math.mulMat a' b' i j) := by
  rw [mulMat_dot, mulMat_dot]; exact H.dot (fun i => h1 i j) (h2 i)

theorem det2 {m : Mat T 2 2} {m' : Mat U 2 2} (h : ∀ i j, ρ (m i j) (m' i j)) : ρ (Math.det2 m) (Math.det2 m') :=
  H.sub (H.mul (h _ _) (h _ _)) (H.mul (h _ _) (h _ _))

theorem det3 {m : Mat T 3 3} {m' : Mat U 3 3} (h : ∀ i j, ρ (m i j) (m' i j)) : ρ (Math.det3 m) (Math.det3 m') := by
  unfold Math.det3
  repeat' first | apply h | apply H.add | apply H.sub | apply H.mul

theorem det4 {m : Mat T 4 4} {m' : Mat U 4 4} (h : ∀ i j, ρ (m i j) (m' i j)) : ρ (Math.det4 m) (Math.det4 m') := by
  unfold Math.det4
  repeat' first | apply h | apply H.add | apply H.sub | apply H.mul

theorem quatMul {p q : Quat T} {p' q' : Quat U} (hp : ρ p.w p'.w ∧ ρ p.x p'.x ∧ ρ p.y p'.y ∧ ρ p.z p'.z)
    (hq : ρ q.w q'.w ∧ ρ q.x q'.x ∧ ρ q.y q'.y ∧ ρ q.z q'.z) :
    ρ (p.mul q).w (p'.mul q').w ∧ ρ (p.mul q).x (p'.mul q').x ∧ ρ (p.mul q).y (p'.mul q').y ∧
      ρ (p.mul q).z (p'.mul q').z := by
  obtain ⟨h1, h2, h3, h4⟩ := hp
  obtain ⟨g1, g2, g3, g4⟩ := hq
  unfold Quat.mul
  refine ⟨?_, ?_, ?_, ?_⟩ <;> repeat' first | assumption | apply H.add | apply H.sub | apply H.mul

theorem translate {m : Mat T 4 4} {m' : Mat U 4 4} {v : Vec T 3} {v' : Vec U 3} (h : ∀ i j, ρ (m i j) (m' i j))
    (hv : ∀ i, ρ (v i) (v' i)) (i j : Fin 4) : ρ (Math.translate m v i j) (Math.translate m' v' i j) := by
  unfold Math.translate
  fin_cases i
  · exact h _ _
  · exact h _ _
  · exact h _ _
  · exact H.addV (H.addV (H.addV (H.mulS (h 0) (hv 0)) (H.mulS (h 1) (hv 1))) (H.mulS (h 2) (hv 2))) (h 3) j

theorem scale {m : Mat T 4 4} {m' : Mat U 4 4} {v : Vec T 3} {v' : Vec U 3} (h : ∀ i j, ρ (m i j) (m' i j))
    (hv : ∀ i, ρ (v i) (v' i)) (i j : Fin 4) : ρ (Math.scale m v i j) (Math.scale m' v' i j) := by
  unfold Math.scale
  fin_cases i
  · exact H.mulS (h 0) (hv 0) j
  · exact H.mulS (h 1) (hv 1) j
  · exact H.mulS (h 2) (hv 2) j
  · exact h _ _

end OpsRel

variable {F : Format}

/-! ### The value of a recorded computation is the value computed -/

/-- `a` records the computation of `x`. -/
def Records (a : Flagged F) (x : IVal F) : Prop := a.val = x

theorem records_ops [ILibm F] : OpsRel (Records (F := F)) where
  zero := rfl
  one := rfl
  two := rfl
  neg h := congrArg (fun x : IVal F => -x) h
  add h1 h2 := congrArg₂ (fun x y : IVal F => x + y) h1 h2
  sub h1 h2 := congrArg₂ (fun x y : IVal F => x - y) h1 h2
  mul h1 h2 := congrArg₂ (fun x y : IVal F => x * y) h1 h2
  div h1 h2 := congrArg₂ (fun x y : IVal F => x / y) h1 h2
  sqrt h := congrArg IVal.sqrt h

/-! ### Without exceptions the exponent might as well be unbounded -/

/-- `v` is finite and stands for the number `y`. -/
def IVal.Is (v : IVal F) (y : ℝ) : Prop := v.Finite ∧ v.toReal = y

theorem IVal.is_zero (s : Bool) : (IVal.zero s : IVal F).Is 0 := ⟨trivial, rfl⟩
theorem IVal.is_num {x : ℝ} (h : F.Rep x) : (IVal.num x h).Is x := ⟨trivial, rfl⟩

theorem IVal.ofReal_is {s : Bool} {z : ℝ} (h : |F.rnd z| ≤ F.largest) : (IVal.ofReal F s z).Is (F.rnd z) := by
  by_cases h0 : F.rnd z = 0
  · have : IVal.ofReal F s z = .zero (if z = 0 then s else decide (z < 0)) := dif_pos h0
    rw [this, h0]; exact is_zero _
  · have : IVal.ofReal F s z = .num (F.rnd z) ⟨h0, F.rnd_idem z, h⟩ := (dif_neg h0).trans (dif_pos h)
    rw [this]; exact is_num _

theorem IVal.ofReal_exc {s : Bool} {z : ℝ} (h : ¬F.Exc z) : (IVal.ofReal F s z).Is (roundTo F.p z) := by
  unfold Format.Exc at h
  rw [not_or] at h
  rw [← F.rnd_wide h.2]
  exact ofReal_is (not_lt.mp h.1)

/-- `a` was computed without an exception and stands for the same number as `x`. -/
def Agrees (a : Flagged F) (x : FP F.wide) : Prop := ¬a.raised → a.val.Is x.val

theorem wide_rnd (x : ℝ) : F.wide.rnd x = roundTo F.p x := rfl

theorem Is.rep {v : IVal F} {y : ℝ} (h : v.Is y) : F.wide.rnd y = y := by
  obtain ⟨h1, h2⟩ := h
  cases v with
  | nan => exact h1.elim
  | inf s => exact h1.elim
  | zero s => rw [← h2]; exact roundTo_zero
  | num x hx => rw [← h2]; exact F.rep_wide hx.2.1

/-- A finite value as a number of the type with unbounded exponent. -/
noncomputable def IVal.widen (v : IVal F) : FP F.wide :=
  ⟨v.toReal, by cases v with
    | num x h => exact F.rep_wide h.2.1
    | _ => exact roundTo_zero⟩

theorem agrees_input {v : IVal F} (h : v.Finite) : Agrees (.input v) v.widen := fun _ => ⟨h, rfl⟩

theorem add_is {a b : IVal F} {x y : ℝ} (h1 : a.Is x) (h2 : b.Is y) (he : ¬a.addExc b) :
    (a + b).Is (roundTo F.p (x + y)) := by
  have r1 := Is.rep h1
  have r2 := Is.rep h2
  obtain ⟨f1, e1⟩ := h1
  obtain ⟨f2, e2⟩ := h2
  cases a with
  | nan => exact f1.elim
  | inf => exact f1.elim
  | zero s =>
    obtain rfl : 0 = x := e1
    rw [zero_add, show roundTo F.p y = y from r2]
    cases b with
    | nan => exact f2.elim
    | inf => exact f2.elim
    | zero t => exact ⟨trivial, e2⟩
    | num z hz => exact ⟨trivial, e2⟩
  | num w hw =>
    obtain rfl : w = x := e1
    cases b with
    | nan => exact f2.elim
    | inf => exact f2.elim
    | zero t =>
      obtain rfl : 0 = y := e2
      rw [add_zero, show roundTo F.p w = w from r1]; exact ⟨trivial, rfl⟩
    | num z hz =>
      obtain rfl : z = y := e2
      exact IVal.ofReal_exc he

theorem neg_is {a : IVal F} {x : ℝ} (h : a.Is x) : (-a).Is (-x) := by
  obtain ⟨f1, e1⟩ := h
  cases a with
  | nan => exact f1.elim
  | inf => exact f1.elim
  | zero s =>
    obtain rfl : 0 = x := e1
    exact ⟨trivial, neg_zero.symm⟩
  | num w hw =>
    obtain rfl : w = x := e1
    exact ⟨trivial, rfl⟩

theorem sub_is {a b : IVal F} {x y : ℝ} (h1 : a.Is x) (h2 : b.Is y) (he : ¬a.addExc (-b)) :
    (a - b).Is (roundTo F.p (x - y)) := by
  rw [sub_eq_add_neg]; exact add_is h1 (neg_is h2) he

theorem mul_is {a b : IVal F} {x y : ℝ} (h1 : a.Is x) (h2 : b.Is y) (he : ¬a.mulExc b) :
    (a * b).Is (roundTo F.p (x * y)) := by
  obtain ⟨f1, e1⟩ := h1
  obtain ⟨f2, e2⟩ := h2
  cases a with
  | nan => exact f1.elim
  | inf => exact f1.elim
  | zero s =>
    obtain rfl : 0 = x := e1
    rw [MulZeroClass.zero_mul, roundTo_zero]
    cases b with
    | nan => exact f2.elim
    | inf => exact f2.elim
    | zero t => exact ⟨trivial, rfl⟩
    | num z hz => exact ⟨trivial, rfl⟩
  | num w hw =>
    obtain rfl : w = x := e1
    cases b with
    | nan => exact f2.elim
    | inf => exact f2.elim
    | zero t =>
      obtain rfl : 0 = y := e2
      rw [MulZeroClass.mul_zero, roundTo_zero]; exact ⟨trivial, rfl⟩
    | num z hz =>
      obtain rfl : z = y := e2
      exact IVal.ofReal_exc he

theorem div_is {a b : IVal F} {x y : ℝ} (h1 : a.Is x) (h2 : b.Is y) (he : ¬a.divExc b) :
    (a / b).Is (roundTo F.p (x / y)) := by
  obtain ⟨f1, e1⟩ := h1
  obtain ⟨f2, e2⟩ := h2
  cases a with
  | nan => exact f1.elim
  | inf => exact f1.elim
  | zero s =>
    obtain rfl : 0 = x := e1
    rw [zero_div, roundTo_zero]
    cases b with
    | nan => exact f2.elim
    | inf => exact f2.elim
    | zero t => exact (he trivial).elim
    | num z hz => exact ⟨trivial, rfl⟩
  | num w hw =>
    obtain rfl : w = x := e1
    cases b with
    | nan => exact f2.elim
    | inf => exact f2.elim
    | zero t => exact (he trivial).elim
    | num z hz =>
      obtain rfl : z = y := e2
      exact IVal.ofReal_exc he

theorem ieee_sqrt_is {a : IVal F} {x : ℝ} (h : a.Is x) (he : ¬a.sqrtExc) : a.sqrt.Is (roundTo F.p (√x)) := by
  obtain ⟨f1, e1⟩ := h
  cases a with
  | nan => exact f1.elim
  | inf => exact f1.elim
  | zero s =>
    obtain rfl : 0 = x := e1
    rw [Real.sqrt_zero, roundTo_zero]
    exact ⟨trivial, rfl⟩
  | num w hw =>
    obtain rfl : w = x := e1
    have he' : ¬(w < 0 ∨ F.Exc (√w)) := he
    rw [not_or] at he'
    have e : (IVal.num w hw).sqrt = .ofReal F false (√w) := if_neg he'.1
    rw [e]
    exact IVal.ofReal_exc he'.2

theorem agrees_ops [ILibm F] [Libm F.wide] : OpsRel (Agrees (F := F)) where
  zero := fun _ => ⟨trivial, rfl⟩
  one := fun _ => ⟨trivial, rfl⟩
  two := fun _ => ⟨trivial, rfl⟩
  neg h := fun hr => neg_is (h hr)
  add h1 h2 := fun hr => by
    have hr' : ¬(_ ∨ _ ∨ _) := hr
    rw [not_or, not_or] at hr'
    exact add_is (h1 hr'.1) (h2 hr'.2.1) hr'.2.2
  sub h1 h2 := fun hr => by
    have hr' : ¬(_ ∨ _ ∨ _) := hr
    rw [not_or, not_or] at hr'
    exact sub_is (h1 hr'.1) (h2 hr'.2.1) hr'.2.2
  mul h1 h2 := fun hr => by
    have hr' : ¬(_ ∨ _ ∨ _) := hr
    rw [not_or, not_or] at hr'
    exact mul_is (h1 hr'.1) (h2 hr'.2.1) hr'.2.2
  div h1 h2 := fun hr => by
    have hr' : ¬(_ ∨ _ ∨ _) := hr
    rw [not_or, not_or] at hr'
    exact div_is (h1 hr'.1) (h2 hr'.2.1) hr'.2.2
  sqrt h := fun hr => by
    have hr' : ¬(_ ∨ _) := hr
    rw [not_or] at hr'
    exact ieee_sqrt_is (h hr'.1) hr'.2

end Verif.Math
