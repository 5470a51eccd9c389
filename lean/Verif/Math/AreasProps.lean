import Verif.Math.Areas
import Verif.Math.MatrixProps
import Verif.Math.WholeProps
import Mathlib.Algebra.BigOperators.Group.List.Basic
import Mathlib.Algebra.CharZero.Defs
import Mathlib.Tactic.LinearCombination

/-! C175: areas of polygons and volumes of meshes. -/

set_option autoImplicit false

namespace Verif.Math

variable {T : Type}

/-! ### Specification -/

/-- Twice the area of the triangle `p q r` with its sign, from two of its sides. -/
def triangle2 [CommRing T] (p q r : Vec T 2) : T := (q 0 - p 0) * (r 1 - p 1) - (q 1 - p 1) * (r 0 - p 0)

/-- The triangles between `p` and the sides of the path `l`. -/
def fan [CommRing T] (p : Vec T 2) : List (Vec T 2) → T
  | q :: r :: l => triangle2 p q r + fan p (r :: l)
  | _ => 0

/-- The sides of a triangle, with their directions. -/
def Tri.edges (t : Tri T) : List (Vec T 3 × Vec T 3) := [(t.a, t.b), (t.b, t.c), (t.c, t.a)]

/-- The triangle seen from the other side. -/
def Tri.flip (t : Tri T) : Tri T := ⟨t.a, t.c, t.b⟩

/-- The triangle with its corners moved. -/
def Tri.map (f : Vec T 3 → Vec T 3) (t : Tri T) : Tri T := ⟨f t.a, f t.b, f t.c⟩

/-- No holes: every side is a side of another triangle in the other direction. -/
def Closed (m : List (Tri T)) : Prop :=
  (m.flatMap Tri.edges).Perm ((m.flatMap Tri.edges).map Prod.swap)

/-! ### The determinants -/

theorem wedge_eq [Zero T] [Sub T] [Mul T] (p q : Vec T 2) : wedge p q = p 0 * q 1 - q 0 * p 1 := rfl

theorem triple_eq [CommRing T] (p q r : Vec T 3) : triple p q r =
    p 0 * (q 1 * r 2 - r 1 * q 2) - q 0 * (p 1 * r 2 - r 1 * p 2) + r 0 * (p 1 * q 2 - q 1 * p 2) := rfl

section
variable [CommRing T]

/-- The sum along a path. -/
def path : List (Vec T 2) → T
  | p :: q :: l => wedge p q + path (q :: l)
  | _ => 0

theorem areaLoop_eq (q : Vec T 2) (l : List (Vec T 2)) : ∀ p s, areaLoop q p l s = s + path (p :: (l ++ [q])) := by
  induction l with
  | nil => intro p s; simp [areaLoop, path]
  | cons x l ih => intro p s; rw [areaLoop, ih]; simp only [List.cons_append, path]; ring

theorem area2_eq (p : Vec T 2) (l : List (Vec T 2)) : area2 (p :: l) = path (p :: (l ++ [p])) := by
  rw [area2, areaLoop_eq, zero_add]

theorem path_append (l : List (Vec T 2)) (x : Vec T 2) (r : List (Vec T 2)) :
    path (l ++ x :: r) = path (l ++ [x]) + path (x :: r) := by
  induction l with
  | nil => simp [path]
  | cons p l ih =>
    cases l with
    | nil => simp [path]
    | cons q l =>
      simp only [List.cons_append, path] at ih ⊢
      rw [ih]; ring

theorem wedge_swap (p q : Vec T 2) : wedge q p = -wedge p q := by rw [wedge_eq, wedge_eq]; ring

theorem path_reverse (l : List (Vec T 2)) : path l.reverse = -path l := by
  induction l with
  | nil => simp [path]
  | cons p l ih =>
    cases l with
    | nil => simp [path]
    | cons q l =>
      rw [List.reverse_cons, List.reverse_cons, List.append_assoc, List.singleton_append, path_append]
      rw [List.reverse_cons] at ih
      rw [ih]
      simp only [path]
      rw [wedge_swap p q]; ring

theorem path_affine (m : Mat T 2 2) (v : Vec T 2) [Indet T] (l : List (Vec T 2)) (p q : Vec T 2) :
    path ((p :: (l ++ [q])).map fun x => add (mulVec m x) v) =
      det2 m * path (p :: (l ++ [q])) + wedge v (mulVec m q) - wedge v (mulVec m p) := by
  have step : ∀ x y : Vec T 2, wedge (add (mulVec m x) v) (add (mulVec m y) v) =
      det2 m * wedge x y + wedge v (mulVec m y) - wedge v (mulVec m x) := by
    intro x y
    simp only [wedge_eq, add, vecOp_apply, mulVec_apply, Fin.sum_univ_two, det2]
    ring
  induction l generalizing p with
  | nil => simp only [List.nil_append, List.map_cons, List.map_nil, path, step]; ring
  | cons x l ih =>
    have := ih x
    simp only [List.cons_append, List.map_cons, path, step] at this ⊢
    rw [this]; ring

/-- C175. The sum of determinants is twice the area: it is the sum of the triangles between a corner and the sides. -/
theorem area_fan (p : Vec T 2) (l : List (Vec T 2)) : area2 (p :: l) = fan p l := by
  rw [area2_eq]
  have key : ∀ (l : List (Vec T 2)) (q : Vec T 2), path (q :: (l ++ [p])) + wedge p q = fan p (q :: l) := by
    intro l
    induction l with
    | nil => intro q; simp only [List.nil_append, path, fan]; rw [wedge_swap p q]; ring
    | cons r l ih =>
      intro q
      have := ih r
      simp only [List.cons_append, path, fan] at this ⊢
      rw [← this]
      simp only [triangle2, wedge_eq]; ring
  cases l with
  | nil => simp only [List.nil_append, path, fan, wedge_eq]; ring
  | cons q l =>
    rw [← key l q]
    simp only [List.cons_append, path]; ring

/-- C175. It does not matter at which corner one begins; from the other side the sign changes; a cut from corner to corner divides
the area; a matrix and a translation multiply it by the determinant. -/
theorem area_laws [Indet T] (p q : Vec T 2) (l r : List (Vec T 2)) (m : Mat T 2 2) (v : Vec T 2) :
    area2 (l ++ r) = area2 (r ++ l) ∧ area2 l.reverse = -area2 l ∧
    area2 (p :: (l ++ q :: r)) = area2 (p :: (l ++ [q])) + area2 (q :: (r ++ [p])) ∧
    area2 (l.map fun x => add (mulVec m x) v) = det2 m * area2 l := by
  have turn : ∀ (l : List (Vec T 2)) (p : Vec T 2), area2 (l ++ [p]) = area2 (p :: l) := by
    intro l p
    cases l with
    | nil => rfl
    | cons x l =>
      rw [List.cons_append, area2_eq, area2_eq, List.append_assoc, List.singleton_append]
      have := path_append (x :: l) p [x]
      rw [List.cons_append, List.cons_append] at this
      rw [this, List.cons_append]
      simp only [path]; ring
  refine ⟨?_, ?_, ?_, ?_⟩
  · induction l generalizing r with
    | nil => simp
    | cons x l ih =>
      rw [List.cons_append, ← turn, List.append_assoc, ih, List.append_assoc, List.singleton_append]
  · cases l with
    | nil => simp [area2]
    | cons x l =>
      rw [List.reverse_cons, turn, area2_eq, area2_eq, ← path_reverse]
      simp
  · rw [area2_eq, area2_eq, area2_eq]
    have := path_append (p :: l) q (r ++ [p])
    simp only [List.cons_append, List.append_assoc] at this ⊢
    rw [this]
    have e := path_append (p :: l) q [p]
    have e' := path_append (q :: r) p [q]
    simp only [List.cons_append, List.nil_append] at e e' ⊢
    rw [e, e']
    simp only [path]
    rw [wedge_swap p q]; ring
  · cases l with
    | nil => simp [area2]
    | cons x l =>
      have := path_affine m v l x x
      rw [List.map_cons, List.map_append, List.map_cons, List.map_nil] at this
      rw [List.map_cons, area2_eq, area2_eq, this]; ring

/-! ### Volumes -/

theorem volume_sum (m : List (Tri T)) : volume6 m = (m.map fun t => triple t.a t.b t.c).sum := by
  have : ∀ (m : List (Tri T)) (s : T), m.foldl (fun s t => s + triple t.a t.b t.c) s =
      s + (m.map fun t => triple t.a t.b t.c).sum := by
    intro m
    induction m with
    | nil => intro s; simp
    | cons t m ih => intro s; rw [List.foldl_cons, ih, List.map_cons, List.sum_cons]; ring
  rw [volume6, this, zero_add]

/-- C175. Volumes: parts add up, also when they are glued along a triangle that both have; from the other side the sign changes; a
matrix multiplies by its determinant; the four faces of a tetrahedron give the determinant of three of its sides. -/
theorem volume_laws [Indet T] (m m' : List (Tri T)) (t : Tri T) (f : Mat T 3 3) (p q r s : Vec T 3) :
    volume6 (m ++ m') = volume6 m + volume6 m' ∧ volume6 (t :: m ++ t.flip :: m') = volume6 (m ++ m') ∧
    volume6 (m.map Tri.flip) = -volume6 m ∧ volume6 (m.map (Tri.map (mulVec f))) = det3 f * volume6 m ∧
    volume6 [⟨p, r, q⟩, ⟨p, q, s⟩, ⟨p, s, r⟩, ⟨q, r, s⟩] = triple (sub q p) (sub r p) (sub s p) := by
  refine ⟨?_, ?_, ?_, ?_, ?_⟩
  · simp only [volume_sum, List.map_append, List.sum_append]
  · simp only [volume_sum, List.map_append, List.sum_append, List.map_cons, List.sum_cons, Tri.flip, List.cons_append, triple_eq]
    ring
  · simp only [volume_sum]
    induction m with
    | nil => simp
    | cons t m ih =>
      simp only [List.map_cons, List.sum_cons, ih]
      simp only [Tri.flip, triple_eq]
      ring
  · simp only [volume_sum]
    induction m with
    | nil => simp
    | cons t m ih =>
      simp only [List.map_cons, List.sum_cons, ih]
      simp only [Tri.map, triple_eq, mulVec_apply, Fin.sum_univ_three, det3]
      ring
  · simp only [volume_sum, List.map_cons, List.map_nil, List.sum_cons, List.sum_nil, triple_eq, sub, vecOp_apply]
    ring

end

/-- C175. The volume of a mesh without holes does not depend on where the mesh is. -/
theorem volume_translate [CommRing T] [IsDomain T] [CharZero T] (m : List (Tri T)) (hm : Closed m) (v : Vec T 3) :
    volume6 (m.map (Tri.map fun x => add x v)) = volume6 m := by
  have one : ∀ t : Tri T, triple (add t.a v) (add t.b v) (add t.c v) =
      triple t.a t.b t.c + (t.edges.map fun e => triple v e.1 e.2).sum := by
    intro t
    simp only [Tri.edges, List.map_cons, List.map_nil, List.sum_cons, List.sum_nil, triple_eq, add, vecOp_apply]
    ring
  have all : volume6 (m.map (Tri.map fun x => add x v)) = volume6 m + ((m.flatMap Tri.edges).map fun e => triple v e.1 e.2).sum := by
    simp only [volume_sum]
    clear hm
    induction m with
    | nil => simp
    | cons t m ih =>
      rw [List.map_cons, List.map_cons, List.sum_cons, ih, List.flatMap_cons, List.map_append, List.sum_append, List.map_cons,
        List.sum_cons]
      show triple (add t.a v) (add t.b v) (add t.c v) + _ = _
      rw [one]; ring
  have anti : ∀ l : List (Vec T 3 × Vec T 3), ((l.map Prod.swap).map fun e => triple v e.1 e.2).sum =
      -(l.map fun e => triple v e.1 e.2).sum := by
    intro l
    induction l with
    | nil => simp
    | cons e l ih =>
      simp only [List.map_cons, List.sum_cons, ih, Prod.fst_swap, Prod.snd_swap]
      simp only [triple_eq]; ring
  have zero : ((m.flatMap Tri.edges).map fun e => triple v e.1 e.2).sum = 0 := by
    have h := (hm.map fun e => triple v e.1 e.2).sum_eq
    rw [anti] at h
    have : (2 : T) * ((m.flatMap Tri.edges).map fun e => triple v e.1 e.2).sum = 0 := by linear_combination h
    exact (mul_eq_zero.mp this).resolve_left two_ne_zero
  rw [all, zero, add_zero]

/-! ### Whole coordinates -/

/-- C175. In `float` and `double`, corners with whole coordinates of magnitude at most `B` give the exact area, if
`2·B²·(number of corners)` does not exceed `2^24` or `2^53`. -/
theorem area_whole {F : Format} {B : Nat} (hB : 1 ≤ B) (ps : List (Vec (IVal F) 2 × Vec ℤ 2))
    (h : ∀ p ∈ ps, ∀ i, Holds (p.1 i) (p.2 i) 0 ∧ |p.2 i| ≤ B) (hn : 2 * B ^ 2 * ps.length ≤ 2 ^ F.p) :
    Holds (area2 (ps.map Prod.fst)) (area2 (ps.map Prod.snd)) 0 := by
  have w0 : Within F (0 + 0) := ⟨by have := F.grid_neg; omega, by have := F.hemax; omega⟩
  have wd : ∀ p q : Vec (IVal F) 2 × Vec ℤ 2, (∀ i, Holds (p.1 i) (p.2 i) 0 ∧ |p.2 i| ≤ B) →
      (∀ i, Holds (q.1 i) (q.2 i) 0 ∧ |q.2 i| ≤ B) → Bounded (wedge p.1 q.1) (wedge p.2 q.2) 0 (2 * B ^ 2) := by
    intro p q hp hq
    have b : ∀ (x : Vec (IVal F) 2 × Vec ℤ 2), (∀ i, Holds (x.1 i) (x.2 i) 0 ∧ |x.2 i| ≤ B) → ∀ i,
        Bounded (x.1 i) (x.2 i) 0 B := fun x hx i => bounded_of hB (hx i).1 (hx i).2
    have := ((b p hp 0).mul (b q hq 1) w0).sub ((b q hq 0).mul (b p hp 1) w0) w0
    exact this.congr rfl (by ring)
  have loop : ∀ (l : List (Vec (IVal F) 2 × Vec ℤ 2)) (q p : Vec (IVal F) 2 × Vec ℤ 2) (s : IVal F) (t : ℤ) (k : Nat),
      (∀ p ∈ l, ∀ i, Holds (p.1 i) (p.2 i) 0 ∧ |p.2 i| ≤ B) → (∀ i, Holds (p.1 i) (p.2 i) 0 ∧ |p.2 i| ≤ B) →
      (∀ i, Holds (q.1 i) (q.2 i) 0 ∧ |q.2 i| ≤ B) → Holds s t 0 → |t| ≤ 2 * B ^ 2 * k →
      2 * B ^ 2 * (k + l.length + 1) ≤ 2 ^ F.p →
      Holds (areaLoop q.1 p.1 (l.map Prod.fst) s) (areaLoop q.2 p.2 (l.map Prod.snd) t) 0 := by
    have add : ∀ (p q : Vec (IVal F) 2 × Vec ℤ 2) (s : IVal F) (t : ℤ) (k : Nat), (∀ i, Holds (p.1 i) (p.2 i) 0 ∧ |p.2 i| ≤ B) →
        (∀ i, Holds (q.1 i) (q.2 i) 0 ∧ |q.2 i| ≤ B) → Holds s t 0 → |t| ≤ 2 * B ^ 2 * k → 2 * B ^ 2 * (k + 1) ≤ 2 ^ F.p →
        Holds (s + wedge p.1 q.1) (t + wedge p.2 q.2) 0 ∧ |t + wedge p.2 q.2| ≤ 2 * B ^ 2 * (k + 1 : Nat) := by
      intro p q s t k hp hq hs ht hk
      obtain ⟨h1, h2⟩ := (wd p q hp hq).2 (le_trans (Nat.le_mul_of_pos_right _ (by omega)) hk)
      have h2' : |wedge p.2 q.2| ≤ 2 * (B : ℤ) ^ 2 := by exact_mod_cast h2
      have h3 : |t + wedge p.2 q.2| ≤ 2 * B ^ 2 * (k + 1 : Nat) := by
        refine (abs_add_le _ _).trans ?_
        push_cast; linarith
      refine ⟨hs.add h1 w0 (h3.trans ?_), h3⟩
      exact_mod_cast hk
    intro l
    induction l with
    | nil => intro q p s t k _ hp hq hs ht hk; exact (add p q s t k hp hq hs ht (by simpa using hk)).1
    | cons x l ih =>
      intro q p s t k hl hp hq hs ht hk
      have hx := hl x List.mem_cons_self
      obtain ⟨h1, h2⟩ := add p x s t k hp hx hs ht (le_trans (Nat.mul_le_mul_left _ (by simp)) hk)
      exact ih q x _ _ (k + 1) (fun p hp => hl p (List.mem_cons_of_mem _ hp)) hx hq h1 h2
        (le_trans (Nat.mul_le_mul_left _ (by simp; omega)) hk)
  cases ps with
  | nil => exact holds_zero 0
  | cons p l =>
    have hp := h p List.mem_cons_self
    exact loop l p p 0 0 0 (fun p hp => h p (List.mem_cons_of_mem _ hp)) hp hp (holds_zero 0) (by simp)
      (le_trans (Nat.mul_le_mul_left _ (by simp)) hn)

/-! ### Cases -/

/-- A square with a corner cut off. -/
example : area2 ([![0, 0], ![2, 0], ![2, 1], ![1, 2], ![0, 2]] : List (Vec ℤ 2)) = 7 := by decide

/-- The faces of a tetrahedron close. -/
example (p q r s : Vec ℤ 3) : Closed [⟨p, r, q⟩, ⟨p, q, s⟩, ⟨p, s, r⟩, ⟨q, r, s⟩] := by
  classical
  unfold Closed Tri.edges
  simp only [List.flatMap_cons, List.flatMap_nil, List.map_cons, List.map_nil, Prod.swap_prod_mk, List.cons_append,
    List.nil_append]
  rw [List.perm_iff_count]
  intro e
  simp only [List.count_cons, List.count_nil]
  omega

/-- A tetrahedron of volume `1/6` stays one when moved. -/
example : volume6 (([⟨![0, 0, 0], ![0, 1, 0], ![1, 0, 0]⟩, ⟨![0, 0, 0], ![1, 0, 0], ![0, 0, 1]⟩,
    ⟨![0, 0, 0], ![0, 0, 1], ![0, 1, 0]⟩, ⟨![1, 0, 0], ![0, 1, 0], ![0, 0, 1]⟩] : List (Tri ℤ)).map
      (Tri.map fun x => add x ![10, -7, 3])) = 1 := by decide

/-- In `float`: a polygon of eight corners with coordinates up to 1000. -/
example (ps : List (Vec (IVal Format.binary32) 2 × Vec ℤ 2)) (hl : ps.length = 8)
    (h : ∀ p ∈ ps, ∀ i, Holds (p.1 i) (p.2 i) 0 ∧ |p.2 i| ≤ (1000 : Nat)) :
    Holds (area2 (ps.map Prod.fst)) (area2 (ps.map Prod.snd)) 0 :=
  area_whole (by omega) ps h (by rw [hl]; simp [Format.binary32])

example : Holds (area2 [vec32 ![0, 0], vec32 ![900, 0], vec32 ![0, 700]]) 630000 0 := by
  have h := area_whole (F := Format.binary32) (B := 900) (by omega)
    [(vec32 ![0, 0], ![0, 0]), (vec32 ![900, 0], ![900, 0]), (vec32 ![0, 700], ![0, 700])]
    (by
      intro p hp i
      simp only [List.mem_cons, List.not_mem_nil, or_false] at hp
      rcases hp with rfl | rfl | rfl
      all_goals exact ⟨ofInt32_holds (by fin_cases i <;> simp), by fin_cases i <;> simp⟩)
    (by simp [Format.binary32])
  exact h

end Verif.Math
