import Verif.Math.Compare
import Verif.Math.MatrixLemmas

/-!
Constructors and comparisons of vectors, matrices and quaternions.

A vector is specified by the list of its components, a comparison by the first position at which the operands
differ.
-/

set_option autoImplicit false

namespace Verif.Math

variable {T U W : Type}

/-! ### C95: constructors -/

/-- The components in order. -/
def comps {n : Nat} (v : Vec T n) : List T := List.ofFn v

/-- A constructor that takes scalars and vectors lines up their components in the order of the arguments, each
converted to the component type. -/
theorem vector_parts (f : U → T) (g : W → T) (s s' : T) (u : Vec U 2) (w : Vec W 2) (u3 : Vec U 3) :
    comps (vec3SV f s u) = s :: (comps u).map f ∧
    comps (vec3VS f u s) = (comps u).map f ++ [s] ∧
    comps (vec4SSV f s s' u) = s :: s' :: (comps u).map f ∧
    comps (vec4SVS f s u s') = s :: (comps u).map f ++ [s'] ∧
    comps (vec4VSS f u s s') = (comps u).map f ++ [s, s'] ∧
    comps (vec4VV f g u w) = (comps u).map f ++ (comps w).map g ∧
    comps (vec4SV f s u3) = s :: (comps u3).map f ∧
    comps (vec4VS f u3 s) = (comps u3).map f ++ [s] := by
  refine ⟨?_, ?_, ?_, ?_, ?_, ?_, ?_, ?_⟩ <;> rfl

example : comps (vec4SVS (fun x : Nat => (x : Int)) (-1) ![2, 3] (-4)) = [-1, 2, 3, -4] := by decide

/-- The general template: the arguments are the first components, the remaining ones are zero; it takes at most as
many arguments as there are components. -/
theorem vector_args [Zero T] (n : Nat) (args : List T) :
    (vecOfArgs n args).map comps =
      if args.length ≤ n then some (args ++ List.replicate (n - args.length) 0) else none := by
  unfold vecOfArgs
  split_ifs with h
  · simp only [Option.map_some, Option.some.injEq]
    refine List.ext_getElem (by simp [comps]; omega) ?_
    intro i h1 h2
    simp only [comps, List.getElem_ofFn, List.getD_eq_getElem?_getD]
    by_cases hi : i < args.length
    · rw [List.getElem_append_left hi, List.getElem?_eq_getElem hi]; rfl
    · rw [List.getElem_append_right (by omega), List.getElem?_eq_none (by omega)]; simp
  · rfl

example : (vecOfArgs 5 [7, 8]).map comps = some [7, 8, 0, 0, (0 : Int)] := by decide

/-- Conversion, assignment and construction from columns convert every component, wherever it is. -/
theorem convert_components [Zero T] [Indet T] (f : U → T) {n c r : Nat} (v : Vec U n) (m : Mat U c r) (i : Fin n)
    (j : Fin c) (k : Fin r) :
    vecConvert f v i = f (v i) ∧ matConvert f m j k = f (m j k) ∧ matOfColumns f m j k = f (m j k) := by
  have hv : ∀ {n : Nat} (v : Vec U n), (vecConvert f v : Vec T n) = fun i => f (v i) := by
    intro n v
    unfold vecConvert
    split
    · funext i; fin_cases i <;> rfl
    · funext i; fin_cases i <;> rfl
    · funext i; fin_cases i <;> rfl
    · rw [forLoop_store]
  refine ⟨by rw [hv], ?_, by unfold matOfColumns; rw [hv]⟩
  have hm : (matConvert f m : Mat T c r) = fun j => vecConvert f (m j) := by
    unfold matConvert
    split
    · funext j; fin_cases j <;> rfl
    · exact forLoop_store (T := Vec T _) (fun i => vecConvert f (m i)) _
  rw [hm]
  exact congrFun (hv (m j)) k

example : comps (@vecConvert Int Nat ⟨fun _ => 9⟩ (fun x : Nat => (x : Int) - 1) 5 ![5, 4, 3, 2, 1]) =
    [4, 3, 2, 1, 0] := by decide

/-- A 3x3 matrix as a 4x4 matrix: it acts on the first three components and keeps the fourth. -/
theorem embed_acts [CommRing T] [Indet T] (f : U → T) (m : Mat U 3 3) (x : Vec T 3) (w : T) :
    mulVec (matEmbed f m) (vec4VS id x w) =
      vec4VS id (fun k => ∑ j, f (m j k) * x j) w := by
  have h : ∀ k, mulVec (matEmbed f m) (vec4VS id x w) k = ∑ j, matEmbed f m j k * vec4VS id x w j := by
    intro k; rw [mulVec_apply]
  funext k
  rw [h, Fin.sum_univ_four]
  fin_cases k <;> simp [matEmbed, vec4VS, vec4, Fin.sum_univ_three]

example : @mulVec Int _ _ _ ⟨fun _ => 9⟩ 4 4 (matEmbed (fun x : Nat => (x : Int)) ![![1, 2, 3], ![4, 5, 6], ![7, 8, 9]])
    ![1, 0, 2, 5] =
    ![15, 18, 21, 5] := by decide

/-- `q[0]` is the real part, `q[1]`, `q[2]`, `q[3]` the imaginary parts, in the order of the constructor. -/
theorem quaternion_index (w x y z : T) (i : Nat) : (quatOf w x y z).get? i = [w, x, y, z][i]? := rfl

example : (quatOf 5 6 7 8).get? 3 = some 8 ∧ (quatOf 5 6 7 8).get? 4 = none := by decide

/-! ### C96: comparisons -/

section Compare

variable (eqT : T → T → Bool) (threeT : T → T → Option Ordering)

theorem eqMembers_iff {M : Type} (e : M → M → Bool) (l : List (M × M)) :
    eqMembers e l = true ↔ ∀ p ∈ l, e p.1 p.2 = true := by
  induction l with
  | nil => simp [eqMembers]
  | cons p l ih =>
    obtain ⟨a, b⟩ := p
    unfold eqMembers
    by_cases h : e a b = true
    · simp [h, ih]
    · simp [h]

theorem threeMembers_iff {M : Type} (th : M → M → Option Ordering) : ∀ (l : List (M × M)) (o : Option Ordering),
    threeMembers th l = o ↔
      (o = some .eq ∧ ∀ p ∈ l, th p.1 p.2 = some .eq) ∨
      (o ≠ some .eq ∧ ∃ k, ∃ h : k < l.length, (∀ j, (hj : j < k) → th l[j].1 l[j].2 = some .eq) ∧ th l[k].1 l[k].2 = o)
  | [], o => by
    simp only [threeMembers, List.not_mem_nil, false_implies, implies_true, and_true, List.length_nil]
    constructor
    · intro h; exact Or.inl h.symm
    · rintro (h | ⟨_, k, h, _⟩)
      · exact h.symm
      · omega
  | (a, b) :: l, o => by
    have ih := threeMembers_iff th l
    by_cases h : th a b = some .eq
    · have e : threeMembers th ((a, b) :: l) = threeMembers th l := by
        rw [threeMembers]; simp [h]
      rw [e, ih o]
      refine or_congr (and_congr_right fun _ => ?_) (and_congr_right fun ho => ?_)
      · simp [h]
      · constructor
        · rintro ⟨k, hk, h1, h2⟩
          refine ⟨k + 1, by simp; omega, ?_, by simpa using h2⟩
          intro j hj
          cases j with
          | zero => simpa using h
          | succ j => simpa using h1 j (by omega)
        · rintro ⟨k, hk, h1, h2⟩
          cases k with
          | zero => simp only [List.getElem_cons_zero] at h2; exact absurd (h2.symm.trans h) ho
          | succ k =>
            refine ⟨k, by simpa using hk, ?_, by simpa using h2⟩
            intro j hj
            simpa using h1 (j + 1) (by omega)
    · have e : threeMembers th ((a, b) :: l) = th a b := by
        rw [threeMembers]; split
        · rename_i h'; exact absurd h' h
        · rfl
      rw [e]
      constructor
      · intro ho
        exact Or.inr ⟨fun h' => h (ho.trans h'), 0, by simp, fun j hj => absurd hj (by omega), by simpa using ho⟩
      · rintro (⟨rfl, h1⟩ | ⟨ho, k, hk, h1, h2⟩)
        · exact absurd (h1 (a, b) (by simp)) h
        · cases k with
          | zero => simpa using h2
          | succ k => exact absurd (by simpa using h1 0 (by omega)) h

theorem members_iff {n : Nat} {M : Type} (th : M → M → Option Ordering) (a b : Fin n → M) (o : Option Ordering) :
    threeMembers th ((List.finRange n).map fun i => (a i, b i)) = o ↔
      (o = some .eq ∧ ∀ i, th (a i) (b i) = some .eq) ∨
      (o ≠ some .eq ∧ ∃ i, (∀ j, j < i → th (a j) (b j) = some .eq) ∧ th (a i) (b i) = o) := by
  rw [threeMembers_iff]
  refine or_congr (and_congr_right fun _ => ?_) (and_congr_right fun _ => ?_)
  · simp
  · constructor
    · rintro ⟨k, hk, h1, h2⟩
      have hkn : k < n := by simpa using hk
      refine ⟨⟨k, hkn⟩, fun j hj => ?_, by simpa using h2⟩
      simpa using h1 j.val hj
    · rintro ⟨i, h1, h2⟩
      refine ⟨i.val, by simp, fun j hj => ?_, by simpa using h2⟩
      simpa using h1 ⟨j, by omega⟩ hj

/-- `==` compares all components, `<=>` is decided by the first pair of components that does not compare equal (in a
matrix: going down the columns, from the first to the last; in a quaternion: w, x, y, z).  This includes
components that are unordered. -/
theorem compare_first_difference {n c r : Nat} (a b : Vec T n) (m k : Mat T c r) (p q : Quat T)
    (o : Option Ordering) :
    (vecEq eqT a b = true ↔ ∀ i, eqT (a i) (b i) = true) ∧
    (matEq eqT m k = true ↔ ∀ i j, eqT (m i j) (k i j) = true) ∧
    (quatEq eqT p q = true ↔ eqT p.w q.w = true ∧ eqT p.x q.x = true ∧ eqT p.y q.y = true ∧ eqT p.z q.z = true) ∧
    (vecThree threeT a b = o ↔ (o = some .eq ∧ ∀ i, threeT (a i) (b i) = some .eq) ∨
      (o ≠ some .eq ∧ ∃ i, (∀ j, j < i → threeT (a j) (b j) = some .eq) ∧ threeT (a i) (b i) = o)) ∧
    (matThree threeT m k = o ↔ (o = some .eq ∧ ∀ i j, threeT (m i j) (k i j) = some .eq) ∨
      (o ≠ some .eq ∧ ∃ i j, (∀ i' j', i' < i ∨ i' = i ∧ j' < j → threeT (m i' j') (k i' j') = some .eq) ∧
        threeT (m i j) (k i j) = o)) ∧
    quatThree threeT p q = vecThree threeT ![p.w, p.x, p.y, p.z] ![q.w, q.x, q.y, q.z] := by
  have hve : ∀ {n : Nat} (a b : Vec T n), vecEq eqT a b = true ↔ ∀ i, eqT (a i) (b i) = true := by
    intro n a b; unfold vecEq vecMembers; rw [eqMembers_iff]; simp
  have hvt : ∀ {n : Nat} (a b : Vec T n) (o : Option Ordering), vecThree threeT a b = o ↔
      (o = some .eq ∧ ∀ i, threeT (a i) (b i) = some .eq) ∨
      (o ≠ some .eq ∧ ∃ i, (∀ j, j < i → threeT (a j) (b j) = some .eq) ∧ threeT (a i) (b i) = o) := by
    intro n a b o; exact members_iff threeT a b o
  have hvq : ∀ {n : Nat} (a b : Vec T n), vecThree threeT a b = some .eq ↔ ∀ i, threeT (a i) (b i) = some .eq := by
    intro n a b; rw [hvt]; simp
  refine ⟨hve a b, ?_, ?_, hvt a b o, ?_, ?_⟩
  · unfold matEq matMembers; rw [eqMembers_iff]; simp [hve]
  · unfold quatEq; rw [eqMembers_iff]; simp
  · unfold matThree matMembers
    rw [members_iff]
    refine or_congr (and_congr_right fun _ => by simp only [hvq]) (and_congr_right fun ho => ?_)
    constructor
    · rintro ⟨i, h1, h2⟩
      rcases (hvt _ _ _).mp h2 with ⟨h3, _⟩ | ⟨_, j, h3, h4⟩
      · exact absurd h3 ho
      · refine ⟨i, j, ?_, h4⟩
        rintro i' j' (h | ⟨rfl, h⟩)
        · exact (hvq _ _).mp (h1 i' h) j'
        · exact h3 j' h
    · rintro ⟨i, j, h1, h2⟩
      refine ⟨i, fun i' hi => (hvq _ _).mpr fun j' => h1 i' j' (Or.inl hi), ?_⟩
      exact (hvt _ _ _).mpr (Or.inr ⟨ho, j, fun j' hj => h1 i j' (Or.inr ⟨rfl, hj⟩), h2⟩)
  · rfl

/-- The built-in comparison of a totally ordered type. -/
def threeOrd [LT T] [DecidableLT T] [DecidableEq T] (x y : T) : Option Ordering :=
  if x < y then some .lt else if x = y then some .eq else some .gt

/-- With components of a totally ordered type, `<` of vectors is the lexicographic order: irreflexive, transitive,
and of two different vectors one is less. -/
theorem compare_total_order [LinearOrder T] {n : Nat} (a b c : Vec T n) :
    (vecThree threeOrd a b = some .lt ↔ ∃ i, (∀ j, j < i → a j = b j) ∧ a i < b i) ∧
    (vecThree threeOrd a b = some .gt ↔ vecThree threeOrd b a = some .lt) ∧
    (vecThree threeOrd a b = some .eq ↔ a = b) ∧
    vecThree threeOrd a b ≠ none ∧
    (vecThree threeOrd a b = some .lt → vecThree threeOrd b c = some .lt → vecThree threeOrd a c = some .lt) ∧
    (vecEq (fun x y => decide (x = y)) a b = true ↔ a = b) := by
  have hEq : ∀ x y : T, threeOrd x y = some .eq ↔ x = y := by
    intro x y; unfold threeOrd
    split_ifs with h1 h2
    · exact ⟨fun h => (by cases h), fun h => absurd (h ▸ h1) (lt_irrefl _)⟩
    · exact ⟨fun _ => h2, fun _ => rfl⟩
    · exact ⟨fun h => (by cases h), fun h => absurd h h2⟩
  have hLt : ∀ x y : T, threeOrd x y = some .lt ↔ x < y := by
    intro x y; unfold threeOrd
    split_ifs with h1 h2
    · exact ⟨fun _ => h1, fun _ => rfl⟩
    · exact ⟨fun h => (by cases h), fun h => absurd h h1⟩
    · exact ⟨fun h => (by cases h), fun h => absurd h h1⟩
  have hGt : ∀ x y : T, threeOrd x y = some .gt ↔ y < x := by
    intro x y; unfold threeOrd
    split_ifs with h1 h2
    · exact ⟨fun h => (by cases h), fun h => absurd h (lt_asymm h1)⟩
    · exact ⟨fun h => (by cases h), fun h => absurd (h2 ▸ h) (lt_irrefl _)⟩
    · exact ⟨fun _ => lt_of_le_of_ne (not_lt.mp h1) (Ne.symm h2), fun _ => rfl⟩
  have hN : ∀ x y : T, threeOrd x y ≠ none := by
    intro x y; unfold threeOrd; split_ifs <;> simp
  have key : ∀ (a b : Vec T n) (o : Option Ordering), vecThree threeOrd a b = o ↔
      (o = some .eq ∧ ∀ i, threeOrd (a i) (b i) = some .eq) ∨
      (o ≠ some .eq ∧ ∃ i, (∀ j, j < i → threeOrd (a j) (b j) = some .eq) ∧ threeOrd (a i) (b i) = o) :=
    fun a b o => members_iff threeOrd a b o
  have lt : ∀ a b : Vec T n, vecThree threeOrd a b = some .lt ↔ ∃ i, (∀ j, j < i → a j = b j) ∧ a i < b i := by
    intro a b; rw [key]; simp [hEq, hLt]
  have gt : ∀ a b : Vec T n, vecThree threeOrd a b = some .gt ↔ ∃ i, (∀ j, j < i → a j = b j) ∧ b i < a i := by
    intro a b; rw [key]; simp [hEq, hGt]
  refine ⟨lt a b, ?_, ?_, ?_, ?_, ?_⟩
  · rw [gt, lt]
    exact exists_congr fun i => and_congr_left fun _ => forall_congr' fun j => imp_congr_right fun _ => eq_comm
  · rw [key]; simp [hEq, funext_iff]
  · intro h
    rcases (key a b none).mp h with ⟨h, _⟩ | ⟨_, i, _, h⟩
    · cases h
    · exact hN _ _ h
  · rw [lt, lt, lt]
    rintro ⟨i, h1, h2⟩ ⟨j, h3, h4⟩
    rcases lt_trichotomy i j with h | h | h
    · exact ⟨i, fun k hk => (h1 k hk).trans (h3 k (hk.trans h)), by rw [← h3 i h]; exact h2⟩
    · subst h; exact ⟨i, fun k hk => (h1 k hk).trans (h3 k hk), h2.trans h4⟩
    · exact ⟨j, fun k hk => (h1 k (hk.trans h)).trans (h3 k hk), by rw [h1 j h]; exact h4⟩
  · unfold vecEq vecMembers; rw [eqMembers_iff]; simp [funext_iff]

example : vecThree threeOrd (![1, 2, 3] : Vec Int 3) ![1, 3, 0] = some .lt := by decide

theorem threeOrd_eq [LinearOrder T] (x y : T) : threeOrd x y = some .eq ↔ x = y := by
  unfold threeOrd
  split_ifs with h1 h2
  · exact ⟨fun h => (by cases h), fun h => absurd (h ▸ h1) (lt_irrefl _)⟩
  · exact ⟨fun _ => h2, fun _ => rfl⟩
  · exact ⟨fun h => (by cases h), fun h => absurd h h2⟩

theorem threeOrd_lt [LinearOrder T] (x y : T) : threeOrd x y = some .lt ↔ x < y := by
  unfold threeOrd
  split_ifs with h1 h2
  · exact ⟨fun _ => h1, fun _ => rfl⟩
  · exact ⟨fun h => (by cases h), fun h => absurd h h1⟩
  · exact ⟨fun h => (by cases h), fun h => absurd h h1⟩

theorem threeOrd_gt [LinearOrder T] (x y : T) : threeOrd x y = some .gt ↔ y < x := by
  unfold threeOrd
  split_ifs with h1 h2
  · exact ⟨fun h => (by cases h), fun h => absurd h (lt_asymm h1)⟩
  · exact ⟨fun h => (by cases h), fun h => absurd (h2 ▸ h) (lt_irrefl _)⟩
  · exact ⟨fun _ => lt_of_le_of_ne (not_lt.mp h1) (Ne.symm h2), fun _ => rfl⟩

/-- The same for matrices, whose entries are compared going down the columns, and for quaternions. -/
theorem compare_total_order_matrix [LinearOrder T] {c r : Nat} (m k l : Mat T c r) (p q s : Quat T) :
    (matThree threeOrd m k = some .lt ↔
      ∃ i j, (∀ i' j', i' < i ∨ i' = i ∧ j' < j → m i' j' = k i' j') ∧ m i j < k i j) ∧
    (matThree threeOrd m k = some .gt ↔ matThree threeOrd k m = some .lt) ∧
    (matThree threeOrd m k = some .eq ↔ m = k) ∧ matThree threeOrd m k ≠ none ∧
    (matThree threeOrd m k = some .lt → matThree threeOrd k l = some .lt → matThree threeOrd m l = some .lt) ∧
    (matEq (fun x y => decide (x = y)) m k = true ↔ m = k) ∧
    (quatThree threeOrd p q = some .lt ↔ p.w < q.w ∨ p.w = q.w ∧ (p.x < q.x ∨ p.x = q.x ∧
      (p.y < q.y ∨ p.y = q.y ∧ p.z < q.z))) ∧
    (quatThree threeOrd p q = some .gt ↔ quatThree threeOrd q p = some .lt) ∧
    (quatThree threeOrd p q = some .eq ↔ p = q) ∧ quatThree threeOrd p q ≠ none ∧
    (quatThree threeOrd p q = some .lt → quatThree threeOrd q s = some .lt → quatThree threeOrd p s = some .lt) ∧
    (quatEq (fun x y => decide (x = y)) p q = true ↔ p = q) := by
  have key : ∀ (m k : Mat T c r) (o : Option Ordering), matThree threeOrd m k = o ↔
      (o = some .eq ∧ ∀ i j, threeOrd (m i j) (k i j) = some .eq) ∨
      (o ≠ some .eq ∧ ∃ i j, (∀ i' j', i' < i ∨ i' = i ∧ j' < j → threeOrd (m i' j') (k i' j') = some .eq) ∧
        threeOrd (m i j) (k i j) = o) :=
    fun m k o => (compare_first_difference (n := 0) (fun _ _ => true) threeOrd (fun i => i.elim0)
      (fun i => i.elim0) m k p q o).2.2.2.2.1
  have lt : ∀ m k : Mat T c r, matThree threeOrd m k = some .lt ↔
      ∃ i j, (∀ i' j', i' < i ∨ i' = i ∧ j' < j → m i' j' = k i' j') ∧ m i j < k i j := by
    intro m k; rw [key]
    simp only [threeOrd_eq, threeOrd_lt, ne_eq, Option.some.injEq, reduceCtorEq, false_and, not_false_eq_true,
      true_and, false_or]
  have gt : ∀ m k : Mat T c r, matThree threeOrd m k = some .gt ↔
      ∃ i j, (∀ i' j', i' < i ∨ i' = i ∧ j' < j → m i' j' = k i' j') ∧ k i j < m i j := by
    intro m k; rw [key]
    simp only [threeOrd_eq, threeOrd_gt, ne_eq, Option.some.injEq, reduceCtorEq, false_and, not_false_eq_true,
      true_and, false_or]
  have hq : ∀ p q : Quat T, quatThree threeOrd p q = vecThree threeOrd ![p.w, p.x, p.y, p.z] ![q.w, q.x, q.y, q.z] :=
    fun _ _ => rfl
  have inj : ∀ p q : Quat T, (![p.w, p.x, p.y, p.z] : Vec T 4) = ![q.w, q.x, q.y, q.z] ↔ p = q := by
    intro p q
    constructor
    · intro h
      exact Quat.ext (congrFun h 0) (congrFun h 1) (congrFun h 2) (congrFun h 3)
    · rintro rfl; rfl
  obtain ⟨q1, q2, q3, q4, q5, -⟩ := compare_total_order (![p.w, p.x, p.y, p.z] : Vec T 4) ![q.w, q.x, q.y, q.z]
    ![s.w, s.x, s.y, s.z]
  refine ⟨lt m k, ?_, ?_, ?_, ?_, ?_, ?_, q2, q3.trans (inj p q), q4, q5, ?_⟩
  · rw [gt, lt]
    exact exists_congr fun i => exists_congr fun j => and_congr_left fun _ =>
      forall_congr' fun i' => forall_congr' fun j' => imp_congr_right fun _ => eq_comm
  · rw [key]; simp [threeOrd_eq, funext_iff]
  · intro h
    rcases (key m k none).mp h with ⟨h, _⟩ | ⟨_, i, j, _, h⟩
    · cases h
    · revert h; unfold threeOrd; split_ifs <;> simp
  · rw [lt, lt, lt]
    rintro ⟨i, j, h1, h2⟩ ⟨i', j', h3, h4⟩
    have before : ∀ {i i' x : Fin c} {j j' y : Fin r}, (x < i ∨ x = i ∧ y < j) → (i < i' ∨ i = i' ∧ j < j') →
        x < i' ∨ x = i' ∧ y < j' := by
      intro i i' x j j' y h h'
      rcases h with h | ⟨rfl, h⟩ <;> rcases h' with h' | ⟨rfl, h'⟩
      · exact Or.inl (h.trans h')
      · exact Or.inl h
      · exact Or.inl h'
      · exact Or.inr ⟨rfl, h.trans h'⟩
    have cases3 : (i < i' ∨ i = i' ∧ j < j') ∨ (i = i' ∧ j = j') ∨ (i' < i ∨ i' = i ∧ j' < j) := by
      rcases lt_trichotomy i i' with h | h | h
      · exact Or.inl (Or.inl h)
      · rcases lt_trichotomy j j' with h' | h' | h'
        · exact Or.inl (Or.inr ⟨h, h'⟩)
        · exact Or.inr (Or.inl ⟨h, h'⟩)
        · exact Or.inr (Or.inr (Or.inr ⟨h.symm, h'⟩))
      · exact Or.inr (Or.inr (Or.inl h))
    rcases cases3 with h | ⟨rfl, rfl⟩ | h
    · exact ⟨i, j, fun x y hx => (h1 x y hx).trans (h3 x y (before hx h)), by rw [← h3 i j h]; exact h2⟩
    · exact ⟨i, j, fun x y hx => (h1 x y hx).trans (h3 x y hx), h2.trans h4⟩
    · exact ⟨i', j', fun x y hx => (h1 x y (before hx h)).trans (h3 x y hx), by rw [h1 i' j' h]; exact h4⟩
  · rw [(compare_first_difference (n := 0) (fun x y => decide (x = y)) threeOrd (fun i => i.elim0)
      (fun i => i.elim0) m k p q none).2.1]
    simp [funext_iff]
  · rw [hq, q1]
    constructor
    · rintro ⟨i, h1, h2⟩
      fin_cases i
      · exact Or.inl h2
      · exact Or.inr ⟨h1 0 (by decide), Or.inl h2⟩
      · exact Or.inr ⟨h1 0 (by decide), Or.inr ⟨h1 1 (by decide), Or.inl h2⟩⟩
      · exact Or.inr ⟨h1 0 (by decide), Or.inr ⟨h1 1 (by decide), Or.inr ⟨h1 2 (by decide), h2⟩⟩⟩
    · rintro (h | ⟨h0, h | ⟨h1, h | ⟨h2, h⟩⟩⟩)
      · exact ⟨0, fun j hj => absurd hj (by simp), h⟩
      · refine ⟨1, fun j hj => ?_, h⟩
        fin_cases j <;> first | exact h0 | exact absurd hj (by decide)
      · refine ⟨2, fun j hj => ?_, h⟩
        fin_cases j <;> first | exact h0 | exact h1 | exact absurd hj (by decide)
      · refine ⟨3, fun j hj => ?_, h⟩
        fin_cases j <;> first | exact h0 | exact h1 | exact h2 | exact absurd hj (by decide)
  · rw [(compare_first_difference (n := 0) (c := 0) (r := 0) (fun x y => decide (x = y)) threeOrd (fun i => i.elim0)
      (fun i => i.elim0) (fun i => i.elim0) (fun i => i.elim0) p q none).2.2.1]
    simp [Quat.ext_iff]

example : matThree threeOrd (![![1, 5], ![3, 4]] : Mat Int 2 2) ![![1, 2], ![9, 9]] = some .gt ∧
    quatThree threeOrd (⟨1, 2, 3, 4⟩ : Quat Int) ⟨1, 2, 4, 0⟩ = some .lt := by decide

end Compare

/-- The built-in comparison of a floating-point type; `none` stands for NaN. -/
def threeFloat (x y : Option ℤ) : Option Ordering :=
  match x, y with
  | some x, some y => threeOrd x y
  | _, _ => none

/-- The built-in `==` of a floating-point type. -/
def eqFloat (x y : Option ℤ) : Bool :=
  match x, y with
  | some x, some y => decide (x = y)
  | _, _ => false

/-- With NaN: a vector with a NaN component is not equal to itself, and not ordered relative to itself; a difference
before the NaN still decides. -/
theorem compare_nan {n : Nat} (a : Vec (Option ℤ) n) (i : Fin n) (h : a i = none) :
    vecEq eqFloat a a = false ∧ vecThree threeFloat a a = none ∧
    vecThree threeFloat (![some 1, none] : Vec (Option ℤ) 2) ![some 2, none] = some .lt := by
  refine ⟨?_, ?_, by decide⟩
  · rw [Bool.eq_false_iff]
    intro hc
    have := (eqMembers_iff eqFloat (vecMembers a a)).mp hc (a i, a i) (List.mem_map.mpr ⟨i, by simp, rfl⟩)
    rw [h] at this; cases this
  · unfold vecThree vecMembers
    rw [members_iff]
    right
    refine ⟨by simp, ?_⟩
    classical
    have hex : ∃ k, ∃ hk : k < n, a ⟨k, hk⟩ = none := ⟨i.val, i.isLt, h⟩
    obtain ⟨hk, hn⟩ := Nat.find_spec hex
    refine ⟨⟨Nat.find hex, hk⟩, fun j hj => ?_, by rw [hn]; rfl⟩
    have hj' : ¬∃ hk : j.val < n, a ⟨j.val, hk⟩ = none := Nat.find_min hex hj
    cases hx : a j with
    | none => exact absurd ⟨j.isLt, hx⟩ hj'
    | some x => simp [threeFloat, threeOrd]

example : vecThree threeFloat (![some 1, none] : Vec (Option ℤ) 2) ![some 1, none] = none :=
  (compare_nan ![some 1, none] 1 rfl).2.1

end Verif.Math
