import Verif.AlignedData.Pool
import Verif.AlignedData.Props
import Mathlib.Data.List.Nodup
import Mathlib.Logic.Function.Basic

/-! # A pool of objects (C182) -/

set_option autoImplicit false

namespace Verif.AD

/-! ### Specification -/

/-- The objects of the program, by address, with the bytes they should have. -/
abbrev Live := Nat → Option (Nat → UInt8)

/-- What a program can do with a pool of `n` slots: acquire objects, release objects it has, write to objects it has. -/
inductive Hist (t : Ty) (align a n : Nat) (m : Mem) : Pool → Live → Prop
  | start : Hist t align a n m (Pool.fresh t align a n m) fun _ => none
  | got {s s' : Pool} {L : Live} {bytes : Nat → UInt8} {p : Nat} : Hist t align a n m s L →
      s.acquire t align a bytes = some (s', some p) → Hist t align a n m s' (Function.update L p (some bytes))
  | full {s s' : Pool} {L : Live} {bytes : Nat → UInt8} : Hist t align a n m s L →
      s.acquire t align a bytes = some (s', none) → Hist t align a n m s' L
  | release {s : Pool} {L : Live} {p : Nat} : Hist t align a n m s L → (L p).isSome → Hist t align a n m (s.release t align a p)
      (Function.update L p none)
  | write {s : Pool} {L : Live} {p off : Nat} {c : Nat → UInt8} {b : UInt8} : Hist t align a n m s L → L p = some c → off < t.size →
      Hist t align a n m (s.write p off b) (Function.update L p (some (Function.update c off b)))

/-! ### Lemmas -/

section

variable {t : Ty} {align a n : Nat} {m : Mem}

/-- What holds between the calls. -/
structure PoolInv (t : Ty) (align a n : Nat) (m : Mem) (s : Pool) (L : Live) : Prop where
  nodup : s.free.Nodup
  below : ∀ i ∈ s.free, i < n
  live : ∀ p, (L p).isSome ↔ ∃ i < n, i ∉ s.free ∧ p = element (dataTy t align) a i
  content : ∀ p c, L p = some c → ∀ k < t.size, s.mem (p + k) = c k
  outside : ∀ q, ¬(a ≤ q ∧ q < a + n * (dataTy t align).size) → s.mem q = m q

theorem element_apart (hs : t.size ≤ (dataTy t align).size) {i j : Nat} (h : i < j) :
    element (dataTy t align) a i + t.size ≤ element (dataTy t align) a j := by
  unfold element
  have : (i + 1) * (dataTy t align).size ≤ j * (dataTy t align).size := Nat.mul_le_mul_right _ h
  rw [Nat.add_mul, Nat.one_mul] at this
  omega

theorem element_inside (hs : t.size ≤ (dataTy t align).size) {i : Nat} (h : i < n) :
    a ≤ element (dataTy t align) a i ∧ element (dataTy t align) a i + t.size ≤ a + n * (dataTy t align).size := by
  refine ⟨by unfold element; omega, ?_⟩
  have := element_apart (t := t) (align := align) (a := a) hs h
  unfold element at this ⊢
  omega

theorem element_inj (hs : t.size ≤ (dataTy t align).size) (hp : 0 < t.size) {i j : Nat}
    (h : element (dataTy t align) a i = element (dataTy t align) a j) : i = j := by
  rcases Nat.lt_trichotomy i j with g | g | g
  · have := element_apart (t := t) (align := align) (a := a) hs g; omega
  · exact g
  · have := element_apart (t := t) (align := align) (a := a) hs g; omega

theorem zeroSlots_outside (hs : t.size ≤ (dataTy t align).size) : ∀ (k i : Nat) (m : Mem) (q : Nat), i + k ≤ n →
    ¬(a ≤ q ∧ q < a + n * (dataTy t align).size) → zeroSlots t align a k i m q = m q
  | 0, _, _, _, _, _ => rfl
  | k + 1, i, m, q, hi, hq => by
    rw [zeroSlots, zeroSlots_outside hs k (i + 1) _ q (by omega) hq]
    have := element_inside (t := t) (align := align) (a := a) (n := n) hs (i := i) (by omega)
    unfold construct0
    rw [if_neg]
    omega

theorem pool_inv (hal : accepts align = true) (hp : 0 < t.size) {s : Pool} {L : Live} (h : Hist t align a n m s L) : PoolInv t align a n m s L := by
  obtain ⟨k, hk⟩ := (accepts_iff _).mp hal
  have hpos : 0 < align := by rw [hk]; exact Nat.pow_pos (by omega)
  have hs : t.size ≤ (dataTy t align).size := (roundUp_spec t.size align hpos).2.1
  induction h with
  | start =>
    refine ⟨List.nodup_range, fun i hi => List.mem_range.mp hi, ?_, fun p c hc => (by cases hc), fun q hq => ?_⟩
    · intro p
      refine ⟨fun g => by simp at g, ?_⟩
      rintro ⟨i, hi, hn, -⟩
      exact absurd (List.mem_range.mpr hi) hn
    · exact zeroSlots_outside hs n 0 m q (by omega) hq
  | @got s s' L bytes p _ hacq ih =>
    unfold Pool.acquire at hacq
    cases hf : s.free with
    | nil => rw [hf] at hacq; simp at hacq
    | cons i free =>
      rw [hf] at hacq
      simp only [Option.map_eq_some_iff, Prod.mk.injEq, Option.some.injEq] at hacq
      obtain ⟨m', hm', rfl, rfl⟩ := hacq
      unfold constructAt at hm'
      split at hm'
      · cases hm'
        have hi : i < n := ih.below i (by rw [hf]; simp)
        have hnd := ih.nodup
        rw [hf, List.nodup_cons] at hnd
        have hin := element_inside (t := t) (align := align) (a := a) (n := n) hs hi
        refine ⟨hnd.2, fun j hj => ih.below j (by rw [hf]; simp [hj]), ?_, ?_, ?_⟩
        · intro q
          by_cases hq : q = data (element (dataTy t align) a i)
          · subst hq
            simp only [Function.update_self, Option.isSome_some, true_iff]
            exact ⟨i, hi, hnd.1, rfl⟩
          · rw [Function.update_of_ne hq, ih.live q, hf]
            constructor
            · rintro ⟨j, h1, h2, rfl⟩
              exact ⟨j, h1, fun g => h2 (by simp [g]), rfl⟩
            · rintro ⟨j, h1, h2, rfl⟩
              refine ⟨j, h1, ?_, rfl⟩
              rw [List.mem_cons, not_or]
              exact ⟨fun g => hq (by rw [g]; rfl), h2⟩
        · intro q c hc k hk'
          by_cases hq : q = data (element (dataTy t align) a i)
          · subst hq
            rw [Function.update_self] at hc
            cases hc
            simp only
            rw [if_pos ⟨by omega, by omega⟩]
            congr 1; omega
          · rw [Function.update_of_ne hq] at hc
            obtain ⟨j, h1, h2, rfl⟩ := (ih.live q).mp (by rw [hc]; rfl)
            have hij : i ≠ j := fun g => h2 (by rw [hf, g]; simp)
            simp only
            rw [if_neg, ih.content _ c hc k hk']
            unfold data address
            rcases Nat.lt_or_gt_of_ne hij with g | g
            · have := element_apart (t := t) (align := align) (a := a) hs g; omega
            · have := element_apart (t := t) (align := align) (a := a) hs g; omega
        · intro q hq
          simp only
          rw [if_neg, ih.outside q hq]
          unfold data address
          omega
      · cases hm'
  | @full s s' L bytes _ hacq ih =>
    unfold Pool.acquire at hacq
    cases hf : s.free with
    | nil =>
      rw [hf] at hacq
      simp only [Option.some.injEq, Prod.mk.injEq, and_true] at hacq
      rw [← hacq]; exact ih
    | cons i free =>
      rw [hf] at hacq
      simp at hacq
  | @release s L p _ hl ih =>
    obtain ⟨i, hi, hn, rfl⟩ := (ih.live p).mp hl
    have hidx : (element (dataTy t align) a i - a) / (dataTy t align).size = i := by
      unfold element
      rw [Nat.add_sub_cancel_left, Nat.mul_div_cancel _ (by omega)]
    refine ⟨?_, ?_, ?_, ?_, ih.outside⟩
    · simp only [Pool.release, hidx]
      exact List.nodup_cons.mpr ⟨hn, ih.nodup⟩
    · intro j hj
      simp only [Pool.release, hidx, List.mem_cons] at hj
      rcases hj with rfl | hj
      · exact hi
      · exact ih.below j hj
    · intro q
      simp only [Pool.release, hidx, List.mem_cons, not_or]
      by_cases hq : q = element (dataTy t align) a i
      · subst hq
        simp only [Function.update_self, Option.isSome_none, Bool.false_eq_true, false_iff]
        rintro ⟨j, -, ⟨h2, -⟩, h3⟩
        exact h2 (element_inj hs hp h3).symm
      · rw [Function.update_of_ne hq, ih.live q]
        constructor
        · rintro ⟨j, h1, h2, rfl⟩
          exact ⟨j, h1, ⟨fun g => hq (by rw [g]), h2⟩, rfl⟩
        · rintro ⟨j, h1, ⟨-, h2⟩, rfl⟩
          exact ⟨j, h1, h2, rfl⟩
    · intro q c hc
      by_cases hq : q = element (dataTy t align) a i
      · subst hq; simp at hc
      · rw [Function.update_of_ne hq] at hc
        exact ih.content q c hc
  | @write s L p off c b _ hl ho ih =>
    obtain ⟨i, hi, hn, rfl⟩ := (ih.live p).mp (by rw [hl]; rfl)
    have hin := element_inside (t := t) (align := align) (a := a) (n := n) hs hi
    refine ⟨ih.nodup, ih.below, ?_, ?_, ?_⟩
    · intro q
      by_cases hq : q = element (dataTy t align) a i
      · subst hq
        rw [Function.update_self]
        simp only [Option.isSome_some, true_iff]
        exact ⟨i, hi, hn, rfl⟩
      · rw [Function.update_of_ne hq]; exact ih.live q
    · intro q c' hc k hk'
      simp only [Pool.write]
      by_cases hq : q = element (dataTy t align) a i
      · subst hq
        rw [Function.update_self] at hc
        cases hc
        by_cases hko : k = off
        · subst hko; rw [if_pos rfl, Function.update_self]
        · rw [if_neg (by omega), Function.update_of_ne hko]
          exact ih.content _ c hl k hk'
      · rw [Function.update_of_ne hq] at hc
        obtain ⟨j, h1, h2, rfl⟩ := (ih.live q).mp (by rw [hc]; rfl)
        have hij : i ≠ j := fun g => hq (by rw [g])
        rw [if_neg, ih.content _ c' hc k hk']
        rcases Nat.lt_or_gt_of_ne hij with g | g
        · have := element_apart (t := t) (align := align) (a := a) hs g; omega
        · have := element_apart (t := t) (align := align) (a := a) hs g; omega
    · intro q hq
      simp only [Pool.write]
      rw [if_neg (by omega), ih.outside q hq]

/-! ### C182 -/

/-- C182. After every history of a pool of `n` slots of an alignment not below that of the type: every object of the program is aligned,
lies in the pool, overlaps no other object and has the bytes last written to it; nothing outside the pool has changed; acquiring
is defined, fails exactly if there are `n` objects, and otherwise gives an address at which there is no object yet. -/
theorem pool_history (ht : accepts t.align = true) (hal : accepts align = true) (hle : t.align ≤ align) (hp : 0 < t.size)
    (ha : a % align = 0) {s : Pool} {L : Live} (h : Hist t align a n m s L) :
    (∀ p c, L p = some c → p % align = 0 ∧ p % t.align = 0 ∧ (a ≤ p ∧ p + t.size ≤ a + n * (dataTy t align).size) ∧
      (∀ k < t.size, s.mem (p + k) = c k) ∧ ∀ q, (L q).isSome → q ≠ p → q + t.size ≤ p ∨ p + t.size ≤ q) ∧
    (∀ q, ¬(a ≤ q ∧ q < a + n * (dataTy t align).size) → s.mem q = m q) ∧
    (∃ ps : List Nat, ps.Nodup ∧ (∀ p, p ∈ ps ↔ (L p).isSome) ∧ ps.length ≤ n ∧
      ∀ bytes, ∃ s' r, s.acquire t align a bytes = some (s', r) ∧ (r = none ↔ ps.length = n) ∧ ∀ p, r = some p → L p = none) := by
  have inv := pool_inv hal hp h
  obtain ⟨k, hk⟩ := (accepts_iff _).mp hal
  obtain ⟨l, hl⟩ := (accepts_iff _).mp ht
  have hpos : 0 < align := by rw [hk]; exact Nat.pow_pos (by omega)
  have hs : t.size ≤ (dataTy t align).size := (roundUp_spec t.size align hpos).2.1
  have hd : t.align ∣ align := by
    rw [hk, hl] at hle ⊢
    exact pow_dvd_pow 2 ((Nat.pow_le_pow_iff_right (by omega)).mp hle)
  have hel : ∀ i, align ∣ element (dataTy t align) a i := fun i =>
    (Nat.dvd_add_right (Nat.dvd_of_mod_eq_zero ha)).mpr (Dvd.dvd.mul_left (roundUp_spec t.size align hpos).1 i)
  refine ⟨?_, inv.outside, ?_⟩
  · intro p c hc
    obtain ⟨i, hi, hn, rfl⟩ := (inv.live p).mp (by rw [hc]; rfl)
    refine ⟨Nat.mod_eq_zero_of_dvd (hel i), Nat.mod_eq_zero_of_dvd (hd.trans (hel i)), element_inside hs hi,
      inv.content _ c hc, ?_⟩
    intro q hq hne
    obtain ⟨j, hj, hn', rfl⟩ := (inv.live q).mp hq
    have hij : i ≠ j := fun g => hne (by rw [g])
    rcases Nat.lt_or_gt_of_ne hij with g | g
    · exact Or.inr (element_apart hs g)
    · exact Or.inl (element_apart hs g)
  · have hlen : ((List.range n).filter fun i => !decide (i ∈ s.free)).length + s.free.length = n := by
      have h1 := List.length_eq_length_filter_add (l := List.range n) fun i => decide (i ∈ s.free)
      have h2 : ((List.range n).filter fun i => decide (i ∈ s.free)).Perm s.free :=
        (List.perm_ext_iff_of_nodup (List.nodup_range.filter _) inv.nodup).mpr fun i => by
          simp only [List.mem_filter, List.mem_range, decide_eq_true_eq]
          exact ⟨fun g => g.2, fun g => ⟨inv.below i g, g⟩⟩
      rw [h2.length_eq, List.length_range] at h1
      omega
    refine ⟨((List.range n).filter fun i => !decide (i ∈ s.free)).map (element (dataTy t align) a), ?_, ?_, ?_, ?_⟩
    · exact List.Nodup.map (fun i j g => element_inj hs hp g) (List.nodup_range.filter _)
    · intro p
      rw [inv.live p]
      simp only [List.mem_map, List.mem_filter, List.mem_range, Bool.not_eq_true', decide_eq_false_iff_not]
      constructor
      · rintro ⟨i, ⟨h1, h2⟩, rfl⟩; exact ⟨i, h1, h2, rfl⟩
      · rintro ⟨i, h1, h2, rfl⟩; exact ⟨i, ⟨h1, h2⟩, rfl⟩
    · rw [List.length_map]; omega
    · intro bytes
      rw [List.length_map]
      unfold Pool.acquire
      cases hf : s.free with
      | nil =>
        rw [hf] at hlen
        refine ⟨s, none, rfl, ⟨fun _ => ?_, fun _ => rfl⟩, fun p g => by cases g⟩
        rw [List.length_nil, Nat.add_zero] at hlen
        exact hlen
      | cons i free =>
        rw [hf] at hlen
        have h0 : data (element (dataTy t align) a i) % t.align = 0 := Nat.mod_eq_zero_of_dvd (hd.trans (hel i))
        simp only [constructAt, if_pos h0, Option.map_some]
        refine ⟨_, _, rfl, ⟨fun g => (by cases g), fun g => ?_⟩, ?_⟩
        · rw [List.length_cons] at hlen
          omega
        · rintro p ⟨⟩
          by_contra hne
          obtain ⟨j, -, h2, h3⟩ := (inv.live _).mp (Option.isSome_iff_ne_none.mpr hne)
          exact h2 (by rw [hf, ← element_inj hs hp h3]; simp)

end

/-- Two slots for objects of 5 bytes at multiples of 4, at address 16: two objects, then none, and after a release one again. -/
example (m : Mem) :
    ∃ s1 s2 s3, (Pool.fresh ⟨5, 1⟩ 4 16 2 m).acquire ⟨5, 1⟩ 4 16 (fun _ => 1) = some (s1, some 16) ∧
      s1.acquire ⟨5, 1⟩ 4 16 (fun _ => 2) = some (s2, some 24) ∧ s2.acquire ⟨5, 1⟩ 4 16 (fun _ => 3) = some (s2, none) ∧
      (s2.release ⟨5, 1⟩ 4 16 24).acquire ⟨5, 1⟩ 4 16 (fun _ => 3) = some (s3, some 24) ∧
      Hist ⟨5, 1⟩ 4 16 2 m s2 (Function.update (Function.update (fun _ => none) 16 (some fun _ => 1)) 24 (some fun _ => 2)) :=
  ⟨_, _, _, rfl, rfl, rfl, rfl, .got (.got .start rfl) rfl⟩

end Verif.AD
