import Verif.Math.Init
import Mathlib.Tactic.Common
import Mathlib.Tactic.IntervalCases

/-! # Properties: what vectors, matrices and quaternions are made from -/

set_option autoImplicit false

namespace Verif.MathInit

variable {K : Type} [DecidableEq K]

/-! ### Specification -/

/-- The number of components that an argument contributes. -/
def size : Arg K → Nat
  | .num _ => 1
  | .vec _ n => n
  | .mat _ c r => c * r
  | .quat _ => 4

/-- The components of the arguments, one argument after the other, from the argument `i` on. -/
def flatFrom (i : Nat) : List (Arg K) → List Src
  | [] => []
  | a :: l => (List.range (size a)).map (.arg i) ++ flatFrom (i + 1) l

def flat (l : List (Arg K)) : List Src := flatFrom 0 l

/-- The number of components of all arguments. -/
def total : List (Arg K) → Nat
  | [] => 0
  | a :: l => size a + total l

/-- A number, or a vector of at least two components. -/
def Piece : Arg K → Prop
  | .num _ => True
  | .vec _ n => 2 ≤ n
  | _ => False

/-- What the vectors of two, three and four components are made from: nothing, one number for all components, a vector of
the same size, or several numbers and vectors with the right number of components in total. -/
def VecMade (direct : Bool) (T : K) (n : Nat) (args : List (Arg K)) (comps : List Src) : Prop :=
  (args = [] ∧ comps = List.replicate n .junk) ∨
  (∃ k, args = [.num k] ∧ direct = true ∧ comps = List.replicate n (.arg 0 0)) ∨
  (∃ k, args = [.vec k n] ∧ (direct = true ∨ k = T) ∧ comps = flat args) ∨
  (2 ≤ args.length ∧ (∀ a ∈ args, Piece a) ∧ total args = n ∧ comps = flat args)

omit [DecidableEq K] in
theorem piece_size {a : Arg K} (h : Piece a) : 1 ≤ size a := by
  cases a with
  | num => exact Nat.le_refl _
  | vec k n => exact Nat.le_of_succ_le h
  | mat => exact h.elim
  | quat => exact h.elim

omit [DecidableEq K] in
theorem length_le_total : ∀ (l : List (Arg K)), (∀ a ∈ l, Piece a) → l.length ≤ total l
  | [], _ => Nat.le_refl _
  | a :: l, h => by
    have h1 := piece_size (h a List.mem_cons_self)
    have h2 := length_le_total l fun b hb => h b (List.mem_cons_of_mem _ hb)
    simp only [List.length_cons, total]
    omega

/-! ### Evaluation -/

omit [DecidableEq K] in
theorem isVec_iff {a : Arg K} {n : Nat} : a.isVec n = true ↔ ∃ k, a = .vec k n := by
  cases a <;> simp [Arg.isVec]

omit [DecidableEq K] in
theorem isNum_iff {a : Arg K} : a.isNum = true ↔ ∃ k, a = .num k := by
  cases a <;> simp [Arg.isNum]

omit [DecidableEq K] in
theorem scalars_ok {l : List (Item K)} {comps : List Src} :
    scalars l = .ok comps ↔ (∀ p ∈ l, p.1.isNum = true) ∧ comps = l.map (·.2) := by
  unfold scalars
  split
  · rename_i h
    rw [List.all_eq_true] at h
    simp only [Out.ok.injEq]
    exact ⟨fun e => ⟨h, e.symm⟩, fun e => e.2.symm⟩
  · rename_i h
    rw [List.all_eq_true] at h
    exact ⟨(fun e => nomatch e), (fun e => absurd e.1 h)⟩

omit [DecidableEq K] in
theorem isVec_both {a : Arg K} (h : a.isVec 2 = true) : a.isVec 3 = false ∧ a.isNum = false := by
  cases a with
  | vec k n => simp [Arg.isVec] at h; subst h; exact ⟨rfl, rfl⟩
  | _ => simp [Arg.isVec] at h

omit [DecidableEq K] in
theorem piece_cases {a : Arg K} (h : Piece a) {n : Nat} (hn : size a = n) :
    (n = 1 ∧ ∃ k, a = .num k) ∨ (2 ≤ n ∧ ∃ k, a = .vec k n) := by
  cases a with
  | num k => exact Or.inl ⟨hn.symm, k, rfl⟩
  | vec k m => cases hn; exact Or.inr ⟨h, k, rfl⟩
  | mat => exact h.elim
  | quat => exact h.elim

/-- Evaluates the initialisation of a vector from several arguments. -/
local macro "ev" : tactic => `(tactic| simp [vecInit, vecCtors, vec2, vec3, vec4, vecOwn, pick, splatC, spread, convC, *])

theorem eval22 (direct : Bool) (T : K) (a b : Arg K) : vecInit direct T 2 [a, b] = scalars [whole 0 a, whole 1 b] := by
  cases direct <;> ev

theorem eval23 (direct : Bool) (T : K) (a b c : Arg K) (l : List (Arg K)) : vecInit direct T 2 (a :: b :: c :: l) = .no := by
  cases direct <;> ev

theorem eval32 (direct : Bool) (T : K) (a b : Arg K) : vecInit direct T 3 [a, b] =
    match a.isVec 2, b.isVec 2 with
    | false, true => scalars (whole 0 a :: parts 1 b)
    | true, false => scalars (parts 0 a ++ [whole 1 b])
    | _, _ => .no := by
  cases ha : a.isVec 2 <;> cases hb : b.isVec 2 <;> cases direct <;> ev

theorem eval33 (direct : Bool) (T : K) (a b c : Arg K) :
    vecInit direct T 3 [a, b, c] = scalars [whole 0 a, whole 1 b, whole 2 c] := by
  cases direct <;> ev

theorem eval34 (direct : Bool) (T : K) (a b c d : Arg K) (l : List (Arg K)) :
    vecInit direct T 3 (a :: b :: c :: d :: l) = .no := by
  cases direct <;> ev

theorem eval42 (direct : Bool) (T : K) (a b : Arg K) : vecInit direct T 4 [a, b] =
    match a.isVec 3, b.isVec 3 with
    | false, true => scalars (whole 0 a :: parts 1 b)
    | true, false => scalars (parts 0 a ++ [whole 1 b])
    | true, true => .no
    | false, false => if a.isVec 2 ∧ b.isVec 2 then scalars (parts 0 a ++ parts 1 b) else .no := by
  have key : ∀ x : Arg K, x.isVec 3 = true → x.isVec 2 = false := fun x hx => by
    cases h : x.isVec 2 with
    | false => rfl
    | true => rw [(isVec_both h).1] at hx; cases hx
  cases ha : a.isVec 3 with
  | true =>
    have ha2 := key a ha
    cases hb : b.isVec 3 with
    | true => have hb2 := key b hb; cases direct <;> ev
    | false => cases direct <;> ev
  | false =>
    cases hb : b.isVec 3 with
    | true => have hb2 := key b hb; cases direct <;> ev
    | false => cases ha2 : a.isVec 2 <;> cases hb2 : b.isVec 2 <;> cases direct <;> ev

theorem eval43 (direct : Bool) (T : K) (a b c : Arg K) : vecInit direct T 4 [a, b, c] =
    match a.isVec 2, b.isVec 2, c.isVec 2 with
    | false, false, true => scalars (whole 0 a :: whole 1 b :: parts 2 c)
    | false, true, false => scalars (whole 0 a :: (parts 1 b ++ [whole 2 c]))
    | true, false, false => scalars (parts 0 a ++ [whole 1 b, whole 2 c])
    | _, _, _ => .no := by
  cases ha : a.isVec 2 <;> cases hb : b.isVec 2 <;> cases hc : c.isVec 2 <;> cases direct <;> ev

theorem eval44 (direct : Bool) (T : K) (a b c d : Arg K) :
    vecInit direct T 4 [a, b, c, d] = scalars [whole 0 a, whole 1 b, whole 2 c, whole 3 d] := by
  cases direct <;> ev

theorem eval45 (direct : Bool) (T : K) (a b c d e : Arg K) (l : List (Arg K)) :
    vecInit direct T 4 (a :: b :: c :: d :: e :: l) = .no := by
  cases direct <;> ev

theorem eval0 (direct : Bool) (T : K) (n : Nat) (hn : n = 2 ∨ n = 3 ∨ n = 4) :
    vecInit direct T n [] = .ok (List.replicate n .junk) := by
  rcases hn with rfl | rfl | rfl <;> cases direct <;> ev

theorem eval1 (direct : Bool) (T : K) (n : Nat) (hn : n = 2 ∨ n = 3 ∨ n = 4) (a : Arg K) : vecInit direct T n [a] =
    if a = .vec T n then copied n else if direct = false then .no
    else if a.isVec n then scalars (parts 0 a) else scalars (List.replicate n (whole 0 a)) := by
  by_cases h : a = .vec T n
  · rw [if_pos h]
    subst h
    rcases hn with rfl | rfl | rfl <;> cases direct <;>
      simp [vecInit, vecCtors, vec2, vec3, vec4, vecOwn, pick, splatC, spread, convC, Arg.isVec]
  · rw [if_neg h]
    cases hv : a.isVec n <;> rcases hn with rfl | rfl | rfl <;> cases direct <;> ev

/-! ### Vectors -/

omit [DecidableEq K] in
theorem scalars_parts {k : K} {i n : Nat} {comps : List Src} :
    scalars (parts i (.vec k n)) = .ok comps ↔ comps = (List.range n).map (.arg i) := by
  rw [scalars_ok]
  constructor
  · rintro ⟨-, rfl⟩; simp [parts, Function.comp_def]
  · rintro rfl; simp [parts, Function.comp_def, Arg.isNum]

omit [DecidableEq K] in
theorem made_cons2 {direct : Bool} {T : K} {n : Nat} {a b : Arg K} {l : List (Arg K)} {comps : List Src} :
    VecMade direct T n (a :: b :: l) comps ↔ (∀ x ∈ a :: b :: l, Piece x) ∧ total (a :: b :: l) = n ∧
      comps = flat (a :: b :: l) := by
  constructor
  · rintro (⟨h, _⟩ | ⟨k, h, _⟩ | ⟨k, h, _⟩ | ⟨_, h⟩)
    · cases h
    · cases h
    · cases h
    · exact h
  · exact fun h => Or.inr (Or.inr (Or.inr ⟨by simp, h⟩))

omit [DecidableEq K] in
theorem made1 {direct : Bool} {T : K} {n : Nat} {a : Arg K} {comps : List Src} :
    VecMade direct T n [a] comps ↔ (∃ k, a = .num k ∧ direct = true ∧ comps = List.replicate n (.arg 0 0)) ∨
      (∃ k, a = .vec k n ∧ (direct = true ∨ k = T) ∧ comps = (List.range n).map (.arg 0)) := by
  constructor
  · rintro (⟨h, _⟩ | ⟨k, h, h1⟩ | ⟨k, h, h1, h2⟩ | ⟨h, _⟩)
    · cases h
    · cases h; exact Or.inl ⟨k, rfl, h1⟩
    · cases h; exact Or.inr ⟨k, rfl, h1, by simpa [flat, flatFrom, size] using h2⟩
    · simp at h
  · rintro (⟨k, rfl, h⟩ | ⟨k, rfl, h, h2⟩)
    · exact Or.inr (Or.inl ⟨k, rfl, h⟩)
    · exact Or.inr (Or.inr (Or.inl ⟨k, rfl, h, by simpa [flat, flatFrom, size] using h2⟩))

theorem exact1 (direct : Bool) (T : K) (n : Nat) (hn : n = 2 ∨ n = 3 ∨ n = 4) (a : Arg K) (comps : List Src) :
    vecInit direct T n [a] = .ok comps ↔ VecMade direct T n [a] comps := by
  rw [eval1 direct T n hn, made1]
  split
  · rename_i h
    subst h
    simp only [copied, Out.ok.injEq]
    constructor
    · rintro rfl; exact Or.inr ⟨T, rfl, Or.inr rfl, rfl⟩
    · rintro (⟨k, h, _⟩ | ⟨k, h, _, rfl⟩)
      · cases h
      · rfl
  · rename_i h
    split
    · rename_i hd
      subst hd
      constructor
      · exact fun h => nomatch h
      · rintro (⟨k, _, h, _⟩ | ⟨k, h1, h2, _⟩)
        · cases h
        · rcases h2 with h2 | h2
          · cases h2
          · exact absurd (h2 ▸ h1) h
    · rename_i hd
      have hd : direct = true := by cases direct with | true => rfl | false => exact absurd rfl hd
      split
      · rename_i hv
        obtain ⟨k, rfl⟩ := isVec_iff.1 hv
        rw [scalars_parts]
        constructor
        · exact fun h => Or.inr ⟨k, rfl, Or.inl hd, h⟩
        · rintro (⟨k, h, _⟩ | ⟨k, _, _, h⟩)
          · cases h
          · exact h
      · rename_i hv
        rw [scalars_ok]
        constructor
        · rintro ⟨h1, h2⟩
          obtain ⟨k, rfl⟩ := isNum_iff.1 (h1 (whole 0 a) (List.mem_replicate.2 ⟨by omega, rfl⟩))
          exact Or.inl ⟨k, rfl, hd, by rw [h2, List.map_replicate]; rfl⟩
        · rintro (⟨k, rfl, _, rfl⟩ | ⟨k, rfl, _⟩)
          · refine ⟨fun p hp => ?_, by rw [List.map_replicate]; rfl⟩
            rw [(List.mem_replicate.1 hp).2]; rfl
          · simp [Arg.isVec] at hv

theorem exact2 (direct : Bool) (T : K) (args : List (Arg K)) (comps : List Src) :
    vecInit direct T 2 args = .ok comps ↔ VecMade direct T 2 args comps := by
  match args with
  | [] => rw [eval0 _ _ _ (by omega)]; simp [VecMade, total]; exact eq_comm
  | [a] => exact exact1 _ _ _ (by omega) _ _
  | [a, b] =>
    rw [eval22, made_cons2]
    constructor
    · intro h
      rw [scalars_ok] at h
      obtain ⟨h, rfl⟩ := h
      obtain ⟨k, hk⟩ := isNum_iff.1 (h (whole 0 a) (by simp))
      obtain ⟨k', hk'⟩ := isNum_iff.1 (h (whole 1 b) (by simp))
      simp only [whole] at hk hk'
      subst hk hk'
      simp [Piece, total, size, flat, flatFrom, whole]
    · rintro ⟨h1, h2, rfl⟩
      have ha := h1 a (by simp)
      have hb := h1 b (by simp)
      have := piece_size ha
      have := piece_size hb
      simp only [total] at h2
      rcases piece_cases ha rfl with ⟨ha, k, rfl⟩ | ⟨ha, _⟩
      · rcases piece_cases hb rfl with ⟨hb, k', rfl⟩ | ⟨hb, _⟩
        · rfl
        · omega
      · omega
  | a :: b :: c :: l =>
    rw [eval23, made_cons2]
    refine ⟨(fun h => nomatch h), fun ⟨h1, h2, _⟩ => ?_⟩
    have := length_le_total _ h1
    simp at this
    omega

theorem exact3 (direct : Bool) (T : K) (args : List (Arg K)) (comps : List Src) :
    vecInit direct T 3 args = .ok comps ↔ VecMade direct T 3 args comps := by
  match args with
  | [] => rw [eval0 _ _ _ (by omega)]; simp [VecMade, total]; exact eq_comm
  | [a] => exact exact1 _ _ _ (by omega) _ _
  | [a, b] =>
    rw [eval32, made_cons2]
    constructor
    · intro h
      split at h
      · rename_i ha hb
        obtain ⟨k', rfl⟩ := isVec_iff.1 hb
        rw [scalars_ok] at h
        obtain ⟨h, rfl⟩ := h
        obtain ⟨k, hk⟩ := isNum_iff.1 (h (whole 0 a) (by simp))
        simp only [whole] at hk
        subst hk
        simp [Piece, total, size, flat, flatFrom, whole, parts, Function.comp_def]
      · rename_i ha hb
        obtain ⟨k', rfl⟩ := isVec_iff.1 ha
        rw [scalars_ok] at h
        obtain ⟨h, rfl⟩ := h
        obtain ⟨k, hk⟩ := isNum_iff.1 (h (whole 1 b) (by simp))
        simp only [whole] at hk
        subst hk
        simp [Piece, total, size, flat, flatFrom, whole, parts, Function.comp_def]
      · cases h
    · rintro ⟨h1, h2, rfl⟩
      have ha := h1 a (by simp)
      have hb := h1 b (by simp)
      have := piece_size ha
      have := piece_size hb
      simp only [total] at h2
      rcases piece_cases ha rfl with ⟨ha, k, rfl⟩ | ⟨ha, k, he⟩
      · rcases piece_cases hb rfl with ⟨hb, k', rfl⟩ | ⟨hb, k', he⟩
        · simp [size] at h2
        · rw [show size b = 2 by omega] at he
          subst he
          rfl
      · rcases piece_cases hb rfl with ⟨hb, k', rfl⟩ | ⟨hb, k', he'⟩
        · rw [show size a = 2 by omega] at he
          subst he
          rfl
        · omega
  | [a, b, c] =>
    rw [eval33, made_cons2]
    constructor
    · intro h
      rw [scalars_ok] at h
      obtain ⟨h, rfl⟩ := h
      obtain ⟨k, hk⟩ := isNum_iff.1 (h (whole 0 a) (by simp))
      obtain ⟨k', hk'⟩ := isNum_iff.1 (h (whole 1 b) (by simp))
      obtain ⟨k'', hk''⟩ := isNum_iff.1 (h (whole 2 c) (by simp))
      simp only [whole] at hk hk' hk''
      subst hk hk' hk''
      simp [Piece, total, size, flat, flatFrom, whole]
    · rintro ⟨h1, h2, rfl⟩
      have ha := h1 a (by simp)
      have hb := h1 b (by simp)
      have hc := h1 c (by simp)
      have := piece_size ha
      have := piece_size hb
      have := piece_size hc
      simp only [total] at h2
      rcases piece_cases ha rfl with ⟨_, k, rfl⟩ | ⟨_, _⟩ <;> rcases piece_cases hb rfl with ⟨_, k', rfl⟩ | ⟨_, _⟩ <;>
        rcases piece_cases hc rfl with ⟨_, k'', rfl⟩ | ⟨_, _⟩ <;> first | rfl | omega
  | a :: b :: c :: d :: l =>
    rw [eval34, made_cons2]
    refine ⟨(fun h => nomatch h), fun ⟨h1, h2, _⟩ => ?_⟩
    have := length_le_total _ h1
    simp at this
    omega

omit [DecidableEq K] in
theorem num_of {l : List (Item K)} (h : ∀ p ∈ l, p.1.isNum = true) {i : Nat} {a : Arg K} (ha : whole i a ∈ l) :
    ∃ k, a = .num k := isNum_iff.1 (h _ ha)

theorem exact4 (direct : Bool) (T : K) (args : List (Arg K)) (comps : List Src) :
    vecInit direct T 4 args = .ok comps ↔ VecMade direct T 4 args comps := by
  match args with
  | [] => rw [eval0 _ _ _ (by omega)]; simp [VecMade, total]; exact eq_comm
  | [a] => exact exact1 _ _ _ (by omega) _ _
  | [a, b] =>
    rw [eval42, made_cons2]
    constructor
    · intro h
      split at h
      · rename_i ha hb
        obtain ⟨k', rfl⟩ := isVec_iff.1 hb
        rw [scalars_ok] at h
        obtain ⟨h, rfl⟩ := h
        obtain ⟨k, rfl⟩ := num_of h (i := 0) (a := a) (by simp)
        simp [Piece, total, size, flat, flatFrom, whole, parts, Function.comp_def]
      · rename_i ha hb
        obtain ⟨k', rfl⟩ := isVec_iff.1 ha
        rw [scalars_ok] at h
        obtain ⟨h, rfl⟩ := h
        obtain ⟨k, rfl⟩ := num_of h (i := 1) (a := b) (by simp)
        simp [Piece, total, size, flat, flatFrom, whole, parts, Function.comp_def]
      · cases h
      · split at h
        · rename_i hab
          obtain ⟨k, rfl⟩ := isVec_iff.1 hab.1
          obtain ⟨k', rfl⟩ := isVec_iff.1 hab.2
          rw [scalars_ok] at h
          obtain ⟨h, rfl⟩ := h
          simp [Piece, total, size, flat, flatFrom, parts, Function.comp_def]
        · cases h
    · rintro ⟨h1, h2, rfl⟩
      have ha := h1 a (by simp)
      have hb := h1 b (by simp)
      have := piece_size ha
      have := piece_size hb
      simp only [total] at h2
      rcases piece_cases ha rfl with ⟨ha, k, rfl⟩ | ⟨ha, k, he⟩
      · rcases piece_cases hb rfl with ⟨hb, k', rfl⟩ | ⟨hb, k', he⟩
        · simp [size] at h2
        · have : size b = 3 := by simp only [size] at h2 ⊢; omega
          rw [this] at he
          subst he
          rfl
      · rcases piece_cases hb rfl with ⟨hb, k', rfl⟩ | ⟨hb, k', he'⟩
        · have : size a = 3 := by simp only [size] at h2 ⊢; omega
          rw [this] at he
          subst he
          rfl
        · rw [show size a = 2 by omega] at he
          rw [show size b = 2 by omega] at he'
          subst he he'
          rfl
  | [a, b, c] =>
    rw [eval43, made_cons2]
    constructor
    · intro h
      split at h
      · rename_i hc
        obtain ⟨k'', rfl⟩ := isVec_iff.1 hc
        rw [scalars_ok] at h
        obtain ⟨h, rfl⟩ := h
        obtain ⟨k, rfl⟩ := num_of h (i := 0) (a := a) (by simp)
        obtain ⟨k', rfl⟩ := num_of h (i := 1) (a := b) (by simp)
        simp [Piece, total, size, flat, flatFrom, whole, parts, Function.comp_def]
      · rename_i _ hb _
        obtain ⟨k'', rfl⟩ := isVec_iff.1 hb
        rw [scalars_ok] at h
        obtain ⟨h, rfl⟩ := h
        obtain ⟨k, rfl⟩ := num_of h (i := 0) (a := a) (by simp)
        obtain ⟨k', rfl⟩ := num_of h (i := 2) (a := c) (by simp)
        simp [Piece, total, size, flat, flatFrom, whole, parts, Function.comp_def]
      · rename_i ha _ _
        obtain ⟨k'', rfl⟩ := isVec_iff.1 ha
        rw [scalars_ok] at h
        obtain ⟨h, rfl⟩ := h
        obtain ⟨k, rfl⟩ := num_of h (i := 1) (a := b) (by simp)
        obtain ⟨k', rfl⟩ := num_of h (i := 2) (a := c) (by simp)
        simp [Piece, total, size, flat, flatFrom, whole, parts, Function.comp_def]
      · cases h
    · rintro ⟨h1, h2, rfl⟩
      have ha := h1 a (by simp)
      have hb := h1 b (by simp)
      have hc := h1 c (by simp)
      have sa := piece_size ha
      have sb := piece_size hb
      have sc := piece_size hc
      simp only [total] at h2
      rcases piece_cases ha rfl with ⟨_, k, he⟩ | ⟨_, k, he⟩ <;> rcases piece_cases hb rfl with ⟨_, k', he'⟩ | ⟨_, k', he'⟩ <;>
        rcases piece_cases hc rfl with ⟨_, k'', he''⟩ | ⟨_, k'', he''⟩ <;> try omega
      · rw [show size c = 2 by omega] at he''
        subst he he' he''
        rfl
      · rw [show size b = 2 by omega] at he'
        subst he he' he''
        rfl
      · rw [show size a = 2 by omega] at he
        subst he he' he''
        rfl
  | [a, b, c, d] =>
    rw [eval44, made_cons2]
    constructor
    · intro h
      rw [scalars_ok] at h
      obtain ⟨h, rfl⟩ := h
      obtain ⟨k, rfl⟩ := num_of h (i := 0) (a := a) (by simp)
      obtain ⟨k', rfl⟩ := num_of h (i := 1) (a := b) (by simp)
      obtain ⟨k'', rfl⟩ := num_of h (i := 2) (a := c) (by simp)
      obtain ⟨k''', rfl⟩ := num_of h (i := 3) (a := d) (by simp)
      simp [Piece, total, size, flat, flatFrom, whole]
    · rintro ⟨h1, h2, rfl⟩
      have ha := h1 a (by simp)
      have hb := h1 b (by simp)
      have hc := h1 c (by simp)
      have hd := h1 d (by simp)
      have := piece_size ha
      have := piece_size hb
      have := piece_size hc
      have := piece_size hd
      simp only [total] at h2
      rcases piece_cases ha rfl with ⟨_, k, rfl⟩ | ⟨_, _⟩ <;> rcases piece_cases hb rfl with ⟨_, k', rfl⟩ | ⟨_, _⟩ <;>
        rcases piece_cases hc rfl with ⟨_, k'', rfl⟩ | ⟨_, _⟩ <;> rcases piece_cases hd rfl with ⟨_, k''', rfl⟩ | ⟨_, _⟩ <;>
        first | rfl | omega
  | a :: b :: c :: d :: e :: l =>
    rw [eval45, made_cons2]
    refine ⟨(fun h => nomatch h), fun ⟨h1, h2, _⟩ => ?_⟩
    have := length_le_total _ h1
    simp at this
    omega

/-- The vectors of two, three and four components are made from exactly the following: nothing; one number, if the type is
named; a vector of the same size (of another component type only if the type is named); two or more numbers and vectors of at
least two components with the right number of components in total, in any order. The result has the components of the
arguments, converted, in their order. -/
theorem vector_init_exact (direct : Bool) (T : K) (n : Nat) (hn : 2 ≤ n ∧ n ≤ 4) (args : List (Arg K)) (comps : List Src) :
    vecInit direct T n args = .ok comps ↔ VecMade direct T n args comps := by
  obtain ⟨h1, h2⟩ := hn
  interval_cases n
  · exact exact2 _ _ _ _
  · exact exact3 _ _ _ _
  · exact exact4 _ _ _ _

/-- What the other vectors are made from: nothing, one number for all components, a vector of the same size, or at most as many numbers as
there are components; the remaining components are zero. -/
def GenMade (n : Nat) (args : List (Arg K)) (comps : List Src) : Prop :=
  (args = [] ∧ comps = List.replicate n .junk) ∨
  (∃ k, args = [.num k] ∧ comps = List.replicate n (.arg 0 0)) ∨
  (∃ k, args = [.vec k n] ∧ comps = flat args) ∨
  (2 ≤ args.length ∧ args.length ≤ n ∧ (∀ a ∈ args, ∃ k, a = .num k) ∧
    comps = flat args ++ List.replicate (n - args.length) .zero)

omit [DecidableEq K] in
theorem flatFrom_num : ∀ (l : List (Arg K)) (i : Nat), (∀ a ∈ l, ∃ k, a = .num k) →
    flatFrom i l = (List.range l.length).map (fun j => .arg (i + j) 0)
  | [], _, _ => rfl
  | a :: l, i, h => by
    obtain ⟨k, rfl⟩ := h a List.mem_cons_self
    rw [flatFrom, flatFrom_num l (i + 1) fun b hb => h b (List.mem_cons_of_mem _ hb), List.length_cons,
      List.range_succ_eq_map]
    simp [size, Function.comp_def, Nat.add_assoc, Nat.add_comm 1]

theorem evalG (direct : Bool) (T : K) (n : Nat) (hn : n < 2 ∨ 4 < n) (args : List (Arg K)) :
    vecInit direct T n args = pick direct (vecGen T n) args := by
  unfold vecInit vecCtors
  rw [if_neg (by omega), if_neg (by omega), if_neg (by omega)]

/-- The vectors of other sizes are made from exactly the following, whether or not the type is named. -/
theorem vector_general_exact (direct : Bool) (T : K) (n : Nat) (hn : n = 1 ∨ 4 < n) (args : List (Arg K))
    (comps : List Src) : vecInit direct T n args = .ok comps ↔ GenMade n args comps := by
  rw [evalG _ _ _ (by omega)]
  match args with
  | [] =>
    have : pick direct (vecGen T n) [] = .ok (List.replicate n .junk) := by
      simp [pick, vecGen, vecOwn, fillC, packC, convGen]
    rw [this]
    simp [GenMade]
    exact eq_comm
  | [a] =>
    have : pick direct (vecGen T n) [a] = if a.isNum then .ok (List.replicate n (.arg 0 0)) else if a.isVec n then copied n
        else if 1 < n then .error else .no := by
      by_cases hT : a = .vec T n
      · subst hT
        by_cases h : 1 < n <;> simp [pick, vecGen, vecOwn, fillC, packC, convGen, Arg.isNum, Arg.isVec, h]
      · by_cases h : 1 < n
        · cases hv : a.isVec n
          · cases hk : a.isNum <;> simp [pick, vecGen, vecOwn, fillC, packC, convGen, h, hT, hv, hk]
          · obtain ⟨k, rfl⟩ := isVec_iff.1 hv
            simp [pick, vecGen, vecOwn, fillC, packC, convGen, h, hT, hv, Arg.isNum]
        · cases hv : a.isVec n
          · cases hk : a.isNum <;> simp [pick, vecGen, vecOwn, fillC, packC, convGen, h, hT, hv, hk]
          · obtain ⟨k, rfl⟩ := isVec_iff.1 hv
            simp [pick, vecGen, vecOwn, fillC, packC, convGen, h, hT, hv, Arg.isNum]
    rw [this]
    cases a with
    | num k => simp [Arg.isNum, GenMade]; exact eq_comm
    | vec k m =>
      by_cases h : m = n
      · subst h; simp [Arg.isNum, Arg.isVec, GenMade, copied, flat, flatFrom, size]; exact eq_comm
      · by_cases h' : 1 < n <;> simp [Arg.isNum, Arg.isVec, GenMade, h, h']
    | mat k c r => by_cases h' : 1 < n <;> simp [Arg.isNum, Arg.isVec, GenMade, h']
    | quat k => by_cases h' : 1 < n <;> simp [Arg.isNum, Arg.isVec, GenMade, h']
  | a :: b :: l =>
    by_cases h : 1 < n
    · have : pick direct (vecGen T n) (a :: b :: l) = (packC n).body (a :: b :: l) := by
        simp [pick, vecGen, vecOwn, fillC, packC, convGen, h]
      rw [this]
      generalize ha : a :: b :: l = as
      have h2 : 2 ≤ as.length := by rw [← ha]; simp
      constructor
      · intro h3
        simp only [packC] at h3
        split at h3
        · rename_i h4
          simp only [Bool.and_eq_true, List.all_eq_true, decide_eq_true_eq, isNum_iff] at h4
          simp only [Out.ok.injEq] at h3
          refine Or.inr (Or.inr (Or.inr ⟨h2, h4.2, h4.1, ?_⟩))
          rw [← h3, flat, flatFrom_num _ _ h4.1]
          simp
        · cases h3
      · rintro (⟨rfl, _⟩ | ⟨k, rfl, _⟩ | ⟨k, rfl, _⟩ | ⟨_, h3, h4, rfl⟩)
        · cases ha
        · cases ha
        · cases ha
        · simp only [packC]
          rw [if_pos, flat, flatFrom_num _ _ h4]
          · simp
          · simp only [Bool.and_eq_true, List.all_eq_true, decide_eq_true_eq, isNum_iff]
            exact ⟨h4, h3⟩
    · have : pick direct (vecGen T n) (a :: b :: l) = .no := by
        simp [pick, vecGen, vecOwn, fillC, packC, convGen, h]
      rw [this]
      refine ⟨(fun h => nomatch h), ?_⟩
      rintro (⟨h, _⟩ | ⟨k, h, _⟩ | ⟨k, h, _⟩ | ⟨h2, h3, _⟩)
      · cases h
      · cases h
      · cases h
      · simp at h3; omega

/-! ### Matrices -/

/-- The components of a matrix with `c` columns of `r`, column by column; `g i j` is the component of column `i` and row `j`. -/
def grid (c r : Nat) (g : Nat → Nat → Src) : List Src := (List.range (c * r)).map fun p => g (p / r) (p % r)

theorem grid_succ (c r : Nat) (g : Nat → Nat → Src) :
    grid (c + 1) r g = grid c r g ++ (List.range r).map (g c) := by
  unfold grid
  rw [Nat.succ_mul, List.range_add, List.map_append, List.map_map]
  congr 1
  apply List.map_congr_left
  intro j hj
  rw [List.mem_range] at hj
  simp only [Function.comp]
  rw [Nat.mul_comm c r, Nat.mul_add_div (by omega), Nat.mul_add_mod, Nat.div_eq_of_lt hj, Nat.mod_eq_of_lt hj, Nat.add_zero]

theorem flatMap_grid (r : Nat) (g : Nat → Nat → Src) : ∀ c,
    ((List.range c).flatMap fun i => (List.range r).map fun j => g i j) = grid c r g
  | 0 => by simp [grid]
  | c + 1 => by
    rw [grid_succ, List.range_succ, List.flatMap_append, flatMap_grid r g c]
    simp

/-- The unit matrix times a number. -/
def scalar (x : Src) (c r : Nat) : List Src := grid c r fun i j => if i = j then x else .zero

/-- What the matrices that are not 4x4 are made from: nothing gives the unit matrix, a number a multiple of it, if the type is named;
a matrix of the same size (of another component type only if the type is named); as many vectors as there are columns, all of the size
of a column, of another component type only if a column has one component or more than four. -/
def MatMade (direct : Bool) (T : K) (c r : Nat) (args : List (Arg K)) (comps : List Src) : Prop :=
  (args = [] ∧ comps = scalar .one c r) ∨
  (∃ k, args = [.num k] ∧ direct = true ∧ comps = scalar (.arg 0 0) c r) ∨
  (∃ k, args = [.mat k c r] ∧ (direct = true ∨ k = T) ∧ comps = flat args) ∨
  (args ≠ [] ∧ args.length = c ∧ (∀ a ∈ args, ∃ k, a = .vec k r ∧ (k = T ∨ r = 1 ∨ 4 < r)) ∧ comps = grid c r .arg)

/-- What the 4x4 matrix is made from: nothing gives the unit matrix, a number a multiple of it, if the type is named; a matrix of the
same type; a 3x3 matrix of any component type, if the type is named; up to four columns of the same component type, the missing
ones zero — but one column only if the type is not named. -/
def Mat4Made (direct : Bool) (T : K) (args : List (Arg K)) (comps : List Src) : Prop :=
  (args = [] ∧ comps = scalar .one 4 4) ∨
  (∃ k, args = [.num k] ∧ direct = true ∧ comps = scalar (.arg 0 0) 4 4) ∨
  (args = [.mat T 4 4] ∧ comps = flat args) ∨
  (∃ k, args = [.mat k 3 3] ∧ direct = true ∧ comps = grid 4 4 fun i j =>
    if i < 3 ∧ j < 3 then .arg 0 (3 * i + j) else if i = j then .one else .zero) ∨
  ((args.length = 1 ∧ direct = false ∨ 2 ≤ args.length ∧ args.length ≤ 4) ∧ (∀ a ∈ args, a = .vec T 4) ∧
    comps = grid 4 4 fun i j => if i < args.length then .arg i j else .zero)

theorem diagonal_eq (x : Src) (c r : Nat) : diagonal x c r = scalar x c r := flatMap_grid _ _ _

theorem columns_eq (c r g : Nat) : columns c r g = grid c r fun i j => if i < g then .arg i j else .zero :=
  flatMap_grid _ _ _

theorem columns_all (c r : Nat) : columns c r c = grid c r .arg := by
  rw [columns_eq]
  unfold grid
  apply List.map_congr_left
  intro p hp
  rw [List.mem_range] at hp
  dsimp only
  rw [if_pos ((Nat.div_lt_iff_lt_mul (by by_contra h; simp [show r = 0 by omega] at hp)).2 hp)]

/-- What a column is made from without mention of its type. -/
theorem colOk_iff (T : K) (r : Nat) (hr : 1 ≤ r) (m : Nat) (k : K) :
    colOk T r (.vec k m) = true ↔ m = r ∧ (k = T ∨ r = 1 ∨ 4 < r) := by
  have h : colOk T r (.vec k m) = true ↔ ∃ comps, vecInit false T r [.vec k m] = .ok comps := by
    unfold colOk
    split
    · rename_i c h; simp [h]
    · rename_i h
      simp only [Bool.false_eq_true, false_iff]
      exact fun ⟨c, hc⟩ => h c hc
  rw [h]
  by_cases h' : 2 ≤ r ∧ r ≤ 4
  · simp only [vector_init_exact _ _ _ h', VecMade]
    constructor
    · rintro ⟨c, ⟨h, _⟩ | ⟨k, h, _⟩ | ⟨k', h, h2, _⟩ | ⟨h, _⟩⟩
      · cases h
      · cases h
      · cases h
        rcases h2 with h2 | h2
        · cases h2
        · exact ⟨rfl, .inl h2⟩
      · simp at h
    · rintro ⟨rfl, h2⟩
      exact ⟨_, .inr (.inr (.inl ⟨k, rfl, .inr (h2.resolve_right (by omega)), rfl⟩))⟩
  · simp only [vector_general_exact false T r (by omega), GenMade]
    constructor
    · rintro ⟨c, ⟨h, _⟩ | ⟨k, h, _⟩ | ⟨k', h, _⟩ | ⟨h, _⟩⟩
      · cases h
      · cases h
      · cases h
        exact ⟨rfl, .inr (by omega)⟩
      · simp at h
    · rintro ⟨rfl, _⟩
      exact ⟨_, .inr (.inr (.inl ⟨k, rfl, rfl⟩))⟩

omit [DecidableEq K] in
theorem sameSize_iff (l : List (Arg K)) : sameSize l = true ↔ l ≠ [] ∧ ∃ n, ∀ a ∈ l, ∃ k, a = .vec k n := by
  match l with
  | [] => simp [sameSize]
  | .vec k n :: l =>
    simp only [sameSize, List.all_eq_true, isVec_iff, ne_eq, reduceCtorEq, not_false_eq_true, true_and, List.mem_cons,
      forall_eq_or_imp, Arg.vec.injEq]
    constructor
    · exact fun h => ⟨n, ⟨k, rfl, rfl⟩, h⟩
    · rintro ⟨n', ⟨_, _, rfl⟩, h⟩; exact h
  | .num k :: l => simp [sameSize]
  | .mat k _ _ :: l => simp [sameSize]
  | .quat k :: l => simp [sameSize]

theorem cols_made (T : K) (c r : Nat) (hr : 1 ≤ r) (args : List (Arg K)) (hs : sameSize args = true) (comps : List Src) :
    (if args.length = c ∧ args.all (colOk T r) then Out.ok (columns c r c) else .error) = .ok comps ↔
      args ≠ [] ∧ args.length = c ∧ (∀ a ∈ args, ∃ k, a = .vec k r ∧ (k = T ∨ r = 1 ∨ 4 < r)) ∧
        comps = grid c r .arg := by
  obtain ⟨h0, m, hm⟩ := (sameSize_iff _).1 hs
  have key : args.all (colOk T r) = true ↔ ∀ a ∈ args, ∃ k, a = .vec k r ∧ (k = T ∨ r = 1 ∨ 4 < r) := by
    rw [List.all_eq_true]
    refine forall₂_congr fun a ha => ?_
    obtain ⟨k, rfl⟩ := hm a ha
    rw [colOk_iff T r hr]
    constructor
    · rintro ⟨rfl, h⟩; exact ⟨k, rfl, h⟩
    · rintro ⟨k', h, h'⟩; cases h; exact ⟨rfl, h'⟩
  rw [columns_all]
  constructor
  · intro h
    split at h
    · rename_i h1
      cases h
      exact ⟨h0, h1.1, key.1 h1.2, rfl⟩
    · cases h
  · rintro ⟨_, h1, h2, rfl⟩
    rw [if_pos ⟨h1, key.2 h2⟩]

/-- The matrices that are not 4x4 are made from exactly this. -/
theorem matrix_init_exact (direct : Bool) (T : K) (c r : Nat) (hr : 1 ≤ r) (h4 : ¬(c = 4 ∧ r = 4))
    (args : List (Arg K)) (comps : List Src) :
    matInit direct T c r args = .ok comps ↔ MatMade direct T c r args comps := by
  unfold matInit
  rw [if_neg h4]
  match args with
  | [] =>
    have : pick direct (matGen T c r) [] = .ok (diagonal .one c r) := by simp [pick, matGen, sameSize]
    rw [this, diagonal_eq]
    simp [MatMade]
    exact eq_comm
  | [.num k] =>
    have : pick direct (matGen T c r) [.num k] = if direct then .ok (diagonal (.arg 0 0) c r) else .no := by
      cases direct <;> simp [pick, matGen, sameSize, Arg.isNum]
    rw [this, diagonal_eq]
    cases direct
    · simp [MatMade]
    · simp [MatMade]; exact eq_comm
  | [.quat k] =>
    have : pick direct (matGen T c r) [.quat k] = .no := by
      cases direct <;> simp [pick, matGen, sameSize, Arg.isNum]
    rw [this]
    simp [MatMade]
  | [.mat k c' r'] =>
    have : pick direct (matGen T c r) [.mat k c' r'] =
        if c' = c ∧ r' = r ∧ (direct = true ∨ k = T) then copied (c * r) else .no := by
      by_cases hc : c' = c
      · subst hc
        by_cases hr' : r' = r
        · subst hr'
          by_cases hk : k = T
          · subst hk; cases direct <;> simp [pick, matGen, sameSize, Arg.isNum]
          · cases direct <;> simp [pick, matGen, sameSize, Arg.isNum, hk]
        · cases direct <;> simp [pick, matGen, sameSize, Arg.isNum, hr']
      · cases direct <;> simp [pick, matGen, sameSize, Arg.isNum, hc]
    rw [this]
    constructor
    · intro h
      split at h
      · rename_i h1
        obtain ⟨rfl, rfl, h1⟩ := h1
        cases h
        exact .inr (.inr (.inl ⟨k, rfl, h1, by simp [flat, flatFrom, size]⟩))
      · cases h
    · rintro (⟨h, _⟩ | ⟨_, h, _⟩ | ⟨_, h, h1, rfl⟩ | ⟨_, _, h, _⟩)
      · cases h
      · cases h
      · cases h
        rw [if_pos ⟨rfl, rfl, h1⟩]
        simp [flat, flatFrom, size, copied]
      · obtain ⟨_, h, _⟩ := h _ List.mem_cons_self; cases h
  | [.vec k m] =>
    have : pick direct (matGen T c r) [.vec k m] = if ([Arg.vec k m]).length = c ∧ [Arg.vec k m].all (colOk T r) then
        Out.ok (columns c r c) else .error := by
      cases direct <;> simp [pick, matGen, sameSize, Arg.isNum, List.filter_cons]
    rw [this, cols_made T c r hr _ (by simp [sameSize])]
    simp [MatMade]
  | a :: b :: l =>
    generalize ha : a :: b :: l = as
    have h2 : 2 ≤ as.length := by rw [← ha]; simp
    have h3 : as ≠ [] := by rw [← ha]; simp
    have h5 : ¬as.length = 1 := by omega
    have h6 : ¬as = [.mat T c r] := by rintro rfl; simp at h2
    cases hs : sameSize as
    · have : pick direct (matGen T c r) as = .no := by
        simp [pick, matGen, hs, h3, h5, h6]
      rw [this]
      refine ⟨(fun h => nomatch h), ?_⟩
      rintro (⟨rfl, _⟩ | ⟨k, rfl, _⟩ | ⟨k, rfl, _⟩ | ⟨_, _, h, _⟩)
      · cases ha
      · cases ha
      · cases ha
      · have := (sameSize_iff as).2 ⟨h3, r, fun a ha => (h a ha).imp fun _ h => h.1⟩
        rw [hs] at this; cases this
    · have : pick direct (matGen T c r) as = if as.length = c ∧ as.all (colOk T r) then
        Out.ok (columns c r c) else .error := by
        simp [pick, matGen, hs, h3, h5, h6]
      rw [this, cols_made T c r hr _ hs]
      constructor
      · exact fun h => .inr (.inr (.inr h))
      · rintro (⟨rfl, _⟩ | ⟨k, rfl, _⟩ | ⟨k, rfl, _⟩ | h)
        · cases ha
        · cases ha
        · cases ha
        · exact h

theorem cols4 (T : K) (args : List (Arg K)) (hs : args.all (·.isVec 4) = true) :
    args.all (colOk T 4) = true ↔ ∀ a ∈ args, a = .vec T 4 := by
  rw [List.all_eq_true] at *
  refine forall₂_congr fun a ha => ?_
  obtain ⟨k, rfl⟩ := isVec_iff.1 (hs a ha)
  rw [colOk_iff T 4 (by omega)]
  simp

/-- The 4x4 matrix is made from exactly this. -/
theorem matrix4_init_exact (direct : Bool) (T : K) (args : List (Arg K)) (comps : List Src) :
    matInit direct T 4 4 args = .ok comps ↔ Mat4Made direct T args comps := by
  unfold matInit
  rw [if_pos ⟨rfl, rfl⟩]
  match args with
  | [] =>
    have : pick direct (mat4 T) [] = .ok (diagonal .one 4 4) := by simp [pick, mat4]
    rw [this, diagonal_eq]
    simp [Mat4Made]
    exact eq_comm
  | [.num k] =>
    have : pick direct (mat4 T) [.num k] = if direct then .ok (diagonal (.arg 0 0) 4 4) else .no := by
      cases direct <;> simp [pick, mat4, Arg.isNum, Arg.isVec]
    rw [this, diagonal_eq]
    cases direct
    · simp [Mat4Made]
    · simp [Mat4Made]; exact eq_comm
  | [.quat k] =>
    have : pick direct (mat4 T) [.quat k] = if direct then .error else .no := by
      cases direct <;> simp [pick, mat4, Arg.isNum, Arg.isVec]
    rw [this]
    cases direct <;> simp [Mat4Made]
  | [.mat k c r] =>
    by_cases h4 : c = 4 ∧ r = 4
    · obtain ⟨rfl, rfl⟩ := h4
      have : pick direct (mat4 T) [.mat k 4 4] = if k = T then copied 16 else if direct then .error else .no := by
        by_cases hk : k = T
        · subst hk; cases direct <;> simp [pick, mat4, Arg.isVec]
        · have hc : colOk T 4 (.vec k 4) = false := by
            rw [Bool.eq_false_iff, ne_eq, colOk_iff T 4 (by omega)]
            simp [hk]
          cases direct <;> simp [pick, mat4, Arg.isVec, hk, hc]
      rw [this]
      by_cases hk : k = T
      · subst hk
        simp [Mat4Made, copied, flat, flatFrom, size]
        exact eq_comm
      · cases direct <;> simp [Mat4Made, hk]
    · by_cases h3 : c = 3 ∧ r = 3
      · obtain ⟨rfl, rfl⟩ := h3
        have : pick direct (mat4 T) [.mat k 3 3] = if direct then .ok embedded else .no := by
          cases direct <;> simp [pick, mat4, Arg.isVec]
        have he : embedded = grid 4 4 fun i j =>
            if i < 3 ∧ j < 3 then .arg 0 (3 * i + j) else if i = j then .one else .zero := flatMap_grid _ _ _
        rw [this, he]
        cases direct
        · simp [Mat4Made]
        · simp only [Mat4Made]
          simp
          exact eq_comm
      · have : pick direct (mat4 T) [.mat k c r] = if direct then .error else .no := by
          have e4 : (c == 4 && r == 4) = false := by rw [Bool.eq_false_iff]; simpa using h4
          have e3 : (c == 3 && r == 3) = false := by rw [Bool.eq_false_iff]; simpa using h3
          have e5 : ¬(k = T ∧ c = 4 ∧ r = 4) := fun h => h4 h.2
          cases direct <;> simp [pick, mat4, Arg.isNum, Arg.isVec, e3, e4, e5]
        have e5 : ¬(k = T ∧ c = 4 ∧ r = 4) := fun h => h4 h.2
        rw [this]
        cases direct <;> simp [Mat4Made, h3, e5]
  | [.vec k n] =>
    by_cases hn : n = 4
    · subst hn
      have : pick direct (mat4 T) [.vec k 4] = if direct then .no else
          if colOk T 4 (.vec k 4) then .ok (columns 4 4 1) else .error := by
        cases direct <;> simp [pick, mat4, Arg.isVec]
      rw [this, columns_eq]
      cases direct
      · by_cases hk : k = T
        · subst hk
          have hc : colOk k 4 (.vec k 4) = true := (colOk_iff k 4 (by omega) _ _).2 ⟨rfl, .inl rfl⟩
          simp [Mat4Made, hc]
          exact eq_comm
        · have hc : colOk T 4 (.vec k 4) = false := by
            rw [Bool.eq_false_iff, ne_eq, colOk_iff T 4 (by omega)]
            simp [hk]
          simp [Mat4Made, hc, hk]
      · simp [Mat4Made]
    · have : pick direct (mat4 T) [.vec k n] = if direct then .error else .no := by
        cases direct <;> simp [pick, mat4, Arg.isVec, Arg.isNum, hn]
      rw [this]
      cases direct <;> simp [Mat4Made, hn]
  | a :: b :: l =>
    generalize ha : a :: b :: l = as
    have h2 : 2 ≤ as.length := by rw [← ha]; simp
    have h3 : as ≠ [] := by rw [← ha]; simp
    have h5 : ¬as.length = 1 := by omega
    have h6 : ¬as = [.mat T 4 4] := by rintro rfl; simp at h2
    have hb : (as == []) = false := by rw [Bool.eq_false_iff]; simpa using h3
    have h6b : (as == [.mat T 4 4]) = false := by rw [Bool.eq_false_iff]; simpa using h6
    have h5b : (as.length == 1) = false := by rw [Bool.eq_false_iff]; simpa using h5
    have bad : ∀ {p : Prop}, Mat4Made direct T as comps → ((∀ a ∈ as, a = .vec T 4) → as.length ≤ 4 →
        comps = (grid 4 4 fun i j => if i < as.length then .arg i j else .zero) → p) → p := by
      rintro p (⟨rfl, _⟩ | ⟨k, rfl, _⟩ | ⟨rfl, _⟩ | ⟨k, rfl, _⟩ | ⟨h, h', h''⟩) hp
      · cases ha
      · cases ha
      · cases ha
      · cases ha
      · exact hp h' (by omega) h''
    cases hs : as.all (·.isVec 4)
    · have : pick direct (mat4 T) as = .no := by
        simp only [pick, mat4, hs, hb, h5b, h6b, List.filter_cons, Bool.false_and, Bool.false_eq_true, if_false]
        rfl
      rw [this]
      refine ⟨(fun h => nomatch h), fun h => bad h fun h _ _ => ?_⟩
      have : as.all (·.isVec 4) = true := List.all_eq_true.2 fun a ha => by rw [h a ha]; rfl
      rw [hs] at this; cases this
    · have : pick direct (mat4 T) as =
          if as.length ≤ 4 ∧ as.all (colOk T 4) then .ok (columns 4 4 as.length) else .error := by
        simp only [pick, mat4, hs, hb, h5b, h6b, List.filter_cons, Bool.false_and, Bool.false_eq_true, if_false]
        simp
      rw [this, columns_eq]
      constructor
      · intro h
        split at h
        · rename_i h1
          cases h
          exact .inr (.inr (.inr (.inr ⟨.inr ⟨h2, h1.1⟩, (cols4 T as hs).1 h1.2, rfl⟩)))
        · cases h
      · intro h
        refine bad h fun h1 h2 h3 => ?_
        rw [if_pos ⟨h2, (cols4 T as hs).2 h1⟩, h3]

/-! ### Quaternions -/

/-- A quaternion is made from nothing, from a quaternion of the same type, or from four numbers in the order of its components. -/
theorem quaternion_init_exact (direct : Bool) (T : K) (args : List (Arg K)) (comps : List Src) :
    quatInit direct T args = .ok comps ↔
      (args = [] ∧ comps = List.replicate 4 .junk) ∨ (args = [.quat T] ∧ comps = flat args) ∨
        (args.length = 4 ∧ (∀ a ∈ args, ∃ k, a = .num k) ∧ comps = flat args) := by
  match args with
  | [] =>
    have : quatInit direct T [] = .ok (List.replicate 4 .junk) := by simp [quatInit, quatCtors, pick, spread]
    rw [this]
    simp
    exact eq_comm
  | [a] =>
    have : quatInit direct T [a] = if a = .quat T then copied 4 else .no := by
      by_cases h : a = .quat T
      · subst h; simp [quatInit, quatCtors, pick, spread]
      · simp [quatInit, quatCtors, pick, spread, h]
    rw [this]
    by_cases h : a = .quat T
    · subst h; simp [copied, flat, flatFrom, size]; exact eq_comm
    · simp [h]
  | [a, b] => simp [quatInit, quatCtors, pick, spread]
  | [a, b, c] => simp [quatInit, quatCtors, pick, spread]
  | [a, b, c, d] =>
    have : quatInit direct T [a, b, c, d] = scalars [whole 0 a, whole 1 b, whole 2 c, whole 3 d] := by
      simp [quatInit, quatCtors, pick, spread]
    rw [this, scalars_ok]
    constructor
    · rintro ⟨h, rfl⟩
      obtain ⟨k, rfl⟩ := num_of h (i := 0) (a := a) (by simp)
      obtain ⟨k', rfl⟩ := num_of h (i := 1) (a := b) (by simp)
      obtain ⟨k'', rfl⟩ := num_of h (i := 2) (a := c) (by simp)
      obtain ⟨k''', rfl⟩ := num_of h (i := 3) (a := d) (by simp)
      simp [size, flat, flatFrom, whole]
    · rintro (⟨h, _⟩ | ⟨h, _⟩ | ⟨_, h, rfl⟩)
      · cases h
      · cases h
      · obtain ⟨k, rfl⟩ := h a (by simp)
        obtain ⟨k', rfl⟩ := h b (by simp)
        obtain ⟨k'', rfl⟩ := h c (by simp)
        obtain ⟨k''', rfl⟩ := h d (by simp)
        simp [size, flat, flatFrom, whole, Arg.isNum]
  | a :: b :: c :: d :: e :: l => simp [quatInit, quatCtors, pick, spread]

/-! ### Conversions between component types -/

/-- With the type named, a vector, a matrix that is not 4x4, and with the same component type a 4x4 matrix and a quaternion are made from
one of the same size, component by component. What is missing: 4x4 matrices and quaternions of another component type, see
`matrix4_convert_wrong` and `quaternion_convert_wrong`. -/
theorem same_size_partial (T k : K) :
    (∀ n, 1 ≤ n → vecInit true T n [.vec k n] = .ok (flat [.vec k n])) ∧
    (∀ c r, 1 ≤ r → (¬(c = 4 ∧ r = 4) ∨ k = T) → matInit true T c r [.mat k c r] = .ok (flat [.mat k c r])) ∧
    (k = T → quatInit true T [.quat k] = .ok (flat [.quat k])) := by
  refine ⟨fun n hn => ?_, fun c r hr h => ?_, fun h => ?_⟩
  · by_cases h : 2 ≤ n ∧ n ≤ 4
    · exact (vector_init_exact _ _ _ h _ _).2 (.inr (.inr (.inl ⟨k, rfl, .inl rfl, rfl⟩)))
    · exact (vector_general_exact _ _ _ (by omega) _ _).2 (.inr (.inr (.inl ⟨k, rfl, rfl⟩)))
  · by_cases h4 : c = 4 ∧ r = 4
    · obtain ⟨rfl, rfl⟩ := h4
      obtain rfl : k = T := h.resolve_left fun h => h ⟨rfl, rfl⟩
      exact (matrix4_init_exact _ _ _ _).2 (.inr (.inr (.inl ⟨rfl, rfl⟩)))
    · exact (matrix_init_exact _ _ _ _ hr h4 _ _).2 (.inr (.inr (.inl ⟨k, rfl, .inl rfl, rfl⟩)))
  · subst h
    exact (quaternion_init_exact _ _ _ _).2 (.inr (.inl ⟨rfl, rfl⟩))

/-- No 4x4 matrix is made from a 4x4 matrix of another component type, although there is a constructor for it. -/
theorem matrix4_convert_wrong (direct : Bool) (T k : K) (h : k ≠ T) (comps : List Src) :
    matInit direct T 4 4 [.mat k 4 4] ≠ .ok comps := by
  rw [ne_eq, matrix4_init_exact]
  simp [Mat4Made, h]

/-- No quaternion is made from a quaternion of another component type. -/
theorem quaternion_convert_wrong (direct : Bool) (T k : K) (h : k ≠ T) (comps : List Src) :
    quatInit direct T [.quat k] ≠ .ok comps := by
  rw [ne_eq, quaternion_init_exact]
  simp [h]

/-- A matrix is made from its columns, if these have its component type. -/
theorem columns_partial (direct : Bool) (T : K) (c r : Nat) (hc : 1 ≤ c) (hr : 1 ≤ r) :
    matInit direct T c r (List.replicate c (.vec T r)) = .ok (grid c r .arg) := by
  by_cases h4 : c = 4 ∧ r = 4
  · obtain ⟨rfl, rfl⟩ := h4
    refine (matrix4_init_exact _ _ _ _).2 (.inr (.inr (.inr (.inr ⟨.inr (by simp), by simp, ?_⟩))))
    rw [← columns_all, columns_eq]
    simp
  · refine (matrix_init_exact _ _ _ _ hr h4 _ _).2 (.inr (.inr (.inr ⟨?_, by simp, ?_, rfl⟩)))
    · intro h; have := congrArg List.length h; simp at this; omega
    · intro a ha
      rw [List.eq_of_mem_replicate ha]
      exact ⟨T, rfl, .inl rfl⟩

/-- Columns of two, three or four components of another component type make no matrix, although the constructor takes columns
of any component types. -/
theorem columns_wrong (direct : Bool) (T k : K) (c r : Nat) (h2 : 2 ≤ r) (h4 : r ≤ 4) (hk : k ≠ T) (args : List (Arg K))
    (ha : .vec k r ∈ args) (comps : List Src) : matInit direct T c r args ≠ .ok comps := by
  by_cases h : c = 4 ∧ r = 4
  · obtain ⟨rfl, rfl⟩ := h
    rw [ne_eq, matrix4_init_exact]
    rintro (⟨rfl, _⟩ | ⟨_, rfl, _⟩ | ⟨rfl, _⟩ | ⟨_, rfl, _⟩ | ⟨_, h, _⟩)
    · simp at ha
    · simp at ha
    · simp at ha
    · simp at ha
    · have := h _ ha
      cases this
      exact hk rfl
  · rw [ne_eq, matrix_init_exact _ _ _ _ (by omega) h]
    rintro (⟨rfl, _⟩ | ⟨_, rfl, _⟩ | ⟨_, rfl, _⟩ | ⟨_, _, h, _⟩)
    · simp at ha
    · simp at ha
    · simp at ha
    · obtain ⟨_, h, h'⟩ := h _ ha
      cases h
      rcases h' with rfl | h'
      · exact hk rfl
      · omega

/-- Too few columns are refused by the matrices that are not 4x4 … -/
theorem columns_count (direct : Bool) (T : K) (c r : Nat) (hr : 1 ≤ r) (h4 : ¬(c = 4 ∧ r = 4)) (args : List (Arg K))
    (h0 : args ≠ []) (hv : ∀ a ∈ args, ∃ k n, a = .vec k n) (comps : List Src)
    (h : matInit direct T c r args = .ok comps) : args.length = c := by
  rcases (matrix_init_exact _ _ _ _ hr h4 _ _).1 h with ⟨rfl, _⟩ | ⟨_, rfl, _⟩ | ⟨_, rfl, _⟩ | ⟨_, h, _⟩
  · exact (h0 rfl).elim
  · obtain ⟨_, _, h⟩ := hv _ List.mem_cons_self; cases h
  · obtain ⟨_, _, h⟩ := hv _ List.mem_cons_self; cases h
  · exact h

/-- … but the 4x4 matrix takes two or three columns and makes the others zero; a single vector even converts to a 4x4 matrix without
mention of the type, where the type must be named for a single number. -/
theorem columns_count_wrong (T k : K) :
    matInit true T 4 4 [.vec T 4, .vec T 4] = .ok ((List.range 16).map fun p => if p < 8 then .arg (p / 4) (p % 4) else .zero) ∧
    matInit false T 4 4 [.vec T 4] = .ok ((List.range 16).map fun p => if p < 4 then .arg 0 p else .zero) ∧
    matInit true T 4 4 [.vec T 4] = .no ∧ ∀ comps, matInit false T 4 4 [.num k] ≠ .ok comps := by
  refine ⟨?_, ?_, ?_, ?_⟩
  · rw [matrix4_init_exact]
    exact .inr (.inr (.inr (.inr ⟨.inr (by simp), by simp, rfl⟩)))
  · rw [matrix4_init_exact]
    exact .inr (.inr (.inr (.inr ⟨.inl (by simp), by simp, rfl⟩)))
  · simp [matInit, pick, mat4, Arg.isVec]
  · intro comps
    rw [ne_eq, matrix4_init_exact]
    simp [Mat4Made]

/-- One number becomes a vector of two, three or four components only where the type is named, but any other vector also where
it is not; such a vector also takes fewer numbers than it has components, the others do not. -/
theorem vector_number_wrong (T k : K) (n : Nat) :
    ((2 ≤ n ∧ n ≤ 4) → ∀ comps, vecInit false T n [.num k] ≠ .ok comps) ∧
    (4 < n → vecInit false T n [.num k] = .ok (List.replicate n (.arg 0 0)) ∧
      vecInit true T n [.num k, .num k] = .ok ([.arg 0 0, .arg 1 0] ++ List.replicate (n - 2) .zero)) ∧
    ((3 ≤ n ∧ n ≤ 4) → ∀ comps, vecInit true T n [.num k, .num k] ≠ .ok comps) := by
  refine ⟨fun h comps => ?_, fun h => ⟨?_, ?_⟩, fun h comps => ?_⟩
  · rw [ne_eq, vector_init_exact _ _ _ h]
    simp [VecMade]
  · exact (vector_general_exact _ _ _ (.inr h) _ _).2 (.inr (.inl ⟨k, rfl, rfl⟩))
  · exact (vector_general_exact _ _ _ (.inr h) _ _).2 (.inr (.inr (.inr ⟨by simp, by simp; omega, by simp, rfl⟩)))
  · rw [ne_eq, vector_init_exact _ _ _ (by omega)]
    simp [VecMade, total, size]
    omega

/-! ### Examples -/

/-- `Vector<float, 4>(Vector<int, 2>, 1, 2.0)`: the components of the vector, then the numbers. -/
example : vecInit true "float" 4 [.vec "int" 2, .num "int", .num "double"] =
    .ok [.arg 0 0, .arg 0 1, .arg 1 0, .arg 2 0] := by decide +kernel

/-- Two vectors of two components. -/
example : vecInit true "float" 4 [.vec "int" 2, .vec "float" 2] = .ok [.arg 0 0, .arg 0 1, .arg 1 0, .arg 1 1] := by
  decide +kernel

/-- `Vector<float, 4>(Vector<float, 3>)` does not compile. -/
example : vecInit true "float" 4 [.vec "float" 3] = .error := by decide +kernel

/-- `Vector<float, 5>(1, 2, 3)` has two zeros at the end. -/
example : vecInit true "float" 5 [.num "int", .num "int", .num "int"] =
    .ok [.arg 0 0, .arg 1 0, .arg 2 0, .zero, .zero] := by decide +kernel

/-- A matrix of two columns of three. -/
example : matInit true "float" 2 3 [.vec "float" 3, .vec "float" 3] =
    .ok [.arg 0 0, .arg 0 1, .arg 0 2, .arg 1 0, .arg 1 1, .arg 1 2] := by decide +kernel

/-- A 4x4 matrix from a 3x3 matrix. -/
example : matInit true "float" 4 4 [.mat "double" 3 3] =
    .ok [.arg 0 0, .arg 0 1, .arg 0 2, .zero, .arg 0 3, .arg 0 4, .arg 0 5, .zero, .arg 0 6, .arg 0 7, .arg 0 8, .zero,
      .zero, .zero, .zero, .one] := by decide +kernel

/-- Numbers of different types make a quaternion; the order is that of the components. -/
example : quatInit true "float" [.num "int", .num "float", .num "double", .num "int"] =
    .ok [.arg 0 0, .arg 1 0, .arg 2 0, .arg 3 0] := by decide +kernel

/-- The hypotheses of `columns_wrong` hold. -/
example : matInit true "float" 3 3 [.vec "int" 3, .vec "int" 3, .vec "int" 3] = .error := by decide +kernel

end Verif.MathInit
