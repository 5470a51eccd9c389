import Verif.Algo.Reverse
import Mathlib.Tactic.Linarith
import Mathlib.Tactic.IntervalCases

/-! # Properties of `reverse` -/

set_option autoImplicit false

namespace Verif.Algo.Rev

open Verif.Algo

variable {α : Type}

theorem iterSwap_mid (a b mid : List α) (x y : α) :
    iterSwap a.length (a.length + mid.length + 1) (a ++ x :: (mid ++ y :: b)) =
      .ok (a ++ y :: (mid ++ x :: b)) := by
  unfold iterSwap
  rw [List.getElem?_append_right (by omega), List.getElem?_append_right (by omega)]
  rw [show a.length + mid.length + 1 - a.length = mid.length + 1 by omega]
  simp [List.set_append]
  rw [show a.length + mid.length + 1 - a.length = mid.length + 1 by omega]
  simp
  omega

theorem swapLoop_spec (fuel : Nat) (a mid b : List α) (hf : mid.length < fuel) :
    swapLoop fuel a.length (a.length + mid.length) (a ++ mid ++ b) = .ok (a ++ mid.reverse ++ b) := by
  induction fuel generalizing a mid b with
  | zero => omega
  | succ fuel ih =>
    unfold swapLoop
    match mid, List.eq_nil_or_concat mid with
    | [], _ => simp
    | [x], _ =>
      rw [if_pos (by simp)]
      have : iterSwap a.length (a.length + [x].length - 1) (a ++ [x] ++ b) = .ok (a ++ [x] ++ b) := by
        simp [iterSwap]
      rw [this]
      have hf' : 0 < fuel := by simp at hf; omega
      cases fuel with
      | zero => omega
      | succ fuel => simp [swapLoop]
    | x :: z :: rest, h =>
      rw [if_pos (by simp)]
      obtain ⟨ys, y, e⟩ := (List.eq_nil_or_concat (z :: rest)).resolve_left (by simp)
      rw [List.concat_eq_append] at e
      rw [e]
      have e2 : a.length + (x :: (ys ++ [y])).length - 1 = a.length + ys.length + 1 := by simp; omega
      have e3 : a ++ x :: (ys ++ [y]) ++ b = a ++ x :: (ys ++ y :: b) := by simp
      rw [e2, e3, iterSwap_mid]
      have hl : (z :: rest).length = ys.length + 1 := by rw [e]; simp
      have := ih (a ++ [y]) ys (x :: b) (by simp at hf hl; omega)
      simp only [List.length_append, List.length_singleton] at this
      have e4 : a.length + 1 + ys.length = a.length + ys.length + 1 := by omega
      rw [e4] at this
      simp only [List.append_assoc, List.cons_append, List.nil_append] at this
      simp only [List.reverse_cons, List.reverse_append, List.append_assoc, List.cons_append, List.nil_append,
        List.reverse_nil]
      exact this

/-- What a block step has to do. -/
def BlockOk (block : Nat → Nat → List α → Except Fault (List α)) (rb : Nat) : Prop :=
  ∀ a x mid y b : List α, x.length = rb → y.length = rb →
    block a.length (a.length + (rb + mid.length + rb)) (a ++ (x ++ mid ++ y) ++ b) =
      .ok (a ++ (y.reverse ++ mid ++ x.reverse) ++ b)

theorem blockLoop_spec {block : Nat → Nat → List α → Except Fault (List α)} {rb : Nat} (hb : BlockOk block rb)
    (count : Nat) (a mid b : List α) (hc : 2 * (count * rb) ≤ mid.length) :
    ∃ a' mid' b', blockLoop block rb count a.length (a.length + mid.length) (a ++ mid ++ b) =
        .ok (a' ++ mid' ++ b', a'.length, a'.length + mid'.length) ∧
      a' ++ mid'.reverse ++ b' = a ++ mid.reverse ++ b ∧ mid'.length ≤ mid.length := by
  induction count generalizing a mid b with
  | zero => exact ⟨a, mid, b, rfl, rfl, Nat.le_refl _⟩
  | succ count ih =>
    have hc' : 2 * (count * rb) + 2 * rb ≤ mid.length := by rw [Nat.add_mul] at hc; omega
    obtain ⟨x, mid', y, rfl, hx, hy⟩ : ∃ x mid' y, mid = x ++ mid' ++ y ∧ x.length = rb ∧ y.length = rb := by
      refine ⟨mid.take rb, (mid.drop rb).take (mid.length - 2 * rb), mid.drop (mid.length - rb), ?_, ?_, ?_⟩
      · have : mid.drop (mid.length - rb) = (mid.drop rb).drop (mid.length - 2 * rb) := by
          rw [List.drop_drop]; congr 1; omega
        rw [this, List.append_assoc, List.take_append_drop, List.take_append_drop]
      · simp; omega
      · simp; omega
    simp only [List.length_append, hx, hy] at hc' ⊢
    obtain ⟨a1, m1, b1, h1, h2, h3⟩ := ih (a ++ y.reverse) mid' (x.reverse ++ b) (by omega)
    refine ⟨a1, m1, b1, ?_, ?_, by omega⟩
    · unfold blockLoop
      rw [hb a x mid' y b hx hy]
      show blockLoop block rb count _ _ _ = _
      rw [← h1]
      congr 1
      · simp [hy]
      · simp [hy]; omega
      · simp
    · rw [h2]; simp

theorem vectorised_spec {block : Nat → Nat → List α → Except Fault (List α)} {rb : Nat} (hb : BlockOk block rb)
    (m : List α) {fuel : Nat} (hf : m.length < fuel) :
    vectorised block rb m.length fuel m = .ok (m.reverse, m.length) := by
  unfold vectorised
  have hc : 2 * (m.length / 2 / rb * rb) ≤ m.length := by
    have := Nat.div_mul_le_self (m.length / 2) rb
    omega
  obtain ⟨a, mid, b, h1, h2, h3⟩ := blockLoop_spec hb (m.length / 2 / rb) [] m [] hc
  simp only [List.length_nil, Nat.zero_add, List.nil_append, List.append_nil] at h1 h2
  rw [h1]
  simp only
  rw [swapLoop_spec fuel a mid b (by omega), h2]
  rfl

theorem shuffle_avx2 (v : List Byte) (h : v.length = 32) :
    permute2x128 (shuffleEpi8 32 v (setEpi8 (seq ++ seq))) (shuffleEpi8 32 v (setEpi8 (seq ++ seq))) 1 = v.reverse := by
  apply List.ext_getElem
  · simp [permute2x128, slice, shuffleEpi8, h]
  · intro i h1 h2
    have hi : i < 32 := by simpa [h] using h2
    rw [List.getElem_reverse]
    interval_cases i <;> simp [permute2x128, slice, shuffleEpi8, setEpi8, seq, h, List.getD_eq_getElem?_getD, BitVec.msb_eq_decide]

theorem shuffle_sse3 (v : List Byte) (h : v.length = 16) : shuffleEpi8 16 v (setEpi8 seq) = v.reverse := by
  apply List.ext_getElem
  · simp [shuffleEpi8, h]
  · intro i h1 h2
    have hi : i < 16 := by simpa [h] using h2
    rw [List.getElem_reverse]
    interval_cases i <;> simp [shuffleEpi8, setEpi8, seq, h, List.getD_eq_getElem?_getD, BitVec.msb_eq_decide]

theorem loadu_mid (a x b : List Byte) : loadu (a ++ (x ++ b)) x.length a.length = .ok x := by
  unfold loadu
  rw [if_pos (by simp)]
  simp [slice]

theorem storeu_mid (a x b v : List Byte) (h : v.length = x.length) :
    storeu (a ++ (x ++ b)) a.length v = .ok (a ++ (v ++ b)) := by
  unfold storeu
  rw [if_pos (by simp; omega)]
  simp [h]

theorem block_ok {rb : Nat} {f : List Byte → List Byte} {block : Nat → Nat → List Byte → Except Fault (List Byte)}
    (hf : ∀ v : List Byte, v.length = rb → f v = v.reverse)
    (hb : ∀ lhs rhs m, block lhs rhs m = (do
      let lower ← loadu m rb lhs
      let upper ← loadu m rb ((rhs : Int) - rb)
      let m ← storeu m lhs (f upper)
      storeu m ((rhs : Int) - rb) (f lower))) : BlockOk block rb := by
  intro a x mid y b hx hy
  have e1 : (((a.length + (rb + mid.length + rb) : Nat) : Int) - rb) = ((a ++ x ++ mid).length : Int) := by
    simp [hx]; omega
  have e2 : (((a.length + (rb + mid.length + rb) : Nat) : Int) - rb) = ((a ++ y.reverse ++ mid).length : Int) := by
    simp [hy]; omega
  have l1 : loadu (a ++ (x ++ mid ++ y) ++ b) rb a.length = .ok x := by
    have := loadu_mid a x (mid ++ y ++ b)
    rw [hx] at this
    rw [← this]; simp
  have l2 : loadu (a ++ (x ++ mid ++ y) ++ b) rb ((a ++ x ++ mid).length) = .ok y := by
    have := loadu_mid (a ++ x ++ mid) y b
    rw [hy] at this
    rw [← this]; simp
  have s1 : storeu (a ++ (x ++ mid ++ y) ++ b) a.length y.reverse = .ok (a ++ (y.reverse ++ mid ++ y) ++ b) := by
    have := storeu_mid a x (mid ++ y ++ b) y.reverse (by simp [hx, hy])
    simp only [List.append_assoc] at this ⊢
    exact this
  have s2 : storeu (a ++ (y.reverse ++ mid ++ y) ++ b) ((a ++ y.reverse ++ mid).length) x.reverse =
      .ok (a ++ (y.reverse ++ mid ++ x.reverse) ++ b) := by
    have := storeu_mid (a ++ y.reverse ++ mid) y b x.reverse (by simp [hx, hy])
    simp only [List.append_assoc] at this ⊢
    exact this
  rw [hb, l1, e1]
  show (loadu _ _ _ >>= _) = _
  rw [l2]
  show (storeu _ _ _ >>= _) = _
  rw [hf y hy, hf x hx, s1]
  show storeu _ _ _ = _
  rw [← e1, e2, s2]

theorem avx2_ok : BlockOk simdAvx2 32 :=
  block_ok (f := fun v => permute2x128 (shuffleEpi8 32 v (setEpi8 (seq ++ seq)))
    (shuffleEpi8 32 v (setEpi8 (seq ++ seq))) 1) shuffle_avx2 fun _ _ _ => rfl

theorem sse3_ok : BlockOk simdSse3 16 :=
  block_ok (f := fun v => shuffleEpi8 16 v (setEpi8 seq)) shuffle_sse3 fun _ _ _ => rfl

/-- C41. `reverse` of bytes reverses the range and returns its end, in the AVX2, SSE3 and scalar builds alike, for
every length and contents. An access outside the range would be `ub`. -/
theorem reverse_bytes (isa : Isa) (m : List Byte) {fuel : Nat} (hf : m.length < fuel) :
    reverse1 isa m.length fuel m = .ok (m.reverse, m.length) := by
  cases isa with
  | avx2 => exact vectorised_spec avx2_ok m hf
  | sse3 => exact vectorised_spec sse3_ok m hf
  | scalar =>
    have := swapLoop_spec fuel [] m [] hf
    simp only [List.length_nil, Nat.zero_add, List.nil_append, List.append_nil] at this
    simp only [reverse1, this, returning]

/-- C42 is false: on sixteen two-byte elements the SSE3 build changes nothing, since its vector step is empty. -/
theorem reverse_two_bytes_wrong :
    reverse2 .sse3 16 17 (List.range 16) = .ok (List.range 16, 16) ∧
      (List.range 16).reverse ≠ List.range 16 := by decide +kernel

/-- C42, what holds. The full claim is "`reverse` over two-byte elements reverses the range in the SSE3 build"; it
holds below two vectors (sixteen elements). -/
theorem reverse_two_bytes_partial (m : List α) (hm : m.length < 16) {fuel : Nat} (hf : m.length < fuel) :
    reverse2 .sse3 m.length fuel m = .ok (m.reverse, m.length) := by
  show vectorised simdSse3_2 8 m.length fuel m = _
  unfold vectorised
  rw [show m.length / 2 / 8 = 0 by omega]
  have := swapLoop_spec fuel [] m [] hf
  simp only [List.length_nil, Nat.zero_add, List.nil_append, List.append_nil] at this
  simp only [blockLoop, this, returning]

/-- C42, exactly. The number `c` of elements that the vector steps pass over at each end is the largest multiple of
eight that fits twice. The first `c` and the last `c` elements stay where they are and those between them are
reversed. -/
theorem reverse_two_bytes_exact (m : List α) {fuel : Nat} (hf : m.length < fuel) (c : Nat) (h8 : 8 ∣ c)
    (hc : 2 * c ≤ m.length) (hc' : m.length < 2 * (c + 8)) :
    reverse2 .sse3 m.length fuel m =
      .ok (m.take c ++ ((m.drop c).take (m.length - 2 * c)).reverse ++ m.drop (m.length - c), m.length) := by
  have loop : ∀ (count i : Nat) (s : Nat), blockLoop (simdSse3_2 (α := α)) 8 count i s m =
      .ok (m, i + 8 * count, s - 8 * count) := by
    intro count
    induction count with
    | zero => intro i s; simp [blockLoop]
    | succ c ih =>
      intro i s
      unfold blockLoop
      show blockLoop simdSse3_2 8 c (i + 8) (s - 8) m = _
      rw [ih, show i + 8 + 8 * c = i + 8 * (c + 1) by omega, show s - 8 - 8 * c = s - 8 * (c + 1) by omega]
  show vectorised simdSse3_2 8 m.length fuel m = _
  unfold vectorised
  rw [loop]
  simp only [Nat.zero_add]
  have ec : 8 * (m.length / 2 / 8) = c := by omega
  rw [ec]
  have key := swapLoop_spec fuel (m.take c) ((m.drop c).take (m.length - 2 * c)) (m.drop (m.length - c))
    (by simp; omega)
  have e : m.take c ++ (m.drop c).take (m.length - 2 * c) ++ m.drop (m.length - c) = m := by
    have : m.drop (m.length - c) = (m.drop c).drop (m.length - 2 * c) := by
      rw [List.drop_drop]; congr 1; omega
    rw [this, List.append_assoc, List.take_append_drop, List.take_append_drop]
  rw [e] at key
  have e1 : (m.take c).length = c := by simp; omega
  have e2 : ((m.drop c).take (m.length - 2 * c)).length = m.length - 2 * c := by simp; omega
  rw [e1, e2, show c + (m.length - 2 * c) = m.length - c by omega] at key
  rw [key]; rfl

/-- C42. When the SSE3 build reverses two-byte elements: exactly when the elements it passes over already mirror
each other. -/
theorem reverse_two_bytes_iff (m : List α) {fuel : Nat} (hf : m.length < fuel) (c : Nat) (h8 : 8 ∣ c)
    (hc : 2 * c ≤ m.length) (hc' : m.length < 2 * (c + 8)) :
    reverse2 .sse3 m.length fuel m = .ok (m.reverse, m.length) ↔ ∀ k < c, m[k]? = m[m.length - 1 - k]? := by
  rw [reverse_two_bytes_exact m hf c h8 hc hc']
  have el : ∀ l : List α, l.length = m.length → ((Res.ok (l, m.length) = Res.ok (m.reverse, m.length)) ↔ ∀ k < m.length, l[k]? = m[m.length - 1 - k]?) := by
    intro l hl
    constructor
    · intro h k hk
      injection h with h
      injection h with h _
      rw [h, List.getElem?_reverse hk]
    · intro h
      congr 2
      apply List.ext_getElem?
      intro k
      by_cases hk : k < m.length
      · rw [h k hk, List.getElem?_reverse hk]
      · rw [List.getElem?_eq_none (by omega), List.getElem?_eq_none (by simp; omega)]
  rw [el _ (by simp; omega)]
  have l1 : (m.take c).length = c := by simp; omega
  have l2 : ((m.drop c).take (m.length - 2 * c)).reverse.length = m.length - 2 * c := by simp; omega
  constructor
  · intro h k hk
    have := h k (by omega)
    rw [List.append_assoc, List.getElem?_append_left (by omega), List.getElem?_take_of_lt hk] at this
    exact this
  · intro h k hk
    by_cases h1 : k < c
    · rw [List.append_assoc, List.getElem?_append_left (by omega), List.getElem?_take_of_lt h1]
      exact h k h1
    by_cases h2 : k < m.length - c
    · rw [List.getElem?_append_left (by rw [List.length_append]; omega), List.getElem?_append_right (by omega), l1,
        List.getElem?_reverse (by simp; omega), List.getElem?_take_of_lt (by simp; omega), List.getElem?_drop]
      congr 1
      simp
      omega
    · rw [List.getElem?_append_right (by rw [List.length_append]; omega), List.length_append, l1, l2,
        List.getElem?_drop]
      have := h (m.length - 1 - k) (by omega)
      rw [show m.length - 1 - (m.length - 1 - k) = k by omega] at this
      rw [this]
      congr 1
      omega

/-- C42 in the build without vector instructions: every range is reversed. In the AVX2 build no call compiles. -/
theorem reverse_two_bytes_other (m : List α) {fuel : Nat} (hf : m.length < fuel) :
    reverse2 .scalar m.length fuel m = .ok (m.reverse, m.length) ∧
    reverse2 .avx2 m.length fuel m = .ub .illFormed := by
  have := swapLoop_spec fuel [] m [] hf
  simp only [List.length_nil, Nat.zero_add, List.nil_append, List.append_nil] at this
  exact ⟨by simp only [reverse2, this, returning], rfl⟩

/-! ### Cases -/

section Examples

example : reverse1 .avx2 70 71 ((List.range 70).map (BitVec.ofNat 8)) =
    .ok ((List.range 70).reverse.map (BitVec.ofNat 8), 70) := by decide +kernel
example : reverse1 .sse3 33 34 ((List.range 33).map (BitVec.ofNat 8)) =
    .ok ((List.range 33).reverse.map (BitVec.ofNat 8), 33) := by decide +kernel
example : reverse2 .sse3 15 16 (List.range 15) = .ok ((List.range 15).reverse, 15) := by decide +kernel
example : reverse2 .sse3 20 21 (List.range 20) =
    .ok ([0, 1, 2, 3, 4, 5, 6, 7] ++ [11, 10, 9, 8] ++ [12, 13, 14, 15, 16, 17, 18, 19], 20) := by
  exact reverse_two_bytes_exact (List.range 20) (fuel := 21) (by decide) 8 (by decide) (by decide) (by decide)
example : reverse2 .scalar 17 18 (List.range 17) = .ok ((List.range 17).reverse, 17) := by decide +kernel

end Examples

end Verif.Algo.Rev
