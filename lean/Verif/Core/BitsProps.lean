import Verif.Core.Bits
import Mathlib.Tactic.Linarith
import Mathlib.Tactic.Ring
import Mathlib.Tactic.Positivity
import Mathlib.Data.Int.ModEq

/-! # Properties of `has_single_bit`, `to_unsigned` and `forward_like` -/

set_option autoImplicit false

namespace Verif.Bits

theorem and_dec {w : Nat} (p : BitVec w) (hp : p.toNat ≠ 0) : ((p - 1) &&& p = 0) ↔ p.toNat.isPowerOfTwo := by
  rw [← Nat.and_sub_one_eq_zero_iff_isPowerOfTwo hp, BitVec.toNat_inj.symm, BitVec.toNat_and]
  have hw : 0 < w := by
    rcases Nat.eq_zero_or_pos w with h | h
    · subst h; exact absurd (by have := p.isLt; omega) hp
    · exact h
  have h1 : (1 : BitVec w).toNat = 1 := by
    have : 1 < 2 ^ w := Nat.one_lt_two_pow (by omega)
    simp [Nat.mod_eq_of_lt this]
  have hs : (p - 1).toNat = p.toNat - 1 := by
    rw [BitVec.toNat_sub_of_le]
    · rw [h1]
    · rw [BitVec.le_def, h1]; omega
  rw [hs, Nat.and_comm]
  simp

/-- C56. `has_single_bit(n)` is true exactly for the powers of two, for unsigned types of every width. -/
theorem has_single_bit_correct (w : Nat) (n : BitVec w) :
    hasSingleBit w n = true ↔ ∃ k : Nat, n.toNat = 2 ^ k := by
  have hz : (n != 0) = true ↔ n.toNat ≠ 0 := by
    rw [bne_iff_ne, ne_eq, BitVec.toNat_inj.symm]; simp
  unfold hasSingleBit
  rw [Bool.and_eq_true, hz, Bool.not_eq_true']
  have key : n.toNat ≠ 0 → (decAnd w n = false ↔ n.toNat.isPowerOfTwo) := by
    intro hn
    unfold decAnd
    split
    · rename_i hw
      have hlt : n.toNat < 2 ^ 32 := lt_of_lt_of_le n.isLt (Nat.pow_le_pow_right (by omega) (by omega))
      have hto : (n.setWidth 32).toNat = n.toNat := by
        rw [BitVec.toNat_setWidth, Nat.mod_eq_of_lt hlt]
      rw [bne_eq_false_iff_eq, and_dec _ (by rw [hto]; exact hn), hto]
    · rw [bne_eq_false_iff_eq, and_dec _ hn]
  constructor
  · rintro ⟨h1, h2⟩
    exact (key h2).1 h1
  · rintro ⟨k, hk⟩
    have hn : n.toNat ≠ 0 := by rw [hk]; positivity
    exact ⟨(key hn).2 ⟨k, hk⟩, hn⟩

/-- C57. `to_unsigned(x)` is a number below `2^w`, congruent to `x` modulo `2^w`; it is `x` itself if `x` is not
negative, `x + 2^w` otherwise; different numbers of the type have different results; and it keeps the bits. -/
theorem to_unsigned_correct (signed : Bool) (w : Nat) (hw : 0 < w) (x : Int) (hx : InRange signed w x) :
    toUnsigned w x < 2 ^ w ∧ (toUnsigned w x : Int) ≡ x [ZMOD (2 : Int) ^ w] ∧
    (0 ≤ x → (toUnsigned w x : Int) = x) ∧ (x < 0 → (toUnsigned w x : Int) = x + 2 ^ w) ∧
    (∀ y, InRange signed w y → toUnsigned w x = toUnsigned w y → x = y) ∧
    toUnsigned w x = (BitVec.ofInt w x).toNat := by
  have hp : (0 : Int) < 2 ^ w := by positivity
  have hcast : ∀ z : Int, (toUnsigned w z : Int) = z % 2 ^ w := fun z =>
    Int.toNat_of_nonneg (Int.emod_nonneg _ (ne_of_gt hp))
  have hhalf : (2 : Int) ^ w = 2 * 2 ^ (w - 1) := by
    conv_lhs => rw [show w = (w - 1) + 1 by omega]
    rw [pow_succ]; ring
  have hval : ∀ z, InRange signed w z → z % (2 : Int) ^ w = if 0 ≤ z then z else z + 2 ^ w := by
    intro z hz
    have hb : -(2 : Int) ^ w ≤ z ∧ z < 2 ^ w := by
      unfold InRange at hz
      have : (0 : Int) < 2 ^ (w - 1) := by positivity
      cases signed
      · simp only [Bool.false_eq_true, if_false] at hz; constructor <;> linarith [hz.1, hz.2]
      · simp only [if_true] at hz; constructor <;> linarith [hz.1, hz.2]
    split
    · rename_i h0; exact Int.emod_eq_of_lt h0 hb.2
    · rename_i h0
      rw [← Int.add_emod_right, Int.emod_eq_of_lt (by linarith [hb.1]) (by linarith)]
  refine ⟨?_, ?_, fun h => ?_, fun h => ?_, fun y hy he => ?_, ?_⟩
  · have := Int.emod_lt_of_pos x hp
    rw [← hcast] at this
    exact_mod_cast this
  · rw [hcast]; exact Int.mod_modEq _ _
  · rw [hcast, hval x hx, if_pos h]
  · rw [hcast, hval x hx, if_neg (by omega)]
  · have e : x % (2 : Int) ^ w = y % 2 ^ w := by rw [← hcast, ← hcast, he]
    rw [hval x hx, hval y hy] at e
    have : (0 : Int) < 2 ^ (w - 1) := by positivity
    unfold InRange at hx hy
    cases signed
    · simp only [Bool.false_eq_true, if_false] at hx hy
      rw [if_pos hx.1, if_pos hy.1] at e
      exact e
    · simp only [if_true] at hx hy
      split at e <;> split at e <;> linarith [hx.1, hx.2, hy.1, hy.2]
  · rw [BitVec.toNat_ofInt]
    unfold toUnsigned toUnsignedType
    norm_cast

/-! ### `forward_like` -/

/-- The type `std::forward_like<T>(x)` has, for `x` an expression of type `U`: `[forward]`, with `COPY_CONST` and
`OVERRIDE_REF` spelt out. -/
def stdForwardLike (like : Ty) (e : Expr) : Ty where
  const := like.const || e.const
  volatile := e.volatile
  ref := if like.ref = .lvalue then .lvalue else .rvalue

/-- C58. `forward_like` returns a reference to the argument with its own constness and that of `Like` merged and the
value category of `Like`, for all cv-qualifications and value categories. -/
theorem forward_like_correct (like : Ty) (e : Expr) : forwardLike like e = stdForwardLike like e := by
  obtain ⟨c, v, r⟩ := like
  obtain ⟨c', v', l⟩ := e
  cases r <;> cases c <;> cases c' <;> cases l <;> rfl

/-! ### Cases -/

example : hasSingleBit 8 128 = true ∧ hasSingleBit 8 0 = false ∧ hasSingleBit 64 (1#64 <<< 63) = true := by decide +kernel
example : InRange true 8 (-128) ∧ toUnsigned 8 (-128) = 128 := ⟨by simp [InRange], by decide⟩
example : forwardLike ⟨true, false, .none⟩ ⟨false, false, true⟩ = ⟨true, false, .rvalue⟩ := by decide

end Verif.Bits
