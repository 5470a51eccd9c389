import Mathlib.Data.Nat.Bitwise
import Mathlib.Tactic.Common
import Mathlib.Tactic.NormNum
import Mathlib.Tactic.Ring
import Mathlib.Tactic.Linarith

/-!
Index arithmetic of the single-producer single-consumer queue.
Models `/repo/private/container/spsc_queue_base.hpp`.
-/

set_option autoImplicit false

namespace Verif.SPSC

/-- `size_type = std::size_t` (spsc_queue_base.hpp:15), a 64-bit unsigned integer with
wrap-around arithmetic. -/
abbrev Size := BitVec 64

/-- `next_index(index, max_size)`: spsc_queue_base.hpp:52-54. -/
def nextIndex (max i : Size) : Size := (i + 1) &&& (max - 1)

/-- `read_available(max_size)` as a function of the two loaded indices:
spsc_queue_base.hpp:34-36. -/
def readAvail (max w r : Size) : Size :=
  if w ≥ r then w - r else w + max - r

/-- `write_available(max_size)` as a function of the two loaded indices:
spsc_queue_base.hpp:42-45. -/
def writeAvail (max w r : Size) : Size :=
  let diff := r - w - 1
  if diff ≥ r then diff + max else diff

/-- `is_empty(write_index, read_index)`: spsc_queue_base.hpp:48-50. -/
def isEmpty (w r : Size) : Bool := w == r

/-! ### Lemmas -/

/-- The machine index of the `j`-th element ever pushed (specification side). Specification, not part of the
code; the values `m_write_index` and `m_read_index` (spsc_queue_base.hpp:85, 88) take. -/
def idx (N j : Nat) : Size := BitVec.ofNat 64 (j % N)

theorem one_toNat : (1 : Size).toNat = 1 := rfl

theorem idx_toNat {N : Nat} (hN : 0 < N) (hN' : N < 2 ^ 64) (j : Nat) :
    (idx N j).toNat = j % N := by
  have := Nat.mod_lt j hN
  simp only [idx, BitVec.toNat_ofNat]
  exact Nat.mod_eq_of_lt (by omega)

theorem idx_eq_iff {N : Nat} (hN : 0 < N) (hN' : N < 2 ^ 64) (a b : Nat) :
    idx N a = idx N b ↔ a % N = b % N := by
  rw [← BitVec.toNat_inj, idx_toNat hN hN', idx_toNat hN hN']

theorem nextIndex_idx {max : Size} {k : Nat} (hk : max.toNat = 2 ^ k) (j : Nat) :
    nextIndex max (idx max.toNat j) = idx max.toNat (j + 1) := by
  have hlt := max.isLt
  have hpos : 0 < max.toNat := by rw [hk]; exact Nat.two_pow_pos k
  apply BitVec.eq_of_toNat_eq
  rw [idx_toNat hpos hlt]
  unfold nextIndex
  rw [BitVec.toNat_and]
  have h1 : (max - 1).toNat = 2 ^ k - 1 := by
    rw [BitVec.toNat_sub, one_toNat]; omega
  rw [h1, Nat.and_two_pow_sub_one_eq_mod, BitVec.toNat_add, idx_toNat hpos hlt, ← hk]
  have hd : max.toNat ∣ 2 ^ 64 := by
    rw [hk]; apply pow_dvd_pow
    by_contra hc
    have : 2 ^ 64 ≤ 2 ^ k := Nat.pow_le_pow_right (by norm_num) (by omega)
    omega
  rw [Nat.mod_mod_of_dvd _ hd, one_toNat]
  simp

theorem nextIndex_lt (max i : Size) (h : max ≠ 0) : (nextIndex max i).toNat < max.toNat := by
  have h0 : max.toNat ≠ 0 := fun h' => h (BitVec.eq_of_toNat_eq (by simpa using h'))
  unfold nextIndex
  rw [BitVec.toNat_and]
  have h1 : (max - 1).toNat = max.toNat - 1 := by
    have := max.isLt
    rw [BitVec.toNat_sub, one_toNat]; omega
  have := Nat.and_le_right (n := (i + 1).toNat) (m := (max - 1).toNat)
  omega

theorem sub_mod_cases {N a b : Nat} (hN : 0 < N) (h1 : a ≤ b) (h2 : b < a + N) :
    (a % N ≤ b % N ∧ b - a = b % N - a % N) ∨ (b % N < a % N ∧ b - a = b % N + N - a % N) := by
  have ha := Nat.div_add_mod a N
  have hb := Nat.div_add_mod b N
  have hma := Nat.mod_lt a hN
  have hmb := Nat.mod_lt b hN
  have hle : a / N ≤ b / N := Nat.div_le_div_right h1
  have hlt : b / N ≤ a / N + 1 := by
    rw [← Nat.add_div_right a hN]
    exact Nat.div_le_div_right (by omega)
  rcases (by omega : b / N = a / N ∨ b / N = a / N + 1) with h | h
  · left; rw [h] at hb; omega
  · right; rw [h, Nat.mul_add] at hb; omega

/-- `read_available` on the indices of counters `R ≤ W < R + N` is exact. -/
theorem readAvail_idx {max : Size} (hpos : 0 < max.toNat) {W R : Nat}
    (h1 : R ≤ W) (h2 : W < R + max.toNat) :
    (readAvail max (idx max.toNat W) (idx max.toNat R)).toNat = W - R := by
  have hlt := max.isLt
  have hW := idx_toNat hpos hlt W
  have hR := idx_toNat hpos hlt R
  have hmw := Nat.mod_lt W hpos
  have hmr := Nat.mod_lt R hpos
  rcases sub_mod_cases hpos h1 h2 with ⟨ha, hb⟩ | ⟨ha, hb⟩
  · rw [readAvail, if_pos (by rw [ge_iff_le, BitVec.le_def]; omega)]
    rw [BitVec.toNat_sub_of_le (by rw [BitVec.le_def]; omega)]
    omega
  · rw [readAvail, if_neg (by rw [ge_iff_le, BitVec.le_def]; omega)]
    rw [BitVec.toNat_sub, BitVec.toNat_add]
    omega

/-- `write_available` on the indices of counters `R ≤ W < R + N` is exact. -/
theorem writeAvail_idx {max : Size} (hpos : 0 < max.toNat) {W R : Nat}
    (h1 : R ≤ W) (h2 : W < R + max.toNat) :
    (writeAvail max (idx max.toNat W) (idx max.toNat R)).toNat = max.toNat - 1 - (W - R) := by
  have hlt := max.isLt
  have hW := idx_toNat hpos hlt W
  have hR := idx_toNat hpos hlt R
  have hmw := Nat.mod_lt W hpos
  have hmr := Nat.mod_lt R hpos
  have hd : (idx max.toNat R - idx max.toNat W - 1).toNat =
      (2 ^ 64 + 2 ^ 64 + R % max.toNat - W % max.toNat - 1) % 2 ^ 64 := by
    rw [BitVec.toNat_sub, BitVec.toNat_sub, hW, hR, one_toNat]; omega
  unfold writeAvail
  simp only
  rcases sub_mod_cases hpos h1 h2 with ⟨ha, hb⟩ | ⟨ha, hb⟩
  · rw [if_pos (by rw [ge_iff_le, BitVec.le_def, hd]; omega), BitVec.toNat_add, hd]
    omega
  · rw [if_neg (by rw [ge_iff_le, BitVec.le_def, hd]; omega), hd]
    omega

theorem idx_mod_inj {N a b : Nat} (h : a % N = b % N) (h1 : a ≤ b) (h2 : b < a + N) : a = b := by
  have h3 : (b - a) % N = 0 := Nat.sub_mod_eq_zero_of_mod_eq h.symm
  have h4 := Nat.mod_eq_of_lt (show b - a < N by omega)
  omega

end Verif.SPSC
