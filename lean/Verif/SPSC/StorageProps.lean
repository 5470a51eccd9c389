import Verif.SPSC.Storage
import Verif.AlignedData.Props

/-! # Properties of the slots of a queue of fixed capacity -/

set_option autoImplicit false

namespace Verif.SPSC.Storage

open Verif.AD (Ty dataTy element data accepts)

/-- The size of a type is a multiple of its alignment, which is a power of two, and not zero: true of every C++ type. -/
structure Sane (t : Ty) : Prop where
  mult : t.size % t.align = 0
  align : accepts t.align = true
  size : 0 < t.size

theorem Sane.pos {t : Ty} (h : Sane t) : 0 < t.align := by
  have := h.align
  unfold accepts at this
  simp at this
  omega

theorem roundUp_mult {n a : Nat} (ha : 0 < a) (h : n % a = 0) : Verif.AD.roundUp n a = n := by
  obtain ⟨k, rfl⟩ := Nat.dvd_of_mod_eq_zero h
  unfold Verif.AD.roundUp
  have : (a * k + a - 1) / a = k := by
    rw [Nat.add_sub_assoc ha, Nat.mul_add_div ha, Nat.div_eq_of_lt (by omega)]; rfl
  rw [this, Nat.mul_comm]

/-- C120, what holds. The full claim is that the slots of a queue of fixed capacity lie inside the queue, are aligned for
the elements, and are the storage of the queue's `AlignedData` objects, so that no two overlap. It holds by the rules of
the machine, and by those of the standard for the first slot. -/
theorem static_slots_partial {t : Ty} (h : Sane t) (capacity a : Nat) (ha : a % (slotTy t).align = 0) :
    (slotTy t).size = t.size ∧
    (∀ i, i < capacity → ∃ p, slot .machine t capacity a i = some p ∧ usable .machine t capacity a p = true ∧
      p = data (element (slotTy t) a i) ∧ a ≤ p ∧ p + t.size ≤ a + capacity * (slotTy t).size) ∧
    (∀ i j p q, i < j → slot .machine t capacity a i = some p → slot .machine t capacity a j = some q → p + t.size ≤ q) ∧
    (0 < capacity → ∃ p, slot .standard t capacity a 0 = some p ∧ usable .standard t capacity a p = true) := by
  have hs : (slotTy t).size = t.size := roundUp_mult h.pos h.mult
  have ha' : a % t.align = 0 := ha
  have hal : ∀ i, (a + i * t.size) % t.align = 0 := by
    intro i
    rw [Nat.add_mod, Nat.mul_mod, ha', h.mult]; simp
  refine ⟨hs, fun i hi => ?_, fun i j p q hij hp hq => ?_, fun _ => ⟨a, ?_, ?_⟩⟩
  · have hle : a + i * t.size + t.size ≤ a + capacity * t.size := by
      have := Nat.mul_le_mul_right t.size hi
      rw [Nat.succ_mul] at this; omega
    refine ⟨a + i * t.size, ?_, ?_, ?_, by omega, by rw [hs]; exact hle⟩
    · simp only [slot, first, data, Verif.AD.address, element, hs]
      rw [if_pos (by omega)]; simp
    · simp only [usable, hs, decide_eq_true_eq]
      exact ⟨by omega, hle, hal i⟩
    · simp [data, Verif.AD.address, element, hs]
  · simp only [slot] at hp hq
    split at hp
    · split at hq
      · cases hp; cases hq
        have := Nat.mul_le_mul_right t.size hij
        rw [Nat.succ_mul] at this; omega
      · cases hq
    · cases hp
  · simp [slot, first, data, Verif.AD.address, element]
  · simp [usable, first, data, Verif.AD.address, element, hs, ha']

/-- C120 is false by the rules of the standard for all slots but the first: none can be used. And a queue of fixed capacity
of elements that cannot be constructed from nothing does not compile, although no element is ever made that way. -/
theorem static_slots_wrong {t : Ty} (h : Sane t) (capacity a : Nat) :
    (∀ i p, 0 < i → slot .standard t capacity a i = some p → usable .standard t capacity a p = false) ∧
    compiles t capacity false = false ∧
    (∀ k, capacity = 2 ^ k → compiles t capacity true = true) := by
  have hs : (slotTy t).size = t.size := roundUp_mult h.pos h.mult
  have hz := h.size
  refine ⟨fun i p hi hp => ?_, by simp [compiles], fun k hk => ?_⟩
  · simp only [slot] at hp
    split at hp
    · cases hp
      obtain rfl : i = 1 := by omega
      simp only [usable, hs, decide_eq_false_iff_not]
      omega
    · cases hp
  · simp only [compiles, h.align, Bool.and_true]
    exact (Verif.AD.accepts_iff _).2 ⟨k, hk⟩

/-! ### The hypotheses can be met -/

example : Sane ⟨24, 8⟩ := ⟨by decide, by decide, by decide⟩
example : slot .machine ⟨24, 8⟩ 4 64 3 = some 136 ∧ usable .machine ⟨24, 8⟩ 4 64 136 = true ∧
    slot .standard ⟨24, 8⟩ 4 64 1 = some 88 ∧ usable .standard ⟨24, 8⟩ 4 64 88 = false := by decide

end Verif.SPSC.Storage
