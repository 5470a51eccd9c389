import Verif.AlignedData.Copy
import Verif.AlignedData.Props

/-! # Properties of construction and copies of `AlignedData` -/

set_option autoImplicit false

namespace Verif.AD

/-- The bytes of the object at `a` are those that were at `src`, and no others changed. -/
def Copied (t : Ty) (m m' : Mem) (a src : Nat) : Prop :=
  (∀ k, k < t.size → m' (a + k) = m (src + k)) ∧ ∀ p, ¬ (a ≤ p ∧ p < a + t.size) → m' p = m p

/-- C121, what holds. The full claim is that constructing an `AlignedData` from arguments constructs a `T` in it, with an
exception passed to the caller, and that a copy of an `AlignedData` holds a copy of its `T`. The former holds if `T`'s
constructor does not throw and the storage is aligned for it; the latter, for trivially copyable types, if the source is
a const lvalue or a non-const rvalue. -/
theorem aligned_data_copy_partial (t : Ty) (τ : Traits) (m : Mem) (a : Nat) :
    (∀ bytes, data a % t.align = 0 → ∃ m', make t τ m a (.others bytes false) = .ok m' ∧
      (∀ k, k < t.size → m' (data a + k) = bytes k) ∧ ∀ p, ¬ (data a ≤ p ∧ p < data a + t.size) → m' p = m p) ∧
    (τ.triviallyCopyable = true → ∀ src, ∃ m', make t τ m a (.constLvalue src) = .ok m' ∧
      make t τ m a (.rvalue src) = .ok m' ∧ Copied t m m' (data a) (data src)) ∧
    (τ.defaultInitializable = true → make t τ m a .nothing = .ok (construct0 t m a)) := by
  refine ⟨fun bytes hal => ?_, fun _ src => ⟨copyBytes t m a src, rfl, rfl, fun k hk => ?_, fun p hp => ?_⟩, fun h => ?_⟩
  · refine ⟨fun q => if a ≤ q ∧ q < a + t.size then bytes (q - a) else construct0 t m a q, ?_, fun k hk => ?_, fun p hp => ?_⟩
    · simp only [data, address] at hal
      simp [make, choose, byTemplate, construct, constructAt, data, address, hal]
      rfl
    · simp [data, address, hk]
    · simp only [data, address] at hp
      simp only
      rw [if_neg hp, construct0, if_neg hp]
  · simp [copyBytes, data, address, hk]
  · simp only [data, address] at hp
    rw [copyBytes, if_neg hp]
  · simp [make, choose, h]

/-- C121 is false. A constructor that throws ends the program. An `AlignedData` cannot be copied from a non-const lvalue or
a const rvalue, nor default constructed if `T` is not default initialisable; if `T` can be constructed from an
`AlignedData`, the "copy" holds a `T` made from the `AlignedData` instead of a copy of its `T`. And for types that are not
trivially copyable the other copies are bytewise too: `T`'s copy constructor is not called. -/
theorem aligned_data_copy_wrong (t : Ty) (τ : Traits) (m : Mem) (a : Nat) :
    (∀ bytes, make t τ m a (.others bytes true) = .terminated) ∧
    (τ.fromData = none → ∀ src, make t τ m a (.lvalue src) = .illFormed ∧ make t τ m a (.constRvalue src) = .illFormed) ∧
    (τ.defaultInitializable = false → make t τ m a .nothing = .illFormed) ∧
    (∀ bytes, τ.fromData = some bytes → data a % t.align = 0 → ∀ src, ∃ m', make t τ m a (.lvalue src) = .ok m' ∧
      ∀ k, k < t.size → m' (data a + k) = bytes k) ∧
    (∀ src, ∃ m', make t τ m a (.constLvalue src) = .ok m' ∧ Copied t m m' (data a) (data src)) := by
  refine ⟨fun bytes => rfl, fun h src => by simp [make, choose, h], fun h => by simp [make, choose, h],
    fun bytes h hal src => ?_, fun src => ⟨copyBytes t m a src, rfl, fun k hk => ?_, fun p hp => ?_⟩⟩
  · refine ⟨fun q => if a ≤ q ∧ q < a + t.size then bytes (q - a) else construct0 t m a q, ?_, fun k hk => ?_⟩
    · simp only [data, address] at hal
      simp [make, choose, h, byTemplate, construct, constructAt, data, address, hal]
      rfl
    · simp [data, address, hk]
  · simp [copyBytes, data, address, hk]
  · simp only [data, address] at hp
    rw [copyBytes, if_neg hp]

/-! ### The hypotheses can be met -/

/-- `int` at address 8, copied from 16; and a type that can hold anything, "copied" from an lvalue. -/
example : ((match make ⟨4, 4⟩ ⟨true, true, none⟩ (fun p => UInt8.ofNat p) 8 (.constLvalue 16) with
    | .ok m => (List.range 14).map m | _ => []) = [0, 1, 2, 3, 4, 5, 6, 7, 16, 17, 18, 19, 12, 13]) ∧
  ((match make ⟨4, 4⟩ ⟨false, true, some fun _ => 99⟩ (fun p => UInt8.ofNat p) 8 (.lvalue 16) with
    | .ok m => (List.range 14).map m | _ => []) = [0, 1, 2, 3, 4, 5, 6, 7, 99, 99, 99, 99, 12, 13]) := by decide

end Verif.AD
