import Verif.Algo.Clients
import Verif.Algo.FindProps
import Verif.Algo.ReverseProps

/-! # Properties of programs around `find` and `reverse` (C179, C180) -/

set_option autoImplicit false

namespace Verif.Algo

/-! ### Specification -/

/-- Pieces joined by a separator. -/
def joinWith {β : Type} (sep : β) : List (List β) → List β
  | [] => []
  | [p] => p
  | p :: q :: l => p ++ sep :: joinWith sep (q :: l)

/-- The elements of a piece. -/
def piece (m : Mem) (k : Nat) (p : Nat × Nat) : List (List Byte) := (List.range p.2).map fun j => elem m k (p.1 + j)

/-- `find` can be called on the rest from element `c` on: no vector instructions, or a multiple of the width of a vector as address,
or less than a vector left. -/
def Callable (isa : Isa) (k last : Nat) (m : Mem) (c : Nat) : Prop :=
  isa = .scalar ∨ (m.base + c * k) % isa.width = 0 ∨ last - c < isa.width / k

/-! ### Splitting -/

theorem elem_tail (m : Mem) (k c j : Nat) : elem (m.tail k c) k j = elem m k (c + j) := by
  unfold elem slice Mem.tail
  rw [List.drop_drop, Nat.add_mul]

theorem tail_ok {k last : Nat} {m : Mem} {value : List Byte} (h : Ok k last m value) (c : Nat) :
    Ok k (last - c) (m.tail k c) value :=
  ⟨h.size, by rw [Mem.tail, List.length_drop, h.bytes, Nat.sub_mul], h.value⟩

theorem splitLoop_spec (isa : Isa) {k last : Nat} {m : Mem} {value : List Byte} (h : Ok k last m value) {fuel : Nat}
    (hf : last < fuel) : ∀ (rounds c : Nat), c ≤ last → last - c < rounds →
    ((∃ ps, splitLoop intEq isa k last m value fuel rounds c = .ok ps) ↔
      ∀ c', c ≤ c' → c' ≤ last → (c' = c ∨ elem m k (c' - 1) = value) → Callable isa k last m c') ∧
    ∀ ps, splitLoop intEq isa k last m value fuel rounds c = .ok ps →
      ps ≠ [] ∧ joinWith value (ps.map (piece m k)) = piece m k (c, last - c) ∧ ∀ p ∈ ps, value ∉ piece m k p
  | 0, c, _, hr => by omega
  | rounds + 1, c, hc, hr => by
    have hok := tail_ok h c
    by_cases hcall : Callable isa k last m c
    · obtain ⟨i, hi⟩ := (find_address_partial (isa := isa) hok (fuel := fuel) (by omega)).mpr hcall
      obtain ⟨h1, h2, h3⟩ := (find_first isa hok (fuel := fuel) (by omega)).1 i hi
      have h2' : ∀ j < i, elem m k (c + j) ≠ value := by
        intro j hj
        have := h2 j hj
        rw [elem_tail] at this
        simpa [intEq] using this
      have hno : value ∉ piece m k (c, i) := by
        intro hv
        obtain ⟨j, hj, e⟩ := List.mem_map.mp hv
        exact h2' j (List.mem_range.mp hj) e
      by_cases hl : c + i = last
      · have e : splitLoop intEq isa k last m value fuel (rounds + 1) c = .ok [(c, i)] := by
          rw [splitLoop, hi]; simp only; rw [if_pos hl]
        rw [e]
        refine ⟨⟨fun _ c' g1 g2 g3 => ?_, fun _ => ⟨_, rfl⟩⟩, ?_⟩
        · rcases g3 with rfl | g3
          · exact hcall
          · rcases Nat.eq_or_lt_of_le g1 with rfl | g1
            · exact hcall
            · have := h2' (c' - 1 - c) (by omega)
              rw [show c + (c' - 1 - c) = c' - 1 by omega] at this
              exact absurd g3 this
        · rintro ps ⟨⟩
          refine ⟨by simp, ?_, ?_⟩
          · rw [show last - c = i by omega]; rfl
          · intro p hp; rw [List.mem_singleton.mp hp]; exact hno
      · have hlt : i < last - c := by omega
        have hsep : elem m k (c + i) = value := by
          have := h3 hlt
          rw [elem_tail] at this
          simpa [intEq] using this
        obtain ⟨g1, g2⟩ := splitLoop_spec isa h hf rounds (c + i + 1) (by omega) (by omega)
        have e : ∀ ps, splitLoop intEq isa k last m value fuel (rounds + 1) c = .ok ps ↔
            ∃ qs, splitLoop intEq isa k last m value fuel rounds (c + i + 1) = .ok qs ∧ ps = (c, i) :: qs := by
          intro ps
          rw [splitLoop, hi]
          simp only
          rw [if_neg hl]
          cases splitLoop intEq isa k last m value fuel rounds (c + i + 1) with
          | ok qs => simp [eq_comm]
          | ub f => simp
          | hang => simp
        refine ⟨?_, ?_⟩
        · constructor
          · rintro ⟨ps, hp⟩ c' k1 k2 k3
            obtain ⟨qs, hq, -⟩ := (e ps).mp hp
            by_cases hc' : c' = c
            · rw [hc']; exact hcall
            · have k3' := k3.resolve_left hc'
              have hge : c + i + 1 ≤ c' := by
                by_contra hlt'
                have := h2' (c' - 1 - c) (by omega)
                rw [show c + (c' - 1 - c) = c' - 1 by omega] at this
                exact this k3'
              exact g1.mp ⟨qs, hq⟩ c' hge k2 (Or.inr k3')
          · intro hall
            obtain ⟨qs, hq⟩ := g1.mpr fun c' k1 k2 k3 => by
              refine hall c' (by omega) k2 (Or.inr ?_)
              rcases k3 with rfl | k3
              · exact hsep
              · exact k3
            exact ⟨_, (e _).mpr ⟨qs, hq, rfl⟩⟩
        · intro ps hp
          obtain ⟨qs, hq, rfl⟩ := (e ps).mp hp
          obtain ⟨q1, q2, q3⟩ := g2 qs hq
          refine ⟨by simp, ?_, ?_⟩
          · cases qs with
            | nil => exact absurd rfl q1
            | cons q qs =>
              rw [List.map_cons, List.map_cons, joinWith, ← List.map_cons, q2]
              have : last - c = i + (1 + (last - (c + i + 1))) := by omega
              unfold piece
              simp only
              rw [this, List.range_add, List.map_append, List.range_add, List.map_append, List.map_append, List.map_map, List.map_map]
              have hz : ((fun j => elem m k (c + j)) ∘ fun x => i + x) 0 = value := hsep
              simp only [List.range_one, List.map_cons, List.map_nil, List.singleton_append, hz]
              congr 2
              rw [List.map_map]
              refine List.map_congr_left fun j _ => ?_
              simp only [Function.comp]
              congr 1; omega
          · intro p hp'
            rcases List.mem_cons.mp hp' with rfl | hp'
            · exact hno
            · exact q3 p hp'
    · have hub : splitLoop intEq isa k last m value fuel (rounds + 1) c = .ub .misaligned := by
        unfold Callable at hcall
        push Not at hcall
        rw [splitLoop, find_misaligned hok hcall.1 hcall.2.1 hcall.2.2 (by omega)]
      rw [hub]
      refine ⟨⟨fun ⟨ps, hp⟩ => (by cases hp), fun hall => absurd (hall c (Nat.le_refl _) hc (Or.inl rfl)) hcall⟩, fun ps hp => by cases hp⟩

/-- C179, what holds. The full claim is "splitting gives the pieces between the separators, for every range at every address". If the
loop returns, the pieces joined by the separator are the range and none contains the separator; and it returns exactly if every
piece begins where `find` can be called. In the build without vector instructions this is always so. -/
theorem split_partial (isa : Isa) {k last : Nat} {m : Mem} {value : List Byte} (h : Ok k last m value) {fuel rounds : Nat}
    (hf : last < fuel) (hr : last < rounds) :
    (∀ ps, splitLoop intEq isa k last m value fuel rounds 0 = .ok ps →
      joinWith value (ps.map (piece m k)) = (List.range last).map (elem m k) ∧ ∀ p ∈ ps, value ∉ piece m k p) ∧
    ((∃ ps, splitLoop intEq isa k last m value fuel rounds 0 = .ok ps) ↔
      ∀ c, c ≤ last → (c = 0 ∨ elem m k (c - 1) = value) → Callable isa k last m c) ∧
    (isa = .scalar → ∃ ps, splitLoop intEq isa k last m value fuel rounds 0 = .ok ps) := by
  obtain ⟨h1, h2⟩ := splitLoop_spec isa h hf rounds 0 (by omega) (by omega)
  refine ⟨fun ps hp => ?_, ?_, fun hs => h1.mpr fun c _ _ _ => Or.inl hs⟩
  · obtain ⟨-, g2, g3⟩ := h2 ps hp
    refine ⟨?_, g3⟩
    rw [g2]
    simp [piece]
  · rw [h1]
    exact ⟨fun g c k1 k2 => g c (Nat.zero_le _) k1 k2, fun g c _ k1 k2 => g c k1 k2⟩

/-- C179 is false of the builds with vector instructions: whenever a separator is followed by at least one vector of elements that
does not begin at a multiple of the width, splitting is undefined, even if the range itself is aligned. -/
theorem split_wrong {isa : Isa} (hi : isa ≠ .scalar) {k last : Nat} {m : Mem} {value : List Byte} (h : Ok k last m value)
    {fuel rounds : Nat} (hf : last < fuel) (hr : last < rounds) (c : Nat) (hc : c + 1 ≤ last) (hs : elem m k c = value)
    (hl : isa.width / k ≤ last - (c + 1)) (ha : (m.base + (c + 1) * k) % isa.width ≠ 0) :
    ¬∃ ps, splitLoop intEq isa k last m value fuel rounds 0 = .ok ps := by
  rw [(split_partial isa h hf hr).2.1]
  intro hall
  rcases hall (c + 1) hc (Or.inr (by rw [Nat.add_sub_cancel]; exact hs)) with g | g | g
  · exact hi g
  · exact ha g
  · omega

/-- Forty bytes at a multiple of 64, the third of them a comma: undefined in the AVX2 build, and two pieces without vector
instructions. -/
def commaText : Mem := ⟨64, (List.range 40).map fun i => if i = 2 then 44#8 else 97#8⟩

example : splitLoop intEq .avx2 1 40 commaText [44#8] 50 50 0 = .ub .misaligned := by decide +kernel

example : splitLoop intEq .scalar 1 40 commaText [44#8] 50 50 0 = .ok [(0, 2), (3, 37)] := by decide +kernel

/-- With the comma at position 31 the second piece is aligned and short. -/
example : splitLoop intEq .avx2 1 40 ⟨64, (List.range 40).map fun i => if i = 31 then 44#8 else 97#8⟩ [44#8] 50 50 0 =
    .ok [(0, 31), (32, 8)] := by decide +kernel

end Verif.Algo

namespace Verif.Algo.Rev

open Verif.Algo

variable {α : Type}

/-! ### Rotating -/

theorem rotate_of {rev : Nat → Nat → List α → Res (List α × Nat)} {k fuel : Nat} {m : List α}
    (hrev : ∀ l : List α, l.length ≤ m.length → rev l.length fuel l = .ok (l.reverse, l.length)) (hk : k ≤ m.length) :
    rotate rev k fuel m = .ok (m.drop k ++ m.take k) := by
  have e1 := hrev (m.take k) (by rw [List.length_take]; omega)
  rw [show (m.take k).length = k by rw [List.length_take]; omega] at e1
  have e2 := hrev (m.drop k) (by rw [List.length_drop]; omega)
  rw [show (m.drop k).length = m.length - k by rw [List.length_drop]] at e2
  have hlen : ((m.take k).reverse ++ (m.drop k).reverse).length = m.length := by
    simp only [List.length_append, List.length_reverse, List.length_take, List.length_drop]; omega
  have e3 := hrev ((m.take k).reverse ++ (m.drop k).reverse) (Nat.le_of_eq hlen)
  rw [hlen] at e3
  unfold rotate
  rw [e1]
  simp only
  rw [e2]
  simp only
  rw [e3]
  simp

/-- C180, what holds. The full claim is "three calls of `reverse` rotate the range, for elements of every size in every build". It holds
for bytes in every build, for two-byte elements in the build without vector instructions, and in the SSE3 build for fewer than
sixteen of them. -/
theorem rotate_partial :
    (∀ (isa : Isa) (m : List Byte) (k fuel : Nat), k ≤ m.length → m.length < fuel →
      rotate (reverse1 isa) k fuel m = .ok (m.drop k ++ m.take k)) ∧
    (∀ (m : List α) (k fuel : Nat), k ≤ m.length → m.length < fuel →
      rotate (reverse2 .scalar) k fuel m = .ok (m.drop k ++ m.take k)) ∧
    (∀ (m : List α) (k fuel : Nat), k ≤ m.length → m.length < fuel → m.length < 16 →
      rotate (reverse2 .sse3) k fuel m = .ok (m.drop k ++ m.take k)) :=
  ⟨fun isa _ _ _ hk hf => rotate_of (fun l hl => reverse_bytes isa l (by omega)) hk,
    fun _ _ _ hk hf => rotate_of (fun l hl => (reverse_two_bytes_other l (by omega)).1) hk,
    fun _ _ _ hk hf h16 => rotate_of (fun l hl => reverse_two_bytes_partial l (by omega) (by omega)) hk⟩

/-- C180 is false of two-byte elements in the SSE3 build: rotating twenty elements by three gives something else, and in the AVX2 build the
program does not compile. -/
theorem rotate_wrong :
    rotate (reverse2 .sse3) 3 21 (List.range 20) ≠ .ok ((List.range 20).drop 3 ++ (List.range 20).take 3) ∧
    ∀ (m : List α) (k fuel : Nat), rotate (reverse2 .avx2) k fuel m = .ub .illFormed :=
  ⟨by decide +kernel, fun _ _ _ => rfl⟩

example : rotate (reverse1 .avx2) 5 80 ((List.range 70).map (BitVec.ofNat 8)) =
    .ok (((List.range 70).drop 5 ++ (List.range 70).take 5).map (BitVec.ofNat 8)) := by decide +kernel

example : rotate (reverse2 .sse3) 3 21 (List.range 12) = .ok [3, 4, 5, 6, 7, 8, 9, 10, 11, 0, 1, 2] := by decide +kernel

end Verif.Algo.Rev
