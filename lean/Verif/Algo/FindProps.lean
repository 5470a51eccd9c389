import Verif.Algo.FindLemmas

/-!
# Properties of `find`

The range has `last` elements of `k` bytes; the element at `i` is `elem m k i`. For integers `==` is equality of
representations (`intEq`); for IEEE-754 floating point it is `floatEq`.
-/

set_option autoImplicit false

namespace Verif.Algo

/-- `r` is the position of the first element `x` with `x == value`, or the end. -/
def IsFirst (eqv : List Byte → List Byte → Bool) (m : Mem) (k last : Nat) (value : List Byte) (r : Nat) : Prop :=
  r ≤ last ∧ (∀ j < r, eqv (elem m k j) value = false) ∧ (r < last → eqv (elem m k r) value = true)

/-- The program is well-formed: an element size the code accepts, a range of whole elements, a value of that size. -/
structure Ok (k last : Nat) (m : Mem) (value : List Byte) : Prop where
  size : SizeOk k
  bytes : m.bytes.length = last * k
  value : value.length = k

/-- `==` on integers. -/
def intEq (a b : List Byte) : Bool := decide (a = b)

theorem find_run {eqv : List Byte → List Byte → Bool} {isa : Isa} {k last : Nat} {m : Mem} {value : List Byte}
    (h : Ok k last m value) (ha : isa ≠ .scalar → m.base % isa.width = 0 ∨ last < isa.width / k)
    (he : isa ≠ .scalar → last < isa.width / k ∨ ∀ i < last, eqv (elem m k i) value = decide (elem m k i = value))
    {fuel : Nat} (hf : last < fuel) :
    ∃ r, find eqv isa k last m value fuel = .ok r ∧ IsFirst eqv m k last value r := by
  have tail : ∀ (e : find eqv isa k last m value fuel = findTail eqv k last m value fuel 0),
      ∃ r, find eqv isa k last m value fuel = .ok r ∧ IsFirst eqv m k last value r := by
    intro e
    obtain ⟨r, h1, -, h2, h3, h4⟩ := findTail_spec (eqv := eqv) (value := value) h.bytes fuel 0 (by omega) (by omega)
    exact ⟨r, e.trans h1, h2, fun j hj => h3 j (by omega) hj, h4⟩
  by_cases hi : isa = .scalar
  · subst hi; exact tail rfl
  · have e : find eqv isa k last m value fuel = findBlocks eqv isa k last m value fuel 0 := by
      cases isa with
      | scalar => exact absurd rfl hi
      | _ => rfl
    by_cases hl : last < isa.width / k
    · refine tail (e.trans ?_)
      cases fuel with
      | zero => omega
      | succ fuel => rw [findBlocks, if_neg (by omega)]
    · obtain ⟨r, h1, -, h2, h3, h4⟩ := findBlocks_spec hi h.size h.value h.bytes ((ha hi).resolve_right hl)
        ((he hi).resolve_left hl) fuel 0 (Nat.dvd_zero _) (by omega) (by omega)
      exact ⟨r, e.trans h1, h2, fun j hj => h3 j (by omega) hj, h4⟩

theorem find_misaligned {eqv : List Byte → List Byte → Bool} {isa : Isa} {k last : Nat} {m : Mem}
    {value : List Byte} (h : Ok k last m value) (hi : isa ≠ .scalar) (ha : m.base % isa.width ≠ 0)
    (hl : isa.width / k ≤ last) {fuel : Nat} (hf : 0 < fuel) :
    find eqv isa k last m value fuel = .ub .misaligned := by
  have e : find eqv isa k last m value fuel = findBlocks eqv isa k last m value fuel 0 := by
    cases isa with
    | scalar => exact absurd rfl hi
    | _ => rfl
  cases fuel with
  | zero => omega
  | succ fuel =>
    rw [e, findBlocks, if_pos (by omega), findSimd_misaligned hi h.size (by simpa using ha) ?_]
    rw [h.bytes, Nat.zero_mul, Nat.zero_add, ← (width_div (isa := isa) h.size).1]
    exact Nat.mul_le_mul_right _ hl

/-- C37. Over integers of 1, 2, 4 or 8 bytes, in every build, `find` gives the position of the first element equal
to the value, or the end: at every address for which it returns at all (C39 says which these are). -/
theorem find_first (isa : Isa) {k last : Nat} {m : Mem} {value : List Byte} (h : Ok k last m value) {fuel : Nat}
    (hf : last < fuel) :
    (∀ r, find intEq isa k last m value fuel = .ok r → IsFirst intEq m k last value r) ∧
    (m.base % isa.width = 0 → ∃ r, find intEq isa k last m value fuel = .ok r) := by
  constructor
  · intro r hr
    by_cases ha : isa ≠ .scalar → m.base % isa.width = 0 ∨ last < isa.width / k
    · obtain ⟨r', e, h'⟩ := find_run (eqv := intEq) h ha (fun _ => .inr fun _ _ => rfl) hf
      rw [e] at hr; cases hr; exact h'
    · push Not at ha
      rw [find_misaligned h ha.1 ha.2.1 ha.2.2 (by omega)] at hr
      cases hr
  · intro ha
    obtain ⟨r, e, -⟩ := find_run (eqv := intEq) h (fun _ => .inl ha) (fun _ => .inr fun _ _ => rfl) hf
    exact ⟨r, e⟩

/-- C37. The position is the one a list search finds. -/
theorem find_eq_findIdx (isa : Isa) {k last : Nat} {m : Mem} {value : List Byte} (h : Ok k last m value) {fuel : Nat}
    (hf : last < fuel) (ha : m.base % isa.width = 0) :
    find intEq isa k last m value fuel =
      .ok (((List.range last).map (elem m k)).findIdx (· = value)) := by
  obtain ⟨r, e, h1, h2, h3⟩ := find_run (eqv := intEq) h (fun _ => .inl ha) (fun _ => .inr fun _ _ => rfl) hf
  rw [e]
  congr 1
  symm
  rcases Nat.eq_or_lt_of_le h1 with rfl | hr
  · have : (List.map (elem m k) (List.range r)).findIdx (· = value) = (List.map (elem m k) (List.range r)).length := by
      apply List.findIdx_eq_length_of_false
      intro x hx
      obtain ⟨j, hj, rfl⟩ := List.mem_map.1 hx
      exact h2 j (List.mem_range.1 hj)
    simpa using this
  · rw [List.findIdx_eq (by simpa using hr)]
    refine ⟨by simpa [intEq] using h3 hr, fun j hj => ?_⟩
    simpa [intEq] using h2 j hj

/-- C38. `find` never accesses memory outside the range, at any address, in any build, for any `==`. -/
theorem find_inside (eqv : List Byte → List Byte → Bool) (isa : Isa) {k last : Nat} {m : Mem} {value : List Byte}
    (h : Ok k last m value) (fuel : Nat) : find eqv isa k last m value fuel ≠ .ub .outside := by
  have tail : ∀ fuel c, c ≤ last → findTail eqv k last m value fuel c ≠ .ub .outside := by
    intro fuel
    induction fuel with
    | zero => intro c _ h; cases h
    | succ fuel ih =>
      intro c hc
      unfold findTail
      by_cases hl : c = last
      · simp [hl]
      · have hr : readElem m k c = .ok (elem m k c) := by
          unfold readElem
          rw [if_pos]; rfl
          rw [h.bytes]
          calc c * k + k = (c + 1) * k := by ring
            _ ≤ last * k := Nat.mul_le_mul_right _ (by omega)
        rw [if_pos hl, hr]
        show (if _ then _ else _) ≠ _
        split
        · simp
        · exact ih _ (by omega)
  have blocks : isa ≠ .scalar → ∀ fuel c, c ≤ last → findBlocks eqv isa k last m value fuel c ≠ .ub .outside := by
    intro hi fuel
    induction fuel with
    | zero => intro c _ h; cases h
    | succ fuel ih =>
      intro c hc
      unfold findBlocks
      split
      · rename_i hl
        have hb : c * k + isa.width ≤ m.bytes.length := by
          rw [h.bytes, ← (width_div (isa := isa) h.size).1, ← Nat.add_mul]
          exact Nat.mul_le_mul_right _ hl
        by_cases ha : (m.base + c * k) % isa.width = 0
        · obtain ⟨idx, e, -⟩ := findSimd_spec hi h.size h.value ha hb
          rw [e]
          show (if _ then _ else _) ≠ _
          split
          · simp
          · exact ih _ hl
        · rw [findSimd_misaligned hi h.size ha hb]; simp
      · exact tail _ _ hc
  cases isa with
  | scalar => exact tail fuel 0 (by omega)
  | avx2 => exact blocks (by simp) fuel 0 (by omega)
  | sse2 => exact blocks (by simp) fuel 0 (by omega)

/-- C39 is false: in the AVX2 and SSE2 builds, over every range of at least one vector that does not start at a
multiple of the vector width, `find` performs an aligned vector access at a misaligned address. -/
theorem find_address_wrong {eqv : List Byte → List Byte → Bool} {isa : Isa} {k last : Nat} {m : Mem}
    {value : List Byte} (h : Ok k last m value) (hi : isa ≠ .scalar) (ha : m.base % isa.width ≠ 0)
    (hl : isa.width / k ≤ last) {fuel : Nat} (hf : 0 < fuel) :
    find eqv isa k last m value fuel = .ub .misaligned := find_misaligned h hi ha hl hf

/-- C39, what holds. The full claim is "`find` is defined at every address suitable for the element type"; it holds
in the scalar build, for ranges shorter than a vector, and for ranges that start at a multiple of the vector
width. By `find_address_wrong` it holds for no other. -/
theorem find_address_partial {isa : Isa} {k last : Nat} {m : Mem} {value : List Byte} (h : Ok k last m value)
    {fuel : Nat} (hf : last < fuel) :
    (∃ r, find intEq isa k last m value fuel = .ok r) ↔
      (isa = .scalar ∨ m.base % isa.width = 0 ∨ last < isa.width / k) := by
  constructor
  · rintro ⟨r, hr⟩
    by_contra hc
    push Not at hc
    rw [find_misaligned h hc.1 hc.2.1 hc.2.2 (by omega)] at hr
    cases hr
  · intro hc
    obtain ⟨r, e, -⟩ := find_run (eqv := intEq) h (isa := isa) (fun hi => hc.resolve_left hi)
      (fun _ => .inr fun _ _ => rfl) hf
    exact ⟨r, e⟩

/-! ### Floating point -/

/-- The unsigned number with these little-endian bytes. -/
def leNat : List Byte → Nat
  | [] => 0
  | b :: bs => b.toNat + 256 * leNat bs

theorem leNat_inj : ∀ {a b : List Byte}, a.length = b.length → leNat a = leNat b → a = b
  | [], [], _, _ => rfl
  | x :: xs, y :: ys, hl, h => by
    simp only [leNat] at h
    have hx := x.isLt
    have hy := y.isLt
    have h1 : x.toNat = y.toNat := by omega
    have h2 : leNat xs = leNat ys := by omega
    rw [BitVec.eq_of_toNat_eq h1, leNat_inj (by simpa using hl) h2]

/-- An IEEE-754 binary format: widths of exponent and fraction. -/
structure Fmt where
  e : Nat
  f : Nat

def binary32 : Fmt := ⟨8, 23⟩
def binary64 : Fmt := ⟨11, 52⟩

def Fmt.isNaN (t : Fmt) (a : List Byte) : Bool :=
  decide (leNat a / 2 ^ t.f % 2 ^ t.e = 2 ^ t.e - 1) && decide (leNat a % 2 ^ t.f ≠ 0)

def Fmt.isZero (t : Fmt) (a : List Byte) : Bool := decide (leNat a % 2 ^ (t.e + t.f) = 0)

/-- `==`: no NaN equals anything, the two zeros are equal, otherwise equal numbers have equal representations. -/
def floatEq (t : Fmt) (a b : List Byte) : Bool :=
  !t.isNaN a && !t.isNaN b && (decide (leNat a = leNat b) || (t.isZero a && t.isZero b))

theorem floatEq_eq {t : Fmt} {a v : List Byte} (hl : a.length = v.length) (hn : t.isNaN v = false)
    (hz : t.isZero v = false) : floatEq t a v = decide (a = v) := by
  unfold floatEq
  by_cases h : a = v
  · subst h; simp [hn]
  · have : leNat a ≠ leNat v := fun e => h (leNat_inj hl e)
    simp [h, this, hz]

/-- C40, what holds. The full claim is "`find` over floats returns the first element `x` with `x == value`"; it
holds when the value sought is neither zero nor a NaN, or the range is shorter than a vector. -/
theorem find_float_partial (t : Fmt) (isa : Isa) {k last : Nat} {m : Mem} {value : List Byte}
    (h : Ok k last m value) (ha : m.base % isa.width = 0)
    (hv : (t.isNaN value = false ∧ t.isZero value = false) ∨ last < isa.width / k ∨ isa = .scalar) {fuel : Nat}
    (hf : last < fuel) :
    ∃ r, find (floatEq t) isa k last m value fuel = .ok r ∧ IsFirst (floatEq t) m k last value r := by
  refine find_run h (fun _ => .inl ha) (fun hi => ?_) hf
  rcases hv with hv | hv | hv
  · refine .inr fun i hlt => floatEq_eq ?_ hv.1 hv.2
    rw [h.value, elem, length_slice]
    rw [h.bytes]
    calc i * k + k = (i + 1) * k := by ring
      _ ≤ last * k := Nat.mul_le_mul_right _ (by omega)
  · exact .inl hv
  · exact absurd hv hi

/-- C40, exactly, and for every element type with a `==` of its own. In the SIMD builds the elements in whole vectors
(those before the position `v`, the last multiple of the number of elements in a vector) are compared by their
bytes, and only the elements after them with `==`. The result is the first element found so, or the end. -/
theorem find_any_exact (eqv : List Byte → List Byte → Bool) (isa : Isa) (hi : isa ≠ .scalar) {k last : Nat} {m : Mem}
    {value : List Byte} (h : Ok k last m value) (ha : m.base % isa.width = 0) {fuel : Nat} (hf : last < fuel) (v : Nat)
    (hv : isa.width / k ∣ v) (h1 : v ≤ last) (h2 : last < v + isa.width / k) :
    ∃ r, find eqv isa k last m value fuel = .ok r ∧ r ≤ last ∧
      (∀ j < r, (j < v → elem m k j ≠ value) ∧ (v ≤ j → eqv (elem m k j) value = false)) ∧
      (r < last → (r < v → elem m k r = value) ∧ (v ≤ r → eqv (elem m k r) value = true)) := by
  have e : find eqv isa k last m value fuel = findBlocks eqv isa k last m value fuel 0 := by
    cases isa with
    | scalar => exact absurd rfl hi
    | _ => rfl
  have hu : ∀ u, isa.width / k ∣ u → u ≤ last → u ≤ v := by
    intro u hu hul
    obtain ⟨a, rfl⟩ := hu
    obtain ⟨b, rfl⟩ := hv
    refine Nat.mul_le_mul_left _ ?_
    by_contra hc
    have := Nat.mul_le_mul_left (isa.width / k) (show b + 1 ≤ a by omega)
    rw [Nat.mul_add] at this
    omega
  have hu' : ∀ u, isa.width / k ∣ u → last < u + isa.width / k → v ≤ u := by
    intro u hu hul
    obtain ⟨a, rfl⟩ := hu
    obtain ⟨b, rfl⟩ := hv
    refine Nat.mul_le_mul_left _ ?_
    by_contra hc
    have := Nat.mul_le_mul_left (isa.width / k) (show a + 1 ≤ b by omega)
    rw [Nat.mul_add] at this
    omega
  obtain ⟨r, g1, -, g2, g3, g4⟩ := findBlocks_any (eqv := eqv) hi h.size h.value h.bytes ha
    (test := fun i => if i < v then decide (elem m k i = value) else eqv (elem m k i) value)
    (fun i u hud hiu hul => by have := hu u hud hul; simp only [if_pos (show i < v by omega)])
    (fun i u hud hui _ hlu => by have := hu' u hud hlu; simp only [if_neg (show ¬ i < v by omega)])
    fuel 0 (Nat.dvd_zero _) (by omega) (by omega)
  refine ⟨r, e.trans g1, g2, fun j hj => ?_, fun hr => ?_⟩
  · have := g3 j (by omega) hj
    refine ⟨fun hjv => ?_, fun hjv => ?_⟩
    · rw [if_pos hjv] at this; simpa using this
    · rw [if_neg (by omega)] at this; exact this
  · have := g4 hr
    refine ⟨fun hjv => ?_, fun hjv => ?_⟩
    · rw [if_pos hjv] at this; simpa using this
    · rw [if_neg (by omega)] at this; exact this

/-- The bytes of `0.0f`, `-0.0f` and a quiet NaN. -/
def posZero : List Byte := [0x00#8, 0x00#8, 0x00#8, 0x00#8]
def negZero : List Byte := [0x00#8, 0x00#8, 0x00#8, 0x80#8]
def quietNaN : List Byte := [0x00#8, 0x00#8, 0xc0#8, 0x7f#8]

/-- C40 is false: among four zeros `find` does not find the equal `-0.0f`, though it finds it in three; and it
finds a NaN, which equals nothing. -/
theorem find_float_wrong :
    (find (floatEq binary32) .sse2 4 4 ⟨0, posZero ++ posZero ++ posZero ++ posZero⟩ negZero 5 = .ok 4 ∧
      floatEq binary32 posZero negZero = true) ∧
    find (floatEq binary32) .sse2 4 3 ⟨0, posZero ++ posZero ++ posZero⟩ negZero 5 = .ok 0 ∧
    (find (floatEq binary32) .sse2 4 4 ⟨0, posZero ++ quietNaN ++ posZero ++ posZero⟩ quietNaN 5 = .ok 1 ∧
      floatEq binary32 quietNaN quietNaN = false) := by
  decide +kernel

/-! ### The hypotheses can be met -/

section Examples

/-- Forty bytes 0, 1, …, 39. -/
def sample : Mem := ⟨64, (List.range 40).map (BitVec.ofNat 8)⟩

example : Ok 1 40 sample [35#8] ∧ find intEq .avx2 1 40 sample [35#8] 41 = .ok 35 := by
  refine ⟨⟨.inl rfl, by decide, rfl⟩, by decide +kernel⟩
example : Ok 2 20 sample [34#8, 35#8] ∧ find intEq .sse2 2 20 sample [34#8, 35#8] 41 = .ok 17 ∧
    find intEq .sse2 2 20 sample [35#8, 34#8] 41 = .ok 20 := by
  refine ⟨⟨.inr (.inl rfl), by decide, rfl⟩, by decide +kernel, by decide +kernel⟩
example : find intEq .avx2 8 5 sample [24#8, 25#8, 26#8, 27#8, 28#8, 29#8, 30#8, 31#8] 6 = .ok 3 ∧
    find intEq .avx2 4 10 sample [4#8, 5#8, 6#8, 7#8] 11 = .ok 1 := by decide +kernel
/-- The same range at an address that is a multiple of 16 but not of 32. -/
example : find intEq .avx2 1 40 { sample with base := 16 } [35#8] 41 = .ub .misaligned ∧
    find intEq .sse2 1 40 { sample with base := 16 } [35#8] 41 = .ok 35 := by decide +kernel
example : binary32.isNaN quietNaN = true ∧ binary32.isZero negZero = true ∧
    binary32.isNaN [0#8, 0#8, 128#8, 63#8] = false ∧ binary32.isZero [0#8, 0#8, 128#8, 63#8] = false ∧
    binary32.isNaN [0#8, 0#8, 128#8, 127#8] = false := by decide +kernel

/-- Five floats in an SSE2 build: four zeros and one more. The value `-0.0f` is found, but as the last of them. -/
example : Ok 4 5 ⟨0, posZero ++ posZero ++ posZero ++ posZero ++ posZero⟩ negZero ∧
    find (floatEq binary32) .sse2 4 5 ⟨0, posZero ++ posZero ++ posZero ++ posZero ++ posZero⟩ negZero 6 = .ok 4 :=
  ⟨⟨.inr (.inr (.inl rfl)), by decide, rfl⟩, by decide +kernel⟩

end Examples

end Verif.Algo
