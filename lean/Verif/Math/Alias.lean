/-!
# The assignment operators of vectors and matrices on objects in memory

V stands for `include/xme/math/vector.hpp`, V2, V3, V4 for `vectors/vector2.hpp`, `vectors/vector3.hpp`,
`vectors/vector4.hpp`, M for `matrix.hpp` and M4 for `matrices/matrix4x4.hpp` below `include/xme/math`.

The components lie in a memory of cells of type `α`, those of a vector next to each other and the columns of a matrix next
to each other. The operand is an object in the same memory: another object, or the vector or matrix itself, or a part of
it. The arithmetic operation, with the conversion of the operand in it, is any function. Operands of another component type
cannot be in the same cells; they are the case of separate objects.
-/

set_option autoImplicit false

namespace Verif.Alias

/-- A memory of cells. Part of the model, not of the code. -/
abbrev Mem (α : Type) := Nat → α

variable {α : Type}

/-- `cell = x`. Part of the model, not of the code. -/
def put (m : Mem α) (p : Nat) (x : α) : Mem α := fun q => if q = p then x else m q

/-- `(*this)[i] op static_cast<T>(v[i])`, V 34. -/
def comp (op : α → α → α) (a b i : Nat) (m : Mem α) : Mem α := put m (a + i) (op (m (a + i)) (m (b + i)))

/-- `(*this)[i] op static_cast<T>(s)`, V 28. -/
def compS (op : α → α → α) (a : Nat) (s : α) (i : Nat) (m : Mem α) : Mem α := put m (a + i) (op (m (a + i)) s)

/-- The loop `for(std::size_t i = 0; i < n; ++i)`, V 27, 33, M 30, 39, M4 25, 34. -/
def loop (n : Nat) (body : Nat → Mem α → Mem α) (m : Mem α) : Mem α := (List.range n).foldl (fun m i => body i m) m

/-- `v op= w` for the vectors at `a` and `b`, V 31-36. -/
def vec (op : α → α → α) (n a b : Nat) (m : Mem α) : Mem α := loop n (comp op a b) m

/-- `v op= s` for the vector at `a`, V 26-30: `s` is passed by value. -/
def vecS (op : α → α → α) (n a : Nat) (s : α) (m : Mem α) : Mem α := loop n (compS op a s) m

/-- `v op= w`, V2 30-35. -/
def vec2 (op : α → α → α) (a b : Nat) (m : Mem α) : Mem α :=
  let m := comp op a b 0 m
  comp op a b 1 m

/-- `v op= s`, V2 25-29. -/
def vec2S (op : α → α → α) (a : Nat) (s : α) (m : Mem α) : Mem α :=
  let m := compS op a s 0 m
  compS op a s 1 m

/-- `v op= w`, V3 33-39. -/
def vec3 (op : α → α → α) (a b : Nat) (m : Mem α) : Mem α :=
  let m := comp op a b 0 m
  let m := comp op a b 1 m
  comp op a b 2 m

/-- `v op= s`, V3 27-32. -/
def vec3S (op : α → α → α) (a : Nat) (s : α) (m : Mem α) : Mem α :=
  let m := compS op a s 0 m
  let m := compS op a s 1 m
  compS op a s 2 m

/-- `v op= w`, V4 36-43. -/
def vec4 (op : α → α → α) (a b : Nat) (m : Mem α) : Mem α :=
  let m := comp op a b 0 m
  let m := comp op a b 1 m
  let m := comp op a b 2 m
  comp op a b 3 m

/-- `v op= s`, V4 29-35. -/
def vec4S (op : α → α → α) (a : Nat) (s : α) (m : Mem α) : Mem α :=
  let m := compS op a s 0 m
  let m := compS op a s 1 m
  let m := compS op a s 2 m
  compS op a s 3 m

/-- `v op= w` on the vector of each size: the specialisations of V2, V3 and V4, V 31-36 otherwise. -/
def vecOp (op : α → α → α) (n a b : Nat) (m : Mem α) : Mem α :=
  match n with
  | 2 => vec2 op a b m
  | 3 => vec3 op a b m
  | 4 => vec4 op a b m
  | n => vec op n a b m

/-- `v op= s` on the vector of each size: the specialisations of V2, V3 and V4, V 26-30 otherwise. -/
def vecOpS (op : α → α → α) (n a : Nat) (s : α) (m : Mem α) : Mem α :=
  match n with
  | 2 => vec2S op a s m
  | 3 => vec3S op a s m
  | 4 => vec4S op a s m
  | n => vecS op n a s m

/-- `v op= x` where `x` is the cell at `p`: the argument is read when the call begins, `auto s` in V 26, V2 25, V3 27, V4
29. -/
def vecCell (op : α → α → α) (n a p : Nat) (m : Mem α) : Mem α :=
  let s := m p
  vecOpS op n a s m

/-- `m op= k` for the matrices at `a` and `b` with `c` columns of `r` components, M 37-42 and M4 32-37. -/
def mat (op : α → α → α) (c r a b : Nat) (m : Mem α) : Mem α := loop c (fun i => vecOp op r (a + i * r) (b + i * r)) m

/-- `m op= x` where `x` is the cell at `p`: read when the call begins, `auto s` in M 29-33 and M4
24-28. -/
def matCell (op : α → α → α) (c r a p : Nat) (m : Mem α) : Mem α :=
  let s := m p
  loop c (fun i => vecOpS op r (a + i * r) s) m

end Verif.Alias
