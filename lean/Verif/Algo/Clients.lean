import Verif.Algo.Find
import Verif.Algo.Reverse

/-!
Programs around `find` and `reverse`: splitting a range at a separator, and rotating a range. FD = `algorithm/find.hpp`, RV =
`algorithm/reverse.hpp`.
-/

set_option autoImplicit false

namespace Verif.Algo

/-- The rest of the range, from element `c` of `k` bytes on. Part of the model, not of the code. -/
def Mem.tail (m : Mem) (k c : Nat) : Mem := ⟨m.base + c * k, m.bytes.drop (c * k)⟩

/-- `for(auto c = first;; ++c) { auto i = find(c, last, value); out.push_back({c, i}); if(i == last) break; c = i; }`, counted from
`first`: the start and the number of elements of each piece, with `find`, FD 71-99. -/
def splitLoop (eqv : List Byte → List Byte → Bool) (isa : Isa) (k last : Nat) (m : Mem) (value : List Byte) (fuel : Nat) :
    Nat → Nat → Res (List (Nat × Nat))
  | 0, _ => .hang
  | rounds + 1, c =>
    match find eqv isa k (last - c) (m.tail k c) value fuel with
    | .ub f => .ub f
    | .hang => .hang
    | .ok i =>
      if c + i = last then .ok [(c, i)]
      else
        match splitLoop eqv isa k last m value fuel rounds (c + i + 1) with
        | .ok ps => .ok ((c, i) :: ps)
        | .ub f => .ub f
        | .hang => .hang

end Verif.Algo

namespace Verif.Algo.Rev

open Verif.Algo

/-- One call after the other on parts of a range: `reverse(first, first + k); reverse(first + k, last); reverse(first, last);`, RV
47-71, where `rev` is `reverse` for the type of the elements. -/
def rotate {α : Type} (rev : Nat → Nat → List α → Res (List α × Nat)) (k fuel : Nat) (m : List α) : Res (List α) :=
  match rev k fuel (m.take k) with
  | .ub f => .ub f
  | .hang => .hang
  | .ok (a, _) =>
    match rev (m.length - k) fuel (m.drop k) with
    | .ub f => .ub f
    | .hang => .hang
    | .ok (b, _) =>
      match rev m.length fuel (a ++ b) with
      | .ub f => .ub f
      | .hang => .hang
      | .ok (r, _) => .ok r

end Verif.Algo.Rev
