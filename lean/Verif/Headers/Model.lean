/-!
# What `ranges` means: the order of the headers

All files begin with `#pragma once` (line 1), so a file counts the first time it is included. Inside `namespace xme` the name
`ranges` means `xme::ranges` once that namespace has been declared (include/xme/ranges/destroy.hpp:6, uninitialized.hpp:6), and
before that `::ranges` of range-v3. `array_view.hpp` and `linked_list.hpp` write `ranges::` without `::` in front for what
range-v3 declares; `xme::ranges` does not have these members, so that the file does not compile when the name means
`xme::ranges`.

The model has the files that declare `xme::ranges`, use the name without `::` in front, or include such a file; the other files
of the library do none of this. Some of them include range-v3 (core/algorithm/find.hpp, reverse.hpp), which makes no difference
because the files in the model that use the name include it themselves. Look-up of other names, and of names that depend on template parameters, is not
modelled: `ranges` in front of `::` does not depend on them and is looked up where the template is defined.
-/

set_option autoImplicit false

namespace Verif.Headers

/-- include/xme/container: icontainer.hpp, pair.hpp, array.hpp, heap.hpp, array_view.hpp, linked_list.hpp, container.hpp,
spsc_queue.hpp; include/xme/ranges: destroy.hpp, uninitialized.hpp; `other` stands for the rest. -/
inductive Header
  | icontainer | pair | destroy | uninitialized | array | heap | arrayView | linkedList | container | spscQueue | other
deriving DecidableEq

/-- What happens in a file, in its order. Part of the model, not of the code. -/
inductive Item
  /-- `#include` of a file of the library -/
  | inc (h : Header)
  /-- `#include` of range-v3, which declares `::ranges` -/
  | rangeV3
  /-- `namespace xme::ranges {` -/
  | xmeRanges
  /-- `ranges::` in `namespace xme`, followed by a member of `::ranges` -/
  | useV3
  /-- `ranges::` in `namespace xme`, followed by a member of `xme::ranges` -/
  | useXme
deriving DecidableEq

/-- The files. -/
def contents : Header → List Item
  -- icontainer.hpp:2
  | .icontainer => [.rangeV3]
  -- pair.hpp:5
  | .pair => [.rangeV3]
  -- destroy.hpp:4, 6, 24, 35
  | .destroy => [.rangeV3, .xmeRanges, .useXme]
  -- uninitialized.hpp:2, 4, 6, 20, 45
  | .uninitialized => [.inc .destroy, .inc .pair, .xmeRanges, .useXme]
  -- array.hpp:3, 4, 7, 8, 58, 79, 135, 249, 267, 278, 302, 322
  | .array => [.rangeV3, .inc .icontainer, .inc .destroy, .inc .uninitialized, .useXme]
  -- heap.hpp:2, 3
  | .heap => [.inc .array, .rangeV3]
  -- array_view.hpp:2, 93-98, 225-226
  | .arrayView => [.inc .icontainer, .useV3]
  -- linked_list.hpp:3, 75, 156, 193
  | .linkedList => [.inc .icontainer, .useV3]
  -- container.hpp:4, 5, 6, 7, 9
  | .container => [.inc .array, .inc .arrayView, .inc .linkedList, .inc .spscQueue, .inc .pair]
  -- spsc_queue.hpp:6
  | .spscQueue => [.inc .container]
  | .other => []

/-- Number of a file in the set of those seen. Part of the model, not of the code. -/
def Header.idx : Header → Nat
  | .icontainer => 0 | .pair => 1 | .destroy => 2 | .uninitialized => 3 | .array => 4 | .heap => 5 | .arrayView => 6
  | .linkedList => 7 | .container => 8 | .spscQueue => 9 | .other => 10

/-- The compiler between two lines: the files seen, as a set of bits; which namespaces are declared; no error so far. Part of
the model, not of the code. -/
structure State where
  seen : Nat
  v3 : Bool
  xme : Bool
  ok : Bool
deriving DecidableEq

/-- Part of the model, not of the code. -/
def State.start : State := ⟨0, false, false, true⟩

/-- Part of the model, not of the code. -/
def State.saw (s : State) (h : Header) : Bool := s.seen.testBit h.idx

/-- Compilation of a file: `#pragma once`, then its lines. Look-up of `ranges` in `namespace xme` finds `xme::ranges` if it is
declared, otherwise `::ranges`. Each nested file that counts is a new one, so that `fuel`, a bound of the depth, is never used
up when it exceeds their number. Part of the model, not of the code. -/
def compile : Nat → Header → State → State
  | 0, _, s => { s with ok := false }
  | fuel + 1, h, s =>
    if s.saw h then s
    else
      (contents h).foldl (fun s i =>
        match i with
        | .inc g => compile fuel g s
        | .rangeV3 => { s with v3 := true }
        | .xmeRanges => { s with xme := true }
        | .useV3 => { s with ok := s.ok && (!s.xme && s.v3) }
        | .useXme => { s with ok := s.ok && s.xme })
        { s with seen := s.seen ||| (1 <<< h.idx) }

/-- A translation unit that includes these files in this order. -/
def translationUnit (hs : List Header) : State := hs.foldl (fun s h => compile 12 h s) .start

/-- Part of the model, not of the code. -/
def compiles (hs : List Header) : Bool := (translationUnit hs).ok

end Verif.Headers
