import Verif.Functional.Bind
import Verif.Tuple.Props

/-! # Properties of `bind_front` and `bind_back` -/

set_option autoImplicit false

namespace Verif.Bind

open Verif.Tup (Loc Mem Tuple)

variable {α γ : Type}

theorem boundArgs_all (self : Binder γ) (q : Q) :
    boundArgs self q (List.range self.bound.length) = some (self.bound.map fun l => ⟨l, getQ q⟩) := by
  have : ∀ is : List Nat, (∀ i ∈ is, i < self.bound.length) →
      boundArgs self q is = some (is.map fun i => ⟨self.bound.getD i 0, getQ q⟩) := by
    intro is
    induction is with
    | nil => intro _; rfl
    | cons i is ih =>
      intro h
      have hi := h i (by simp)
      simp only [boundArgs, List.map_cons]
      rw [ih fun j hj => h j (by simp [hj])]
      simp [Verif.Tup.get, hi]
  rw [this _ (by simp)]
  congr 1
  apply List.ext_getElem
  · simp
  · intro i h1 h2
    have : i < self.bound.length := by simpa using h2
    simp [this]

theorem boundArgs_mk (f : Fn γ) (places : Tuple) (q : Q) :
    boundArgs ⟨f, places⟩ q (List.range places.length) = some (places.map fun l => ⟨l, getQ q⟩) :=
  boundArgs_all ⟨f, places⟩ q

/-- The values references designate. -/
def values (m : Mem α) (rs : List Ref) : List α := rs.map fun r => m r.loc

/-- What binding arguments gives: an object with places of its own, which hold the values the arguments had. -/
theorem bind_stores (f : Fn γ) (places : Tuple) (args : List Ref) (m : Mem α) (hn : places.Nodup)
    (hl : places.length = args.length) :
    ∃ m', bind f places args m = some (⟨f, places⟩, m') ∧ places.map m' = values m args ∧
      ∀ l, l ∉ places → m' l = m l := by
  obtain ⟨m', h1, h2, h3⟩ := Verif.Tup.tuple_get places (args.map fun r => m r.loc) m hn (by simpa using hl)
  refine ⟨m', by simp [bind, h1], ?_, h3⟩
  apply List.ext_getElem
  · simp [values, hl]
  · intro i h4 h5
    have hi : i < places.length := by simpa using h4
    obtain ⟨l, h6, h7⟩ := h2 i (by simpa [values] using h5)
    have : places[i] = l := by
      unfold Verif.Tup.get at h6
      rw [List.getElem?_eq_getElem hi] at h6
      exact Option.some.inj h6
    rw [List.getElem_map, this, h7]
    rfl

/-- C46. `bind_front(f, a...)(b...)` invokes `f` with references to the bound copies, then `b...`. In any later memory
in which the copies were not changed, they have the values `a...` had when binding. The bound arguments are lvalues
unless the object is a non-const rvalue, and const if the object is. -/
theorem bind_front_order (f : Fn γ) (places : Tuple) (a : List Ref) (m : Mem α) (hn : places.Nodup)
    (hl : places.length = a.length) :
    ∃ o m', bind f places a m = some (o, m') ∧ (∀ l, l ∉ places → m' l = m l) ∧
      ∀ (q : Q) (b : List Ref), ∃ bound : List Ref, o.front q b = some (f q (bound ++ b)) ∧
        (∀ r ∈ bound, r.q.const = q.const ∧ r.q.rvalue = (q.rvalue && !q.const)) ∧
        bound.map Ref.loc = places ∧
        ∀ m'' : Mem α, (∀ l ∈ places, m'' l = m' l) → values m'' (bound ++ b) = values m a ++ values m'' b := by
  obtain ⟨m', h1, h2, h3⟩ := bind_stores f places a m hn hl
  refine ⟨_, m', h1, h3, fun q b => ⟨places.map fun l => ⟨l, getQ q⟩, ?_, ?_, ?_, fun m'' h => ?_⟩⟩
  · simp [Binder.front, callFront, boundArgs_mk]
  · intro r hr
    obtain ⟨l, -, rfl⟩ := List.mem_map.1 hr
    rcases q with ⟨_ | _, _ | _⟩ <;> simp [getQ]
  · simp [Function.comp_def]
  · rw [← h2]
    simp only [values, List.map_append, List.map_map]
    congr 1
    exact List.map_congr_left fun l hm => h l hm

/-- C46. `bind_back(f, a...)(b...)` invokes `f` with `b...`, then references to the bound copies. -/
theorem bind_back_order (f : Fn γ) (places : Tuple) (a : List Ref) (m : Mem α) (hn : places.Nodup)
    (hl : places.length = a.length) :
    ∃ o m', bind f places a m = some (o, m') ∧ (∀ l, l ∉ places → m' l = m l) ∧
      ∀ (q : Q) (b : List Ref), ∃ bound : List Ref, o.back q b = some (f q (b ++ bound)) ∧
        (∀ r ∈ bound, r.q.const = q.const ∧ r.q.rvalue = (q.rvalue && !q.const)) ∧
        bound.map Ref.loc = places ∧
        ∀ m'' : Mem α, (∀ l ∈ places, m'' l = m' l) → values m'' (b ++ bound) = values m'' b ++ values m a := by
  obtain ⟨m', h1, h2, h3⟩ := bind_stores f places a m hn hl
  refine ⟨_, m', h1, h3, fun q b => ⟨places.map fun l => ⟨l, getQ q⟩, ?_, ?_, ?_, fun m'' h => ?_⟩⟩
  · simp [Binder.back, callBack, boundArgs_mk]
  · intro r hr
    obtain ⟨l, -, rfl⟩ := List.mem_map.1 hr
    rcases q with ⟨_ | _, _ | _⟩ <;> simp [getQ]
  · simp [Function.comp_def]
  · rw [← h2]
    simp only [values, List.map_append, List.map_map]
    congr 1
    exact List.map_congr_left fun l hm => h l hm

/-- How a chain of binders around `f` hands its arguments on: each layer holds its bound values and whether it is a
`bind_front`. The innermost layer comes first. -/
def layers (f : Fn (Option γ)) : List (Bool × Tuple) → Fn (Option γ)
  | [] => f
  | (isFront, places) :: rest =>
    layers (fun q args => (if isFront then Binder.front ⟨f, places⟩ q args else Binder.back ⟨f, places⟩ q args).join) rest

/-- C46, nested: `f` receives the bound arguments of the `bind_front` layers, innermost first, then the call's
arguments, then the bound arguments of the `bind_back` layers, outermost first. -/
theorem bind_nested (f : Fn (Option γ)) (ls : List (Bool × Tuple)) (q : Q) (b : List Ref) :
    layers f ls q b =
      f q (((ls.filter fun l => l.1).map Prod.snd).flatten.map (fun l => ⟨l, getQ q⟩) ++ b ++
        ((ls.filter fun l => !l.1).reverse.map Prod.snd).flatten.map (fun l => ⟨l, getQ q⟩)) := by
  induction ls generalizing f b with
  | nil => simp [layers]
  | cons l ls ih =>
    obtain ⟨isFront, places⟩ := l
    rw [layers, ih]
    cases isFront
    · simp [Binder.back, callBack, boundArgs_mk]
    · simp [Binder.front, callFront, boundArgs_mk]

/-! ### Cases -/

example : [20, 21].Nodup ∧ [20, 21].length = ([⟨0, ⟨false, false⟩⟩, ⟨1, ⟨true, false⟩⟩] : List Ref).length := by decide
/-- `bind_front(f, x0, x1)(x2)` on values. -/
example :
    (do
      let (o, m) ← bind (fun _ args => args.map Ref.loc) [20, 21] [⟨0, ⟨false, false⟩⟩, ⟨1, ⟨true, false⟩⟩] (fun l => 100 + l)
      let r ← o.front ⟨false, false⟩ [⟨2, ⟨false, false⟩⟩]
      pure (r.map m)) = some [100, 101, 102] := by decide
example :
    (do
      let (o, m) ← bind (fun _ args => args.map Ref.loc) [20, 21] [⟨0, ⟨false, false⟩⟩, ⟨1, ⟨true, false⟩⟩] (fun l => 100 + l)
      let r ← o.back ⟨false, false⟩ [⟨2, ⟨false, false⟩⟩]
      pure (r.map m)) = some [102, 100, 101] := by decide

end Verif.Bind
