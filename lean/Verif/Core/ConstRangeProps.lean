import Verif.Core.ConstRange
import Mathlib.Data.List.Basic

/-! # Ranges made constant (C189) -/

set_option autoImplicit false

namespace Verif.ConstRange

/-! ## Specification -/

/-- Where an exception comes from. -/
inductive Place
  /-- there is none -/
  | nowhere
  /-- `first != last` -/
  | ends
  /-- `*first` or `++first` -/
  | first
  /-- the client's function -/
  | client
  deriving DecidableEq

/-- The same loop over the range itself; `n` bounds the number of elements. -/
inductive Visits {σ I J α : Type} (R : Range σ I J α) (visit : α → M σ Unit) (last : J) : Nat → I → σ → Place → Out σ Unit → Prop
  | done {n : Nat} {it : I} {s s' : σ} : R.eq it last s = .ok true s' → Visits R visit last (n + 1) it s .nowhere (.ok () s')
  | endThrows {n : Nat} {it : I} {s s' : σ} : R.eq it last s = .threw s' → Visits R visit last (n + 1) it s .ends (.threw s')
  | starThrows {n : Nat} {it : I} {s s1 s' : σ} : R.eq it last s = .ok false s1 → R.star it s1 = .threw s' →
      Visits R visit last (n + 1) it s .first (.threw s')
  | visitThrows {n : Nat} {it : I} {s s1 s2 s' : σ} {x : α} : R.eq it last s = .ok false s1 → R.star it s1 = .ok x s2 →
      visit x s2 = .threw s' → Visits R visit last (n + 1) it s .client (.threw s')
  | incThrows {n : Nat} {it : I} {s s1 s2 s3 s' : σ} {x : α} : R.eq it last s = .ok false s1 → R.star it s1 = .ok x s2 →
      visit x s2 = .ok () s3 → R.inc it s3 = .threw s' → Visits R visit last (n + 1) it s .first (.threw s')
  | next {n : Nat} {it it' : I} {s s1 s2 s3 s4 : σ} {x : α} {p : Place} {o : Out σ Unit} : R.eq it last s = .ok false s1 →
      R.star it s1 = .ok x s2 → visit x s2 = .ok () s3 → R.inc it s3 = .ok it' s4 → Visits R visit last n it' s4 p o →
      Visits R visit last (n + 1) it s p o

/-- Comparing either way round is the same, as `std::sentinel_for` demands. -/
def Symmetric {σ I J α : Type} (R : Range σ I J α) : Prop := ∀ it l s, R.eqRev l it s = R.eq it l s

/-! ## Proofs -/

variable {σ β I J α : Type} {R : Range σ I J α}

theorem bind_ok {γ : Type} {m : M σ β} {f : β → M σ γ} {s s' : σ} {b : β} (h : m s = .ok b s') : (m >>= f) s = f b s' := by
  show M.bind m f s = _
  unfold M.bind
  rw [h]

theorem bind_threw {γ : Type} {m : M σ β} {f : β → M σ γ} {s s' : σ} (h : m s = .threw s') : (m >>= f) s = .threw s' := by
  show M.bind m f s = _
  unfold M.bind
  rw [h]

theorem bind_term {γ : Type} {m : M σ β} {f : β → M σ γ} {s s' : σ} (h : m s = .terminated s') : (m >>= f) s = .terminated s' := by
  show M.bind m f s = _
  unfold M.bind
  rw [h]

theorem noexc_ok {m : M σ β} {s s' : σ} {b : β} (h : m s = .ok b s') : noexc m s = .ok b s' := by unfold noexc; rw [h]

theorem noexc_threw {m : M σ β} {s s' : σ} (h : m s = .threw s') : noexc m s = .terminated s' := by unfold noexc; rw [h]

theorem noexc_term {m : M σ β} {s s' : σ} (h : m s = .terminated s') : noexc m s = .terminated s' := by unfold noexc; rw [h]

/-- What happens to an exception. -/
def met (wrapped : Bool) (s : σ) : Out σ β := if wrapped then .terminated s else .threw s

/-- The range is in a wrapper: the iterator or the sentinel. -/
def Kinds.ends (k : Kinds) : Bool := !k.firstConst || (k.lastIter && !k.lastConst)

theorem eq_ok (hR : Symmetric R) (k : Kinds) {it : I} {l : J} {s s' : σ} {b : Bool} (h : R.eq it l s = .ok b s') :
    eq R (makeConstIterator k.firstConst it) (makeConstSentinel k.lastIter k.lastConst l) s = .ok b s' := by
  have h' := (hR it l s).trans h
  obtain ⟨a, b, c⟩ := k
  cases a <;> cases b <;> cases c <;>
    first
    | exact h
    | exact noexc_ok h
    | exact noexc_ok h'
    | exact noexc_ok (noexc_ok h')

theorem eq_threw (hR : Symmetric R) (k : Kinds) {it : I} {l : J} {s s' : σ} (h : R.eq it l s = .threw s') :
    eq R (makeConstIterator k.firstConst it) (makeConstSentinel k.lastIter k.lastConst l) s = met k.ends s' := by
  have h' := (hR it l s).trans h
  obtain ⟨a, b, c⟩ := k
  cases a <;> cases b <;> cases c <;>
    first
    | exact h
    | exact noexc_threw h
    | exact noexc_threw h'
    | exact noexc_term (noexc_threw h')

theorem star_ok (c : Bool) {it : I} {s s' : σ} {x : α} (h : R.star it s = .ok x s') :
    star R (makeConstIterator c it) s = .ok x s' := by
  cases c
  · exact noexc_ok h
  · exact h

theorem star_threw (c : Bool) {it : I} {s s' : σ} (h : R.star it s = .threw s') :
    star R (makeConstIterator c it) s = met (!c) s' := by
  cases c
  · exact noexc_threw h
  · exact h

theorem inc_ok (c : Bool) {it it' : I} {s s' : σ} (h : R.inc it s = .ok it' s') :
    inc R (makeConstIterator c it) s = .ok (makeConstIterator c it') s' := by
  cases c
  · exact noexc_ok (bind_ok h)
  · exact bind_ok h

theorem inc_threw (c : Bool) {it : I} {s s' : σ} (h : R.inc it s = .threw s') :
    inc R (makeConstIterator c it) s = met (!c) s' := by
  cases c
  · exact noexc_threw (bind_threw h)
  · exact bind_threw h

theorem bind_met {γ : Type} {m : M σ β} {f : β → M σ γ} {s s' : σ} {w : Bool} (h : m s = met w s') : (m >>= f) s = met w s' := by
  cases w
  · exact bind_threw h
  · exact bind_term h

/-- C189, exactly. The loop over the range made constant does what the loop over the range does, but an exception of `*` or `++`
terminates the program if the iterator was not constant, and one of `==` if that or a sentinel that is an iterator was not. -/
theorem const_range_exact (hR : Symmetric R) (k : Kinds) (visit : α → M σ Unit) {n : Nat} {it : I} {last : J} {s : σ} {p : Place}
    {o : Out σ Unit} (h : Visits R visit last n it s p o) :
    (p = .nowhere ∧ ∃ s', o = .ok () s' ∧ constLoop R k visit n it last s = .ok () s') ∨
    (p ≠ .nowhere ∧ ∃ s', o = .threw s' ∧ constLoop R k visit n it last s =
      if (p = .first ∧ k.firstConst = false) ∨ (p = .ends ∧ (k.firstConst = false ∨ (k.lastIter = true ∧ k.lastConst = false)))
      then .terminated s' else .threw s') := by
  have he : k.ends = true ↔ k.firstConst = false ∨ (k.lastIter = true ∧ k.lastConst = false) := by
    obtain ⟨a, b, c⟩ := k
    cases a <;> cases b <;> cases c <;> simp [Kinds.ends]
  unfold constLoop
  induction h with
  | done h => exact .inl ⟨rfl, _, rfl, by rw [loop, bind_ok (eq_ok hR k h)]; rfl⟩
  | endThrows h =>
    refine .inr ⟨by decide, _, rfl, ?_⟩
    rw [loop, bind_met (eq_threw hR k h)]
    by_cases hk : k.ends = true
    · rw [if_pos (.inr ⟨rfl, he.1 hk⟩), met, if_pos hk]
    · rw [if_neg (by rintro (⟨g, -⟩ | ⟨-, g⟩); exacts [absurd g (by decide), hk (he.2 g)]), met, if_neg hk]
  | starThrows h1 h2 =>
    refine .inr ⟨by decide, _, rfl, ?_⟩
    rw [loop, bind_ok (eq_ok hR k h1), if_neg (by decide), bind_met (star_threw _ h2)]
    cases k.firstConst <;> simp [met]
  | visitThrows h1 h2 h3 =>
    refine .inr ⟨by decide, _, rfl, ?_⟩
    rw [loop, bind_ok (eq_ok hR k h1), if_neg (by decide), bind_ok (star_ok _ h2), bind_threw h3]
    simp
  | incThrows h1 h2 h3 h4 =>
    refine .inr ⟨by decide, _, rfl, ?_⟩
    rw [loop, bind_ok (eq_ok hR k h1), if_neg (by decide), bind_ok (star_ok _ h2), bind_ok h3, bind_met (inc_threw _ h4)]
    cases k.firstConst <;> simp [met]
  | next h1 h2 h3 h4 _ ih =>
    rw [loop, bind_ok (eq_ok hR k h1), if_neg (by decide), bind_ok (star_ok _ h2), bind_ok h3, bind_ok (inc_ok _ h4)]
    exact ih

/-- C189, what holds. The full claim is "a loop over a range made constant does what the loop over the range does, also if something
throws"; it holds if nothing or only the client's function throws, and if the iterator was constant already and the sentinel is not an
iterator or constant too. -/
theorem const_range_partial (hR : Symmetric R) (k : Kinds) (visit : α → M σ Unit) {n : Nat} {it : I} {last : J} {s : σ} {p : Place}
    {o : Out σ Unit} (h : Visits R visit last n it s p o)
    (hq : p = .nowhere ∨ p = .client ∨ (k.firstConst = true ∧ (k.lastIter = true → k.lastConst = true))) :
    constLoop R k visit n it last s = o := by
  rcases const_range_exact hR k visit h with ⟨-, s', rfl, e⟩ | ⟨hn, s', rfl, e⟩
  · exact e
  · rw [e, if_neg]
    rintro (⟨g1, g2⟩ | ⟨g1, g2⟩)
    · rcases hq with hq | hq | hq
      · exact hn hq
      · rw [hq] at g1; exact absurd g1 (by decide)
      · rw [hq.1] at g2; exact absurd g2 (by decide)
    · rcases hq with hq | hq | hq
      · exact hn hq
      · rw [hq] at g1; exact absurd g1 (by decide)
      · rcases g2 with g2 | ⟨g2, g3⟩
        · rw [hq.1] at g2; exact absurd g2 (by decide)
        · rw [hq.2 g2] at g3; exact absurd g3 (by decide)

/-- C189 is false: an exception of the underlying iterator, which the loop over the range itself hands on, terminates the program. -/
theorem const_range_wrong (hR : Symmetric R) (k : Kinds) (visit : α → M σ Unit) {n : Nat} {it : I} {last : J} {s : σ} {p : Place}
    {o : Out σ Unit} (h : Visits R visit last n it s p o)
    (hq : (p = .first ∧ k.firstConst = false) ∨ (p = .ends ∧ (k.firstConst = false ∨ (k.lastIter = true ∧ k.lastConst = false)))) :
    ∃ s', o = .threw s' ∧ constLoop R k visit n it last s = .terminated s' := by
  rcases const_range_exact hR k visit h with ⟨hp, -⟩ | ⟨-, s', rfl, e⟩
  · subst hp
    rcases hq with ⟨g, -⟩ | ⟨g, -⟩ <;> exact absurd g (by decide)
  · exact ⟨s', rfl, by rw [e, if_pos hq]⟩

/-! ## Examples -/

/-- A stream: the state is what was not read yet and what the client saw; the end is reached when nothing is left. -/
def stream : Range (List Nat × List Nat) Unit Unit Nat where
  star _ := fun s => match s.1 with
    | x :: _ => .ok x s
    | [] => .threw s
  inc _ := fun s => .ok () (s.1.tail, s.2)
  eq _ _ := fun s => .ok s.1.isEmpty s
  eqRev _ _ := fun s => .ok s.1.isEmpty s

def see (x : Nat) : M (List Nat × List Nat) Unit := fun s => if x = 9 then .threw s else .ok () (s.1, s.2 ++ [x])

/-- All elements, each once; and up to the one the client refuses. -/
example : constLoop stream ⟨false, true, false⟩ see 5 () () ([4, 5, 6], []) = .ok () ([], [4, 5, 6]) ∧
    constLoop stream ⟨false, false, false⟩ see 5 () () ([4, 9, 6], []) = .threw ([9, 6], [4]) := by decide

example : Visits stream see () 5 () ([4], []) .nowhere (.ok () ([], [4])) :=
  .next (x := 4) (it' := ()) rfl rfl rfl rfl (.done rfl)

example : Symmetric stream := fun _ _ _ => rfl

/-- A stream whose `++` throws. -/
example : Visits { stream with inc := fun _ s => .threw s } see () 5 () ([4, 5], []) .first (.threw ([4, 5], [4])) :=
  .incThrows (x := 4) rfl rfl rfl rfl

example : let R : Range (List Nat × List Nat) Unit Unit Nat := { stream with inc := fun _ s => .threw s }
    constLoop R ⟨false, true, false⟩ see 5 () () ([4, 5], []) = .terminated ([4, 5], [4]) ∧
    constLoop R ⟨true, true, true⟩ see 5 () () ([4, 5], []) = .threw ([4, 5], [4]) := by decide

end Verif.ConstRange
