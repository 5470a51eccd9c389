import Verif.Array.Postfix
import Verif.Array.NumbersProps

/-! # Postfix expressions (C191) -/

set_option autoImplicit false

namespace Verif.Arr

variable {α : Type}

/-! ### Specification -/

/-- An expression. -/
inductive Tree (α : Type) where
  | leaf (v : α)
  | node (f : α → α → α) (l r : Tree α)

/-- Its value. -/
def Tree.result : Tree α → α
  | .leaf v => v
  | .node f l r => f l.result r.result

/-- The expression in postfix notation. -/
def Tree.postfix : Tree α → List (Token α)
  | .leaf v => [.value v]
  | .node f l r => l.postfix ++ r.postfix ++ [.apply f]

/-! ### Expressions are written in one way -/

/-- Reads postfix notation; the last expression is first. -/
def parse : List (Token α) → List (Tree α) → Option (List (Tree α))
  | [], st => some st
  | .value v :: ts, st => parse ts (.leaf v :: st)
  | .apply f :: ts, r :: l :: st => parse ts (.node f l r :: st)
  | .apply _ :: _, _ => none

theorem parse_postfix : ∀ (e : Tree α) (ts : List (Token α)) (st : List (Tree α)), parse (e.postfix ++ ts) st = parse ts (e :: st)
  | .leaf v, ts, st => by simp [Tree.postfix, parse]
  | .node f l r, ts, st => by
    simp only [Tree.postfix, List.append_assoc]
    rw [parse_postfix l, parse_postfix r]
    simp [parse]

theorem parse_all : ∀ (es : List (Tree α)) (ts : List (Token α)) (st : List (Tree α)),
    parse (es.flatMap Tree.postfix ++ ts) st = parse ts (es.reverse ++ st)
  | [], ts, st => by simp
  | e :: es, ts, st => by
    rw [List.flatMap_cons, List.append_assoc, parse_postfix, parse_all es, List.reverse_cons, List.append_assoc,
      List.singleton_append]

theorem parse_exact (es : List (Tree α)) : parse (es.flatMap Tree.postfix) [] = some es.reverse := by
  have := parse_all es [] []
  simpa [parse] using this

/-- C191. Postfix notation without parentheses is unambiguous. -/
theorem postfix_injective {es es' : List (Tree α)} (h : es.flatMap Tree.postfix = es'.flatMap Tree.postfix) : es = es' := by
  have := parse_exact es
  rw [h, parse_exact es'] at this
  exact (List.reverse_injective (Option.some.inj this)).symm

theorem parse_stuck {es : List (Tree α)} (hl : es.length < 2) (f : α → α → α) (ts : List (Token α)) :
    parse (es.flatMap Tree.postfix ++ .apply f :: ts) [] = none := by
  rw [parse_all, List.append_nil]
  match es, hl with
  | [], _ => rfl
  | [_], _ => rfl

/-! ### The loop -/

variable {cfg : Elem α} {w : World α} {a c : Nat} {A : AWorld α}

/-- How the program may end for the tokens `ts`. -/
def Ended (cfg : Elem α) (A : AWorld α) (a : Nat) (ts : List (Token α)) (ok : Bool) (w : World α) : Prop :=
  (ok = true ∧ ∃ (es : List (Tree α)) (c : Nat), ts = es.flatMap Tree.postfix ∧ S cfg w (put A a (some (es.map Tree.result, c)))) ∨
  (ok = false ∧ ∃ (es : List (Tree α)) (c : Nat) (f : α → α → α) (ts' : List (Token α)), ts = es.flatMap Tree.postfix ++ .apply f :: ts' ∧ es.length < 2 ∧
    S cfg w (put A a (some (es.map Tree.result, c))))

theorem Ended.put_eq {ts : List (Token α)} {ok : Bool} {x : Option (List α × Nat)} (h : Ended cfg (put A a x) a ts ok w) :
    Ended cfg A a ts ok w := by
  unfold Ended at h ⊢
  simpa only [put_put] using h

theorem runTokens_spec (ht : cfg.triv = true) : ∀ (ts : List (Token α)) (es : List (Tree α)) (c : Nat) (w : World α)
    (A : AWorld α), S cfg w A → A a = some (es.map Tree.result, c) →
    Does (runTokens cfg a ts) w (Ended cfg A a (es.flatMap Tree.postfix ++ ts))
  | [], es, c, w, A, hs, ha => by
    unfold runTokens
    exact Does.pure (.inl ⟨rfl, es, c, by simp, hs.same ha rfl⟩)
  | .value v :: ts, es, c, w, A, hs, ha => by
    unfold runTokens
    refine Does.bind ((hs.push ht ha v).mono ?_)
    rintro _ w1 ⟨c1, h1⟩
    refine (runTokens_spec ht ts (es ++ [.leaf v]) c1 w1 _ h1 (by rw [put_same]; simp [Tree.result])).mono fun ok w2 h2 => ?_
    have := h2.put_eq
    simpa [Tree.postfix] using this
  | .apply f :: ts, es, c, w, A, hs, ha => by
    unfold runTokens
    refine Does.bind (hs.size ha ?_)
    rw [List.length_map]
    split
    · rename_i hn
      exact Does.pure (.inr ⟨rfl, es, c, f, ts, rfl, by exact_mod_cast hn, hs.same ha rfl⟩)
    · rename_i hn
      have hn : 2 ≤ es.length := by
        have : ¬es.length < 2 := fun h => hn (by exact_mod_cast h)
        omega
      obtain ⟨es', l, r, rfl⟩ : ∃ es' l r, es = es' ++ [l] ++ [r] := by
        rcases List.eq_nil_or_concat es with rfl | ⟨e1, r, rfl⟩
        · simp at hn
        · rcases List.eq_nil_or_concat e1 with rfl | ⟨e2, l, rfl⟩
          · simp at hn
          · exact ⟨e2, l, r, by simp⟩
      rw [List.map_append, List.map_append, List.map_singleton, List.map_singleton] at ha
      refine Does.bind (hs.back ha ?_)
      refine Does.bind ((hs.pop ht ha).mono fun _ w1 h1 => ?_)
      refine Does.bind (h1.back (put_same ..) ?_)
      refine Does.bind ((h1.pop ht (put_same ..)).mono fun _ w2 h2 => ?_)
      rw [put_put] at h2
      refine Does.bind ((h2.push ht (put_same ..) _).mono ?_)
      rintro _ w3 ⟨c3, h3⟩
      rw [put_put] at h3
      refine (runTokens_spec ht ts (es' ++ [.node f l r]) c3 w3 _ h3 (by rw [put_same]; simp [Tree.result])).mono fun ok w4 h4 => ?_
      have := h4.put_eq
      simpa [Tree.postfix] using this

theorem leaves_postfix (xs : List α) : (xs.map Tree.leaf).flatMap Tree.postfix = xs.map Token.value := by
  induction xs with
  | nil => rfl
  | cons x xs ih => simpa [Tree.postfix] using ih

/-! ### C191 -/

/-- C191. A stack that holds `xs` is as if `xs` had been written before the tokens. If these are expressions in postfix notation,
the program returns `true` and the stack holds their values, in order. -/
theorem postfix_result (ht : cfg.triv = true) (hw : Reached cfg w) {xs : List α} (ha : observe w a = some (xs, c))
    {ts : List (Token α)} {es : List (Tree α)} (he : xs.map Token.value ++ ts = es.flatMap Tree.postfix) :
    ∃ w' c', runTokens cfg a ts w = .ok true w' ∧ Reached cfg w' ∧
      observe w' = put (observe w) a (some (es.map Tree.result, c')) := by
  obtain ⟨ok, w', h1, h2⟩ := runTokens_spec (a := a) ht ts (xs.map Tree.leaf) c w _ ⟨hw, rfl⟩
    (by rw [ha, List.map_map]; congr; exact (List.map_id xs).symm)
  rw [leaves_postfix, he] at h2
  rcases h2 with ⟨rfl, es', c', h3, h4, h5⟩ | ⟨-, es', c', f, ts', h3, h4, -⟩
  · exact ⟨w', c', h1, h4, by rw [h5, postfix_injective h3]⟩
  · have := parse_stuck h4 f ts'
    rw [← h3, parse_exact] at this
    cases this

/-- C191. If they are not, the program returns `false`, at the first function for which there are not two values: no further token could
make it an expression. The stack holds the values of the expressions before it, and nothing is ever taken from an empty array. -/
theorem postfix_refused (ht : cfg.triv = true) (hw : Reached cfg w) {xs : List α} (ha : observe w a = some (xs, c))
    {ts : List (Token α)} (he : ∀ es : List (Tree α), xs.map Token.value ++ ts ≠ es.flatMap Tree.postfix) :
    ∃ (w' : World α) (c' : Nat) (es : List (Tree α)) (f : α → α → α) (ts' : List (Token α)), runTokens cfg a ts w = .ok false w' ∧ Reached cfg w' ∧
      xs.map Token.value ++ ts = es.flatMap Tree.postfix ++ .apply f :: ts' ∧ es.length < 2 ∧
      (∀ (more : List (Token α)) (es' : List (Tree α)), xs.map Token.value ++ ts ++ more ≠ es'.flatMap Tree.postfix) ∧
      observe w' = put (observe w) a (some (es.map Tree.result, c')) := by
  obtain ⟨ok, w', h1, h2⟩ := runTokens_spec (a := a) ht ts (xs.map Tree.leaf) c w _ ⟨hw, rfl⟩
    (by rw [ha, List.map_map]; congr; exact (List.map_id xs).symm)
  rw [leaves_postfix] at h2
  rcases h2 with ⟨rfl, es', c', h3, h4, h5⟩ | ⟨rfl, es', c', f, ts', h3, h4, h5, h6⟩
  · exact absurd h3 (he es')
  · refine ⟨w', c', es', f, ts', h1, h5, h3, h4, fun more es2 e => ?_, h6⟩
    have := parse_stuck h4 f (ts' ++ more)
    rw [← List.cons_append, ← List.append_assoc, ← h3, e, parse_exact] at this
    cases this

/-- `7 - (2 + 3)` and then `4 * 4`, on a stack that holds 9. -/
example : (match run ⟨true, id⟩ World.init [.ctor 0, .pushBack 0 (.val 9)] with
    | .ok _ w => match runTokens ⟨true, id⟩ 0
          [.value 7, .value 2, .value 3, .apply (· + ·), .apply (· - ·), .value 4, .value 4, .apply (· * ·)] w with
      | .ok b w1 => (observe w1 0).map fun x => (b, x.1)
      | _ => none
    | _ => none) = some (true, [9, 2, 16]) := by
  decide +kernel

/-- These tokens are expressions. -/
example : [9].map Token.value ++ [.value 7, .value 2, .value 3, .apply (· + ·), .apply (· - ·), .value 4, .value 4, .apply (· * ·)] =
    [Tree.leaf 9, .node (· - ·) (.leaf 7) (.node (· + ·) (.leaf 2) (.leaf 3)), .node (· * ·) (.leaf 4) (.leaf 4)].flatMap Tree.postfix := rfl

/-- One value is missing. -/
example : (match run ⟨true, id⟩ World.init [.ctor 0] with
    | .ok _ w => match runTokens ⟨true, id⟩ 0 [.value 7, .value 2, .apply (· + ·), .apply (· - ·), .value 4] w with
      | .ok b w1 => (observe w1 0).map fun x => (b, x.1)
      | _ => none
    | _ => none) = some (false, [9]) := by
  decide +kernel

end Verif.Arr
