import Verif.Headers.Model

/-! # Headers in any order -/

set_option autoImplicit false

namespace Verif.Headers

/-! ### Specification -/

/-- When a file may follow others. -/
def MayFollow (before : List Header) (h : Header) : Prop :=
  (h = .container ∨ h = .spscQueue → .arrayView ∈ before ∧ .linkedList ∈ before) ∧
  (h = .arrayView ∨ h = .linkedList → h ∈ before ∨
    .destroy ∉ before ∧ .uninitialized ∉ before ∧ .array ∉ before ∧ .heap ∉ before)

/-- The order is one that works. -/
def GoodOrder (hs : List Header) : Prop :=
  ∀ before h after, hs = before ++ h :: after → MayFollow before h

/-! ### All states of the compiler -/

def allHeaders : List Header :=
  [.icontainer, .pair, .destroy, .uninitialized, .array, .heap, .arrayView, .linkedList, .container, .spscQueue, .other]

theorem mem_allHeaders (h : Header) : h ∈ allHeaders := by cases h <;> decide

/-- States without an error that follow the given ones. -/
def grow (R : List State) : List State :=
  R.foldl (fun acc s => allHeaders.foldl (fun acc h =>
    let s' := compile 12 h s
    if s'.ok && !acc.contains s' then acc ++ [s'] else acc) acc) R

def reach : Nat → List State
  | 0 => [State.start]
  | n + 1 => grow (reach n)

/-- The error of a file, in terms of what was seen. -/
def rule (s : State) : Header → Bool
  | .container | .spscQueue => s.saw .arrayView && s.saw .linkedList
  | .arrayView => s.saw .arrayView || !s.xme
  | .linkedList => s.saw .linkedList || !s.xme
  | _ => true

def spoils : Header → Bool
  | .destroy | .uninitialized | .array | .heap | .container | .spscQueue => true
  | _ => false

def check (R : List State) (s : State) (h : Header) : Bool :=
  let s' := compile 12 h s
  s'.ok == rule s h &&
  (!s'.ok || (R.contains s' && s'.saw .arrayView == (s.saw .arrayView || h == .arrayView) &&
    s'.saw .linkedList == (s.saw .linkedList || h == .linkedList) && s'.xme == (s.xme || spoils h)))

theorem check_all : ∀ s ∈ reach 5, ∀ h ∈ allHeaders, check (reach 5) s h = true := by decide +kernel

/-! ### An error stays -/

theorem foldl_bad {f : State → Item → State} (hf : ∀ s i, s.ok = false → (f s i).ok = false) :
    ∀ (l : List Item) (s : State), s.ok = false → (l.foldl f s).ok = false
  | [], _, h => h
  | i :: l, s, h => foldl_bad hf l (f s i) (hf s i h)

theorem compile_bad : ∀ (fuel : Nat) (h : Header) (s : State), s.ok = false → (compile fuel h s).ok = false
  | 0, _, _, _ => rfl
  | fuel + 1, h, s, hs => by
    unfold compile
    split
    · exact hs
    · refine foldl_bad (fun s i hs => ?_) _ _ hs
      cases i with
      | inc g => exact compile_bad fuel g s hs
      | rangeV3 => exact hs
      | xmeRanges => exact hs
      | useV3 => show (s.ok && _) = false; rw [hs]; rfl
      | useXme => show (s.ok && _) = false; rw [hs]; rfl

/-! ### Induction over the list -/

theorem unit_append (hs : List Header) (h : Header) :
    translationUnit (hs ++ [h]) = compile 12 h (translationUnit hs) := by
  unfold translationUnit
  rw [List.foldl_append]
  rfl

theorem good_append (hs : List Header) (h : Header) : GoodOrder (hs ++ [h]) ↔ GoodOrder hs ∧ MayFollow hs h := by
  constructor
  · intro H
    refine ⟨fun a g b e => H a g (b ++ [h]) (by rw [e]; simp), H hs h [] rfl⟩
  · rintro ⟨H1, H2⟩ a g b e
    rcases List.eq_nil_or_concat b with rfl | ⟨b', x, rfl⟩
    · obtain ⟨rfl, e2⟩ := List.append_inj' e rfl
      cases e2
      exact H2
    · have e' : hs ++ [h] = (a ++ g :: b') ++ [x] := by rw [e]; simp
      exact H1 a g b' (List.append_inj' e' rfl).1

/-- What the state knows about the files seen. -/
def Knows (hs : List Header) (s : State) : Prop :=
  s ∈ reach 5 ∧ (s.saw .arrayView = true ↔ .arrayView ∈ hs) ∧ (s.saw .linkedList = true ↔ .linkedList ∈ hs) ∧
  (s.xme = true ↔ ∃ g ∈ hs, spoils g = true)

theorem rule_iff {hs : List Header} {s : State} (hk : Knows hs s) (hg : GoodOrder hs) (h : Header) :
    rule s h = true ↔ MayFollow hs h := by
  obtain ⟨-, h1, h2, h3⟩ := hk
  -- after `container.hpp` or `spsc_queue.hpp` both files were seen
  have key : ∀ g, (g = .container ∨ g = .spscQueue) → g ∈ hs → .arrayView ∈ hs ∧ .linkedList ∈ hs := by
    intro g hgc hm
    obtain ⟨a, b, rfl⟩ := List.append_of_mem hm
    obtain ⟨h4, h5⟩ := (hg a g b rfl).1 hgc
    exact ⟨List.mem_append_left _ h4, List.mem_append_left _ h5⟩
  have spoil : ∀ x, (x = Header.arrayView ∨ x = .linkedList) → ((x ∈ hs ∨ s.xme = false) ↔
      (x ∈ hs ∨ .destroy ∉ hs ∧ .uninitialized ∉ hs ∧ .array ∉ hs ∧ .heap ∉ hs)) := by
    intro x hx
    constructor
    · rintro (h | h)
      · exact .inl h
      · have hn : ∀ g, spoils g = true → g ∉ hs := fun g hgs hm => by
          rw [h3.2 ⟨g, hm, hgs⟩] at h; cases h
        exact .inr ⟨hn _ rfl, hn _ rfl, hn _ rfl, hn _ rfl⟩
    · rintro (h | ⟨a, b, c, d⟩)
      · exact .inl h
      · by_cases hm : x ∈ hs
        · exact .inl hm
        · right
          cases e : s.xme with
          | false => rfl
          | true =>
            exfalso
            obtain ⟨g, hgm, hgs⟩ := h3.1 e
            cases g <;> first | cases hgs | skip
            · exact a hgm
            · exact b hgm
            · exact c hgm
            · exact d hgm
            · have := key _ (.inl rfl) hgm
              rcases hx with rfl | rfl
              · exact hm this.1
              · exact hm this.2
            · have := key _ (.inr rfl) hgm
              rcases hx with rfl | rfl
              · exact hm this.1
              · exact hm this.2
  cases h with
  | container => simp [rule, MayFollow, h1, h2]
  | spscQueue => simp [rule, MayFollow, h1, h2]
  | arrayView =>
    have := spoil .arrayView (.inl rfl)
    simp only [rule, MayFollow, Bool.or_eq_true, h1, Bool.not_eq_true']
    simpa using this
  | linkedList =>
    have := spoil .linkedList (.inr rfl)
    simp only [rule, MayFollow, Bool.or_eq_true, h2, Bool.not_eq_true']
    simpa using this
  | _ => simp [rule, MayFollow]

theorem main : ∀ (n : Nat) (hs : List Header), hs.length = n →
    (compiles hs = true ↔ GoodOrder hs) ∧ (compiles hs = true → Knows hs (translationUnit hs))
  | 0, hs, hn => by
    obtain rfl : hs = [] := List.eq_nil_of_length_eq_zero hn
    refine ⟨⟨fun _ a h b e => by simp at e, fun _ => rfl⟩, fun _ => ⟨by decide +kernel, by decide, by decide, ?_⟩⟩
    simp [translationUnit, State.start]
  | n + 1, hs, hn => by
    rcases List.eq_nil_or_concat hs with rfl | ⟨hs, h, rfl⟩
    · cases hn
    rw [List.concat_eq_append] at hn ⊢
    obtain ⟨IH1, IH2⟩ := main n hs (by simpa using hn)
    cases ho : compiles hs with
    | false =>
      have hb : compiles (hs ++ [h]) = false := by
        unfold compiles
        rw [unit_append]
        exact compile_bad _ _ _ ho
      refine ⟨?_, fun e => by rw [hb] at e; cases e⟩
      rw [hb, good_append, ← IH1, ho]
      simp
    | true =>
      have hk := IH2 ho
      have hg := IH1.1 ho
      have hc := check_all _ hk.1 h (mem_allHeaders h)
      unfold check at hc
      simp only [Bool.and_eq_true, beq_iff_eq, Bool.or_eq_true, Bool.not_eq_true'] at hc
      obtain ⟨c1, c2⟩ := hc
      have hr := rule_iff hk hg h
      have hok : compiles (hs ++ [h]) = rule (translationUnit hs) h := by
        unfold compiles
        rw [unit_append]
        exact c1
      refine ⟨by rw [hok, hr, good_append]; exact ⟨fun h => ⟨hg, h⟩, fun h => h.2⟩, fun e => ?_⟩
      rw [unit_append]
      rcases c2 with c2 | ⟨⟨⟨m, a⟩, l⟩, x⟩
      · rw [hok, ← c1, c2] at e; cases e
      · refine ⟨by simpa using m, ?_, ?_, ?_⟩
        · rw [a, Bool.or_eq_true, hk.2.1, beq_iff_eq, List.mem_append, List.mem_singleton, @eq_comm _ h]
        · rw [l, Bool.or_eq_true, hk.2.2.1, beq_iff_eq, List.mem_append, List.mem_singleton, @eq_comm _ h]
        · rw [x, Bool.or_eq_true, hk.2.2.2]
          simp only [List.mem_append, List.mem_singleton, or_and_right, exists_or, exists_eq_left]

/-- C126. A translation unit that includes headers in some order compiles, as far as the name `ranges` is concerned, exactly in
these cases: `container.hpp` and `spsc_queue.hpp` come after both `array_view.hpp` and `linked_list.hpp`, and neither of these
two is first included after `array.hpp`, `heap.hpp` or a header of `xme/ranges`. -/
theorem include_order_partial (hs : List Header) : compiles hs = true ↔ GoodOrder hs := (main _ hs rfl).1

/-- C126. Disagreement: whatever follows, `container.hpp` and `spsc_queue.hpp` cannot be included first, nor `array_view.hpp` or
`linked_list.hpp` after `array.hpp`. -/
theorem include_order_wrong (hs : List Header) :
    compiles (.container :: hs) = false ∧ compiles (.spscQueue :: hs) = false ∧
    compiles (.array :: .arrayView :: hs) = false ∧ compiles (.heap :: .linkedList :: hs) = false := by
  have key : ∀ l, ¬ GoodOrder l → compiles l = false := fun l h => by
    cases e : compiles l with
    | false => rfl
    | true => exact absurd ((include_order_partial l).1 e) h
  refine ⟨key _ fun h => ?_, key _ fun h => ?_, key _ fun h => ?_, key _ fun h => ?_⟩
  · have := ((h [] _ hs rfl).1 (.inl rfl)).1; cases this
  · have := ((h [] _ hs rfl).1 (.inr rfl)).1; cases this
  · have := (h [.array] _ hs rfl).2 (.inl rfl); simp at this
  · have := (h [.heap] _ hs rfl).2 (.inr rfl); simp at this

/-! ### Cases -/

example : compiles [.arrayView, .linkedList, .pair, .spscQueue, .heap, .container, .arrayView] = true := by decide +kernel
example : GoodOrder [.linkedList, .array, .other, .linkedList] := (include_order_partial _).1 (by decide +kernel)
example : compiles [.arrayView, .array, .linkedList] = false := by decide +kernel

end Verif.Headers
