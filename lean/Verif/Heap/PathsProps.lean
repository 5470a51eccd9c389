import Verif.Heap.Paths
import Verif.Heap.ClientsProps
import Mathlib.Algebra.BigOperators.Group.Finset.Basic
import Mathlib.Algebra.Order.BigOperators.Group.Finset

/-!
# Property theorems: shortest ways

C176.  Dijkstra's algorithm on a heap finds the lengths of the shortest ways, whatever the order of entries with the same length.
-/

set_option autoImplicit false

namespace Verif.Heap

variable {V : Type}

/-! ### Specification -/

/-- There is a way of this length from `src` to the place. -/
inductive Way (roads : V → List (V × Nat)) (src : V) : V → Nat → Prop
  | here : Way roads src src 0
  | road {v d u w} : Way roads src v d → (u, w) ∈ roads v → Way roads src u (d + w)

/-! ### Auxiliary facts -/

theorem later_swo : StrictWeakOrder (later (V := V)) := by
  constructor <;> simp [later] <;> omega

variable [DecidableEq V] {roads : V → List (V × Nat)} {src : V}

theorem distTo_none (v : V) (l : List (Nat × V)) : distTo v l = none ↔ ∀ x ∈ l, x.2 ≠ v := by
  induction l with
  | nil => simp [distTo]
  | cons x l ih =>
    rw [distTo]
    split
    · next h => simp [h]
    · next h => simp [h, ih]

theorem distTo_mem (v : V) (l : List (Nat × V)) (d : Nat) (h : distTo v l = some d) : (d, v) ∈ l := by
  induction l with
  | nil => simp [distTo] at h
  | cons x l ih =>
    rw [distTo] at h
    split at h
    · next e => cases h; subst e; exact List.mem_cons_self
    · exact List.mem_cons_of_mem _ (ih h)

/-- The first entry of a place is the smallest. -/
theorem distTo_le {l : List (Nat × V)} (hd : Descending later l) {v : V} {e : Nat} (h : (e, v) ∈ l) :
    ∃ d, distTo v l = some d ∧ d ≤ e := by
  induction l with
  | nil => simp at h
  | cons x l ih =>
    obtain ⟨h1, h2⟩ := List.pairwise_cons.mp hd
    rw [distTo]
    split
    · next hx =>
      refine ⟨_, rfl, ?_⟩
      rcases List.mem_cons.mp h with h | h
      · rw [← h]
      · have := h1 _ h
        simp only [later, decide_eq_false_iff_not] at this
        omega
    · next hx =>
      rcases List.mem_cons.mp h with h | h
      · exact absurd (by rw [← h]) hx
      · exact ih h2 h

/-- When a place is taken for the first time, all its roads are scheduled. -/
theorem scheduled_first {v u : V} {w d : Nat} (hr : (u, w) ∈ roads v) : ∀ (l past : List (Nat × V)), (∀ y ∈ past, y.2 ≠ v) →
    distTo v l = some d → (d + w, u) ∈ scheduled (relax roads) past l
  | [], _, _, h => by simp [distTo] at h
  | x :: l, past, hp, h => by
    rw [scheduled, List.mem_append]
    rw [distTo] at h
    split at h
    · next hx =>
      cases h
      left
      rw [relax, if_neg, List.mem_map]
      · exact ⟨(u, w), by rw [hx]; exact hr, rfl⟩
      · simp only [List.any_eq_true, decide_eq_true_eq, not_exists, not_and]
        intro y hy
        rw [hx]; exact hp y hy
    · next hx =>
      right
      refine scheduled_first hr l _ ?_ h
      intro y hy
      rcases List.mem_append.mp hy with hy | hy
      · exact hp y hy
      · rw [List.mem_singleton.mp hy]; exact hx

/-- Every road is used at most once. -/
theorem scheduled_length (vs : Finset V) : ∀ (l past : List (Nat × V)), (∀ x ∈ l, x.2 ∈ vs) →
    (scheduled (relax roads) past l).length ≤ ∑ v ∈ vs.filter (fun v => ∀ y ∈ past, y.2 ≠ v), (roads v).length
  | [], _, _ => by simp [scheduled]
  | x :: l, past, h => by
    have ih := scheduled_length vs l (past ++ [x]) fun y hy => h y (List.mem_cons_of_mem _ hy)
    rw [scheduled, List.length_append]
    by_cases hx : ∀ y ∈ past, y.2 ≠ x.2
    · have hm : x.2 ∈ vs.filter (fun v => ∀ y ∈ past, y.2 ≠ v) := Finset.mem_filter.mpr ⟨h x List.mem_cons_self, hx⟩
      have he : vs.filter (fun v => ∀ y ∈ past ++ [x], y.2 ≠ v) = (vs.filter (fun v => ∀ y ∈ past, y.2 ≠ v)).erase x.2 := by
        ext v
        simp only [Finset.mem_filter, Finset.mem_erase, List.mem_append, List.mem_singleton]
        constructor
        · rintro ⟨a, b⟩
          exact ⟨fun e => b x (Or.inr rfl) e.symm, a, fun y hy => b y (Or.inl hy)⟩
        · rintro ⟨a, b, c⟩
          refine ⟨b, ?_⟩
          rintro y (hy | rfl)
          · exact c y hy
          · exact fun e => a e.symm
      rw [he] at ih
      rw [← Finset.add_sum_erase _ _ hm, relax, if_neg, List.length_map]
      · exact Nat.add_le_add_left ih _
      · simp only [List.any_eq_true, decide_eq_true_eq, not_exists, not_and]; exact hx
    · rw [relax, if_pos]
      · rw [List.length_nil, Nat.zero_add]
        refine ih.trans (Finset.sum_le_sum_of_subset ?_)
        intro v hv
        rw [Finset.mem_filter] at hv ⊢
        exact ⟨hv.1, fun y hy => hv.2 y (List.mem_append_left _ hy)⟩
      · push Not at hx
        obtain ⟨y, hy, e⟩ := hx
        simp only [List.any_eq_true, decide_eq_true_eq]
        exact ⟨y, hy, e⟩

/-! ### The theorem -/

/-- C176. -/
theorem heap_shortest (vs : Finset V) (hsrc : src ∈ vs) (hroads : ∀ v ∈ vs, ∀ r ∈ roads v, r.1 ∈ vs) (n : Nat)
    (hn : ∑ v ∈ vs, (roads v).length < n) :
    ∃ taken s, Runs (shortest roads src n) empty (.ok taken s) ∧ s.arr.size = 0 ∧
      taken.length ≤ 1 + ∑ v ∈ vs, (roads v).length ∧
      (∀ v d, distTo v taken = some d ↔ Way roads src v d ∧ ∀ d', Way roads src v d' → d ≤ d') ∧
      ∀ v, distTo v taken = none ↔ ∀ d, ¬Way roads src v d := by
  obtain ⟨s1, ⟨n1, h1⟩, h2⟩ := push_spec later_swo (ordered_empty (later (V := V))) ((0, src) : Nat × V)
  have hs1 : s1.arr.toList.Perm [(0, src)] := by simpa [empty] using h2.perm
  have hreach : Reach later s1 := Reach.push Reach.empty ⟨n1, h1⟩
  have hway : ∀ v d, Way roads src v d → v ∈ vs := by
    intro v d h
    induction h with
    | here => exact hsrc
    | road _ hr ih => exact hroads _ ih _ hr
  obtain ⟨taken, s', ⟨n2, h3⟩, hdesc, -, hperm, hend, hval⟩ :=
    heap_simulation later_swo hreach (relax roads) (fun x => Way roads src x.2 x.1)
      (by intro x hx; rw [List.mem_singleton.mp (hs1.mem_iff.mp hx)]; exact Way.here)
      (by
        intro past x hx y hy
        rw [relax] at hy
        split at hy
        · simp at hy
        · obtain ⟨r, hr, rfl⟩ := List.mem_map.mp hy
          exact ⟨Way.road hx hr, by simp [later]⟩) n
  have hlen : (scheduled (relax roads) [] taken).length ≤ ∑ v ∈ vs, (roads v).length := by
    have := scheduled_length (roads := roads) vs taken [] fun x hx => hway _ _ (hval x (List.mem_append_left _ hx))
    simpa using this
  have htot : taken.length + s'.arr.size = 1 + (scheduled (relax roads) [] taken).length := by
    have e := hperm.length_eq
    have e1 := hs1.length_eq
    simp only [List.length_append, List.length_singleton, Array.length_toList] at e e1
    omega
  have hempty : s'.arr.size = 0 := by
    rcases hend with ⟨h, -⟩ | h
    · exact h
    · omega
  have hnil : s'.arr.toList = [] := by rw [← List.length_eq_zero_iff, Array.length_toList]; exact hempty
  rw [hnil, List.append_nil] at hperm
  have hmin : ∀ v d, Way roads src v d → ∃ e, distTo v taken = some e ∧ e ≤ d := by
    intro v d h
    induction h with
    | here =>
      refine distTo_le hdesc (hperm.mem_iff.mpr (List.mem_append_left _ (hs1.mem_iff.mpr List.mem_cons_self)))
    | @road v d u w _ hr ih =>
      obtain ⟨e, he, hle⟩ := ih
      have hm := scheduled_first hr taken [] (by simp) he
      obtain ⟨e', he', hle'⟩ := distTo_le hdesc (hperm.mem_iff.mpr (List.mem_append_right _ hm))
      exact ⟨e', he', by omega⟩
  have hsound : ∀ v d, distTo v taken = some d → Way roads src v d := fun v d h =>
    hval _ (List.mem_append_left _ (distTo_mem v taken d h))
  refine ⟨taken, s', ⟨max n1 n2, fun f hf => ?_⟩, hempty, by omega, fun v d => ⟨fun h => ⟨hsound v d h, fun d' h' => ?_⟩, ?_⟩, ?_⟩
  · have e1 : push later f (0, src) empty = .ok () s1 := h1 f (by omega)
    have e2 := h3 f (by omega)
    show M.bind _ _ _ = _
    unfold M.bind
    rw [e1]
    exact e2
  · obtain ⟨e, he, hle⟩ := hmin v d' h'
    rw [h] at he
    cases he; exact hle
  · rintro ⟨h, hm⟩
    obtain ⟨e, he, hle⟩ := hmin v d h
    have := hm e (hsound v e he)
    rw [he]; congr 1; omega
  · intro v
    constructor
    · intro h d hd
      obtain ⟨e, he, -⟩ := hmin v d hd
      rw [h] at he; cases he
    · intro h
      cases hv : distTo v taken with
      | none => rfl
      | some d => exact absurd (hsound v d hv) (h d)

/-! ### Example -/

/-- A small map: from 0 to 2 it is shorter by way of 1; no road leads to 4. -/
def someRoads : Nat → List (Nat × Nat)
  | 0 => [(1, 2), (2, 7)]
  | 1 => [(2, 3), (3, 9), (0, 0)]
  | 2 => [(3, 1)]
  | 4 => [(0, 1)]
  | _ => []

/-- The hypotheses of the theorem are met by it. -/
example : ∀ v ∈ Finset.range 5, ∀ r ∈ someRoads v, r.1 ∈ Finset.range 5 := by decide

example : ∑ v ∈ Finset.range 5, (someRoads v).length < 8 := by decide

example : (leftover (shortest someRoads 0 8 40 empty)).map (fun r => ([0, 1, 2, 3, 4].map (distTo · r.1), r.2)) =
    some ([some 0, some 2, some 5, some 6, none], []) := by decide +kernel

end Verif.Heap
