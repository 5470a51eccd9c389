import Verif.LinkedList.Model
import Mathlib.Tactic.Common
import Mathlib.Data.List.Nodup

/-! Program logic for the `LinkedList` model: total-correctness weakest preconditions, the representation
invariant and the specifications of the functions in terms of it. -/

set_option autoImplicit false

namespace Verif.LL

variable {α β γ : Type}

/-- `f` started in `s` terminates without undefined behaviour; it returns with `Q` or throws with `T`. -/
def wp (f : M α β) (s : St α) (Q : β → St α → Prop) (T : St α → Prop) : Prop :=
  match f s with
  | .ok b s' => Q b s'
  | .thrown s' => T s'
  | .ub => False
  | .hang => False

theorem wp_pure (b : β) (s : St α) (Q : β → St α → Prop) (T : St α → Prop) :
    wp (pure b : M α β) s Q T ↔ Q b s := Iff.rfl

theorem wp_bind (f : M α β) (g : β → M α γ) (s : St α) (Q : γ → St α → Prop) (T : St α → Prop) :
    wp (f >>= g) s Q T ↔ wp f s (fun b s' => wp (g b) s' Q T) T := by
  show wp (M.bind f g) s Q T ↔ _
  unfold wp M.bind
  cases f s <;> rfl

theorem wp_mono {f : M α β} {s : St α} {Q Q' : β → St α → Prop} {T T' : St α → Prop}
    (h : wp f s Q T) (hQ : ∀ b s', Q b s' → Q' b s') (hT : ∀ s', T s' → T' s') : wp f s Q' T' := by
  unfold wp at *
  cases hf : f s with
  | ok b s' => rw [hf] at h; exact hQ _ _ h
  | thrown s' => rw [hf] at h; exact hT _ h
  | ub => rw [hf] at h; exact h
  | hang => rw [hf] at h; exact h

theorem wp_get (s : St α) (Q : St α → St α → Prop) (T : St α → Prop) : wp M.get s Q T ↔ Q s s := Iff.rfl

theorem wp_modify (u : St α → St α) (s : St α) (Q : Unit → St α → Prop) (T : St α → Prop) :
    wp (M.modify u) s Q T ↔ Q () (u s) := Iff.rfl

theorem wp_tryRethrow (f : M α β) (h : M α Unit) (s : St α) (Q : β → St α → Prop) (T : St α → Prop) :
    wp (M.tryRethrow f h) s Q T ↔ wp f s Q (fun s' => wp h s' (fun _ => T) T) := by
  unfold wp M.tryRethrow
  cases f s with
  | thrown s' => simp only; cases h s' <;> rfl
  | _ => rfl

theorem wp_ite (c : Prop) [Decidable c] (f g : M α β) (s : St α) (Q : β → St α → Prop)
    (T : St α → Prop) : wp (if c then f else g) s Q T ↔ if c then wp f s Q T else wp g s Q T := by
  split <;> rfl

theorem wp_of_eq {f : M α β} {s : St α} {b : β} {s' : St α} (h : f s = .ok b s')
    {Q : β → St α → Prop} {T : St α → Prop} : wp f s Q T ↔ Q b s' := by
  unfold wp; rw [h]

/-! ### Updates -/

theorem upd_same {β : Type} (f : Nat → β) (i : Nat) (b : β) : upd f i b i = b := by simp [upd]

theorem upd_other {β : Type} (f : Nat → β) {i j : Nat} (b : β) (h : j ≠ i) : upd f i b j = f j := by
  simp [upd, h]

theorem upd_upd {β : Type} (f : Nat → β) (i : Nat) (b c : β) : upd (upd f i b) i c = upd f i c := by
  funext j; unfold upd; split <;> rfl

theorem upd_self {β : Type} (f : Nat → β) (i : Nat) {b : β} (h : f i = b) : upd f i b = f := by
  funext j; unfold upd; split
  · rename_i e; rw [e, h]
  · rfl

theorem upd_comm {β : Type} (f : Nat → β) {i j : Nat} (b c : β) (h : i ≠ j) :
    upd (upd f i b) j c = upd (upd f j c) i b := by
  funext k; unfold upd; split <;> split <;> simp_all

/-! ### Chains of nodes -/

/-- The elements of a list: for each its node's address and its value. -/
abbrev Els (α : Type) := List (Nat × α)

def ids (xs : Els α) : List Nat := xs.map Prod.fst
def vals (xs : Els α) : List α := xs.map Prod.snd

@[simp] theorem ids_nil : ids ([] : Els α) = [] := rfl
@[simp] theorem ids_cons (x : Nat × α) (xs : Els α) : ids (x :: xs) = x.1 :: ids xs := rfl
@[simp] theorem ids_append (xs ys : Els α) : ids (xs ++ ys) = ids xs ++ ids ys := List.map_append ..
@[simp] theorem vals_nil : vals ([] : Els α) = [] := rfl
@[simp] theorem vals_cons (x : Nat × α) (xs : Els α) : vals (x :: xs) = x.2 :: vals xs := rfl
@[simp] theorem vals_append (xs ys : Els α) : vals (xs ++ ys) = vals xs ++ vals ys := List.map_append ..
@[simp] theorem vals_length (xs : Els α) : (vals xs).length = xs.length := List.length_map ..
@[simp] theorem ids_length (xs : Els α) : (ids xs).length = xs.length := List.length_map ..

/-- Following `next` from `p` visits the nodes `xs` and then arrives at `q`. -/
def Seg (nodes : Nat → Option (Cell α)) : Ptr → Els α → Ptr → Prop
  | p, [], q => p = q
  | p, (a, v) :: xs, q => p = some (.node a) ∧ ∃ n, nodes a = some (.node n (some v)) ∧ Seg nodes n xs q

/-- The pointer to the first node of `xs`, or `q`. -/
def ptr (xs : Els α) (q : Ptr) : Ptr :=
  match xs with
  | [] => q
  | (a, _) :: _ => some (.node a)

@[simp] theorem ptr_nil (q : Ptr) : ptr ([] : Els α) q = q := rfl
@[simp] theorem ptr_cons (x : Nat × α) (xs : Els α) (q : Ptr) : ptr (x :: xs) q = some (.node x.1) := rfl

variable {nodes nodes' : Nat → Option (Cell α)}

theorem Seg.ptr_eq {p q : Ptr} {xs : Els α} (h : Seg nodes p xs q) : p = ptr xs q := by
  cases xs with
  | nil => exact h
  | cons x xs => exact h.1

theorem seg_append {p q : Ptr} {xs ys : Els α} :
    Seg nodes p (xs ++ ys) q ↔ ∃ r, Seg nodes p xs r ∧ Seg nodes r ys q := by
  induction xs generalizing p with
  | nil => exact ⟨fun h => ⟨p, rfl, h⟩, fun ⟨r, h1, h2⟩ => h1 ▸ h2⟩
  | cons x xs ih =>
    constructor
    · rintro ⟨h1, n, h2, h3⟩
      obtain ⟨r, h4, h5⟩ := ih.1 h3
      exact ⟨r, ⟨h1, n, h2, h4⟩, h5⟩
    · rintro ⟨r, ⟨h1, n, h2, h4⟩, h5⟩
      exact ⟨h1, n, h2, ih.2 ⟨r, h4, h5⟩⟩

theorem Seg.frame {p q : Ptr} {xs : Els α} (h : Seg nodes p xs q)
    (hf : ∀ a ∈ ids xs, nodes' a = nodes a) : Seg nodes' p xs q := by
  induction xs generalizing p with
  | nil => exact h
  | cons x xs ih =>
    obtain ⟨h1, n, h2, h3⟩ := h
    exact ⟨h1, n, (hf _ (by simp)).trans h2, ih h3 fun a ha => hf a (by simp [ha])⟩

theorem Seg.live {p q : Ptr} {xs : Els α} (h : Seg nodes p xs q) :
    ∀ a ∈ ids xs, nodes a ≠ none := by
  induction xs generalizing p with
  | nil => simp
  | cons x xs ih =>
    obtain ⟨-, n, h2, h3⟩ := h
    intro a ha
    rcases List.mem_cons.1 (ids_cons x xs ▸ ha) with rfl | ha
    · rw [h2]; simp
    · exact ih h3 a ha

/-- The chain starting at list object `l` visits `xs`, then arrives at `q`. -/
def LSeg (s : St α) (l : Nat) (xs : Els α) (q : Ptr) : Prop :=
  ∃ p, s.heads l = some p ∧ Seg s.nodes p xs q

/-- The position after the elements `pre` of list `l`. -/
def posPtr (l : Nat) (pre : Els α) : Ptr :=
  match pre.getLast? with
  | none => some (.head l)
  | some x => some (.node x.1)

@[simp] theorem posPtr_nil (l : Nat) : posPtr l ([] : Els α) = some (.head l) := rfl

@[simp] theorem posPtr_snoc (l : Nat) (pre : Els α) (x : Nat × α) :
    posPtr l (pre ++ [x]) = some (.node x.1) := by simp [posPtr]

theorem posPtr_cases (l : Nat) (pre : Els α) :
    (pre = [] ∧ posPtr l pre = some (.head l)) ∨
    ∃ ys x, pre = ys ++ [x] ∧ posPtr l pre = some (.node x.1) := by
  rcases List.eq_nil_or_concat pre with h | ⟨ys, x, h⟩
  · exact .inl ⟨h, by rw [h]; rfl⟩
  · exact .inr ⟨ys, x, by simpa using h, by rw [h]; simp [posPtr]⟩

theorem next_spec {s : St α} {l : Nat} {pre : Els α} {r : Ptr} (h : LSeg s l pre r) :
    next (posPtr l pre) s = .ok r s := by
  obtain ⟨p, h1, h2⟩ := h
  rcases posPtr_cases l pre with ⟨rfl, e⟩ | ⟨ys, x, rfl, e⟩
  · rw [e]; unfold next; simp only [h1]; rw [show p = r from h2]
  · rw [e]
    obtain ⟨r', h3, h4, n, h5, h6⟩ := seg_append.1 h2
    unfold next; simp only [h5]; rw [show n = r from h6]

theorem next_node {s : St α} {a : Nat} {n : Ptr} {v : Option α} (h : s.nodes a = some (.node n v)) :
    next (some (.node a)) s = .ok n s := by
  unfold next; simp only [h]

/-- What differs between two states: the heads of lists other than `l` and the nodes outside `F` agree, and
so do the ghost fields. -/
structure Only (s s' : St α) (l : Nat) (F : List Nat) : Prop where
  heads : ∀ m, m ≠ l → s'.heads m = s.heads m
  nodes : ∀ a, a ∉ F → s'.nodes a = s.nodes a
  log : s'.log = s.log
  tick : s'.tick = s.tick
  fails : s'.fails = s.fails

theorem setNext_spec {s : St α} {l : Nat} {pre : Els α} {r : Ptr} (h : LSeg s l pre r)
    (hn : (ids pre).Nodup) (q : Ptr) {Q : Unit → St α → Prop} {T : St α → Prop}
    (k : ∀ s', LSeg s' l pre q → Only s s' l (ids pre) → Q () s') :
    wp (setNext (posPtr l pre) q) s Q T := by
  obtain ⟨p, h1, h2⟩ := h
  rcases posPtr_cases l pre with ⟨rfl, e⟩ | ⟨ys, x, rfl, e⟩
  · rw [e]
    refine (wp_of_eq (b := ()) (s' := { s with heads := upd s.heads l (some q) }) ?_).2 ?_
    · unfold setNext; simp only [h1]
    · refine k _ ⟨q, upd_same _ _ _, rfl⟩ ⟨fun m hm => upd_other _ _ hm, fun _ _ => rfl, rfl, rfl, rfl⟩
  · rw [e]
    obtain ⟨r', h3, h4, n, h5, h6⟩ := seg_append.1 h2
    refine (wp_of_eq (b := ())
      (s' := { s with nodes := upd s.nodes x.1 (some (.node q (some x.2))) }) ?_).2 ?_
    · unfold setNext; simp only [h5]
    · have hx : x.1 ∉ ids ys := by
        rw [ids_append] at hn
        intro hm
        exact (List.nodup_append.1 hn).2.2 _ hm _ (by simp) rfl
      refine k _ ⟨p, h1, seg_append.2 ⟨r', h3.frame fun a ha => upd_other _ _ ?_, h4, q, ?_, rfl⟩⟩
        ⟨fun _ _ => rfl, fun a ha => upd_other _ _ ?_, rfl, rfl, rfl⟩
      · rintro rfl; exact hx ha
      · exact upd_same _ _ _
      · rintro rfl; exact ha (by simp)

theorem setNext_node {s : St α} {a : Nat} {n : Ptr} {v : Option α} (h : s.nodes a = some (.node n v))
    (q : Ptr) {Q : Unit → St α → Prop} {T : St α → Prop}
    (k : Q () { s with nodes := upd s.nodes a (some (.node q v)) }) :
    wp (setNext (some (.node a)) q) s Q T :=
  (wp_of_eq (by unfold setNext; simp only [h])).2 k

/-! ### The invariant -/

/-- The list objects are exactly those of `L`; each has the elements `L l`, in nodes of its own; the nodes
in `K` are allocated but belong to no list (leaked), all other allocated nodes belong to a list. -/
structure Inv (s : St α) (L : Nat → Option (Els α)) (K : List Nat) : Prop where
  absent : ∀ l, L l = none → s.heads l = none
  seg : ∀ l xs, L l = some xs → LSeg s l xs none
  nodup : ∀ l xs, L l = some xs → (ids xs).Nodup
  disj : ∀ l m xs ys, l ≠ m → L l = some xs → L m = some ys → ∀ a ∈ ids xs, a ∉ ids ys
  cover : ∀ a, s.nodes a ≠ none → (∃ l xs, L l = some xs ∧ a ∈ ids xs) ∨ a ∈ K
  leak : ∀ a ∈ K, s.nodes a ≠ none ∧ ∀ l xs, L l = some xs → a ∉ ids xs

variable {s s' : St α} {L : Nat → Option (Els α)} {K : List Nat} {l m : Nat}

theorem Inv.live (h : Inv s L K) {xs : Els α} (hl : L l = some xs) : ∀ a ∈ ids xs, s.nodes a ≠ none := by
  obtain ⟨p, -, h2⟩ := h.seg l xs hl
  exact h2.live

/-- One list changed. -/
theorem Inv.set (h : Inv s L K) {xs xs' : Els α} (hl : L l = some xs)
    (hheads : ∀ m, m ≠ l → s'.heads m = s.heads m) (hseg : LSeg s' l xs' none)
    (hn : (ids xs').Nodup)
    (frame : ∀ a, a ∉ ids xs → a ∉ ids xs' → s'.nodes a = s.nodes a)
    (fresh : ∀ a ∈ ids xs', a ∈ ids xs ∨ s.nodes a = none)
    (freed : ∀ a ∈ ids xs, a ∉ ids xs' → s'.nodes a = none) :
    Inv s' (upd L l (some xs')) K := by
  have sep : ∀ m ys, m ≠ l → L m = some ys → ∀ a ∈ ids ys, a ∉ ids xs ∧ a ∉ ids xs' := by
    intro m ys hm hy a ha
    have h1 := h.disj m l ys xs hm hy hl a ha
    refine ⟨h1, fun h2 => ?_⟩
    rcases fresh a h2 with h3 | h3
    · exact h1 h3
    · exact h.live hy a ha h3
  constructor
  · intro m hm
    by_cases e : m = l
    · subst e; rw [upd_same] at hm; exact absurd hm (by simp)
    · rw [upd_other _ _ e] at hm; rw [hheads m e]; exact h.absent m hm
  · intro m ys hm
    by_cases e : m = l
    · subst e; rw [upd_same] at hm; cases hm; exact hseg
    · rw [upd_other _ _ e] at hm
      obtain ⟨p, h1, h2⟩ := h.seg m ys hm
      exact ⟨p, (hheads m e).trans h1,
        h2.frame fun a ha => frame a (sep m ys e hm a ha).1 (sep m ys e hm a ha).2⟩
  · intro m ys hm
    by_cases e : m = l
    · subst e; rw [upd_same] at hm; cases hm; exact hn
    · rw [upd_other _ _ e] at hm; exact h.nodup m ys hm
  · intro m k ys zs hmk hy hz a ha ha'
    by_cases e : m = l
    · subst e
      rw [upd_same] at hy; cases hy
      rw [upd_other _ _ (Ne.symm hmk)] at hz
      exact (sep k zs (Ne.symm hmk) hz a ha').2 ha
    · rw [upd_other _ _ e] at hy
      by_cases e' : k = l
      · subst e'
        rw [upd_same] at hz; cases hz
        exact (sep m ys e hy a ha).2 ha'
      · rw [upd_other _ _ e'] at hz
        exact h.disj m k ys zs hmk hy hz a ha ha'
  · intro a ha
    by_cases h1 : a ∈ ids xs'
    · exact .inl ⟨l, xs', upd_same _ _ _, h1⟩
    by_cases h2 : a ∈ ids xs
    · exact absurd (freed a h2 h1) ha
    rw [frame a h2 h1] at ha
    rcases h.cover a ha with ⟨m, ys, hm, hy⟩ | hk
    · refine .inl ⟨m, ys, ?_, hy⟩
      rw [upd_other]
      · exact hm
      · rintro rfl
        rw [hl] at hm; cases hm
        exact h2 hy
    · exact .inr hk
  · intro a ha
    obtain ⟨h1, h2⟩ := h.leak a ha
    have h3 := h2 l xs hl
    have h4 : a ∉ ids xs' := fun h5 => (fresh a h5).elim h3 h1
    refine ⟨by rw [frame a h3 h4]; exact h1, fun m ys hm => ?_⟩
    by_cases e : m = l
    · subst e; rw [upd_same] at hm; cases hm; exact h4
    · rw [upd_other _ _ e] at hm; exact h2 m ys hm

/-- Nothing the invariant is about changed. -/
theorem Inv.same (h : Inv s L K) (h1 : s'.heads = s.heads) (h2 : s'.nodes = s.nodes) : Inv s' L K := by
  obtain ⟨a, b, c, d, e, f⟩ := h
  refine ⟨?_, ?_, c, d, ?_, ?_⟩
  · rw [h1]; exact a
  · unfold LSeg; rw [h1, h2]; exact b
  · rw [h2]; exact e
  · rw [h2]; exact f

/-- A new, empty list. -/
theorem Inv.new (h : Inv s L K) (hl : L l = none) :
    Inv { s with heads := upd s.heads l (some none) } (upd L l (some [])) K := by
  constructor
  · intro m hm
    by_cases e : m = l
    · subst e; rw [upd_same] at hm; cases hm
    · rw [upd_other _ _ e] at hm; exact (upd_other _ _ e).trans (h.absent m hm)
  · intro m ys hm
    by_cases e : m = l
    · subst e; rw [upd_same] at hm; cases hm; exact ⟨none, upd_same _ _ _, rfl⟩
    · rw [upd_other _ _ e] at hm
      obtain ⟨p, h1, h2⟩ := h.seg m ys hm
      exact ⟨p, (upd_other _ _ e).trans h1, h2⟩
  · intro m ys hm
    by_cases e : m = l
    · subst e; rw [upd_same] at hm; cases hm; simp
    · rw [upd_other _ _ e] at hm; exact h.nodup m ys hm
  · intro m k ys zs hmk hy hz a ha ha'
    by_cases e : m = l
    · subst e; rw [upd_same] at hy; cases hy; simp at ha
    · rw [upd_other _ _ e] at hy
      by_cases e' : k = l
      · subst e'; rw [upd_same] at hz; cases hz; simp at ha'
      · rw [upd_other _ _ e'] at hz
        exact h.disj m k ys zs hmk hy hz a ha ha'
  · intro a ha
    rcases h.cover a ha with ⟨m, ys, hm, hy⟩ | hk
    · refine .inl ⟨m, ys, ?_, hy⟩
      rw [upd_other]
      · exact hm
      · rintro rfl; rw [hl] at hm; cases hm
    · exact .inr hk
  · intro a ha
    refine ⟨(h.leak a ha).1, fun m ys hm => ?_⟩
    by_cases e : m = l
    · subst e; rw [upd_same] at hm; cases hm; simp
    · rw [upd_other _ _ e] at hm; exact (h.leak a ha).2 m ys hm

/-- A list object ends; its nodes, if any, are leaked. -/
theorem Inv.drop (h : Inv s L K) {xs : Els α} (hl : L l = some xs) :
    Inv { s with heads := upd s.heads l none } (upd L l none) (ids xs ++ K) := by
  have get : ∀ m ys, upd L l none m = some ys → m ≠ l ∧ L m = some ys := by
    intro m ys hm
    by_cases e : m = l
    · subst e; rw [upd_same] at hm; cases hm
    · rw [upd_other _ _ e] at hm; exact ⟨e, hm⟩
  constructor
  · intro m hm
    by_cases e : m = l
    · subst e; exact upd_same _ _ _
    · rw [upd_other _ _ e] at hm; exact (upd_other _ _ e).trans (h.absent m hm)
  · intro m ys hm
    obtain ⟨e, hm⟩ := get m ys hm
    obtain ⟨p, h1, h2⟩ := h.seg m ys hm
    exact ⟨p, (upd_other _ _ e).trans h1, h2⟩
  · intro m ys hm
    exact h.nodup m ys (get m ys hm).2
  · intro m k ys zs hmk hy hz a ha ha'
    exact h.disj m k ys zs hmk (get _ _ hy).2 (get _ _ hz).2 a ha ha'
  · intro a ha
    rcases h.cover a ha with ⟨m, ys, hm, hy⟩ | hk
    · by_cases e : m = l
      · subst e; rw [hl] at hm; cases hm
        exact .inr (List.mem_append_left _ hy)
      · exact .inl ⟨m, ys, (upd_other _ _ e).trans hm, hy⟩
    · exact .inr (List.mem_append_right _ hk)
  · intro a ha
    rcases List.mem_append.1 ha with ha | ha
    · exact ⟨h.live hl a ha, fun m ys hm =>
        h.disj l m xs ys (get _ _ hm).1.symm hl (get _ _ hm).2 a ha⟩
    · exact ⟨(h.leak a ha).1, fun m ys hm => (h.leak a ha).2 m ys (get _ _ hm).2⟩

/-- The elements of list `m` are handed to the empty list `l`. -/
theorem Inv.hand (h : Inv s L K) {xs : Els α} (hlm : l ≠ m) (hl : L l = some []) (hm : L m = some xs)
    (hheads : ∀ k, k ≠ l → k ≠ m → s'.heads k = s.heads k) (hnodes : s'.nodes = s.nodes)
    (h1 : s'.heads l = s.heads m) (h2 : s'.heads m = some none) :
    Inv s' (upd (upd L l (some xs)) m (some [])) K := by
  have get : ∀ k zs, upd (upd L l (some xs)) m (some []) k = some zs →
      (k = m ∧ zs = []) ∨ (k = l ∧ zs = xs) ∨ (k ≠ m ∧ k ≠ l ∧ L k = some zs) := by
    intro k zs hk
    by_cases e : k = m
    · subst e; rw [upd_same] at hk; cases hk; exact .inl ⟨rfl, rfl⟩
    · rw [upd_other _ _ e] at hk
      by_cases e' : k = l
      · subst e'; rw [upd_same] at hk; cases hk; exact .inr (.inl ⟨rfl, rfl⟩)
      · rw [upd_other _ _ e'] at hk; exact .inr (.inr ⟨e, e', hk⟩)
  constructor
  · intro k hk
    by_cases e : k = m
    · subst e; rw [upd_same] at hk; cases hk
    · rw [upd_other _ _ e] at hk
      by_cases e' : k = l
      · subst e'; rw [upd_same] at hk; cases hk
      · rw [upd_other _ _ e'] at hk; rw [hheads k e' e]; exact h.absent k hk
  · intro k zs hk
    unfold LSeg; rw [hnodes]
    rcases get k zs hk with ⟨rfl, rfl⟩ | ⟨rfl, rfl⟩ | ⟨e1, e2, hk⟩
    · exact ⟨_, h2, rfl⟩
    · rw [h1]; exact h.seg m zs hm
    · rw [hheads k e2 e1]; exact h.seg k zs hk
  · intro k zs hk
    rcases get k zs hk with ⟨rfl, rfl⟩ | ⟨rfl, rfl⟩ | ⟨e1, e2, hk⟩
    · simp
    · exact h.nodup m zs hm
    · exact h.nodup k zs hk
  · intro k j ys zs hkj hy hz a ha ha'
    rcases get k ys hy with ⟨rfl, rfl⟩ | ⟨rfl, rfl⟩ | ⟨e1, e2, hk⟩
    · simp at ha
    · rcases get j zs hz with ⟨rfl, rfl⟩ | ⟨rfl, rfl⟩ | ⟨e1, e2, hj⟩
      · simp at ha'
      · exact hkj rfl
      · exact h.disj m j ys zs (Ne.symm e1) hm hj a ha ha'
    · rcases get j zs hz with ⟨rfl, rfl⟩ | ⟨rfl, rfl⟩ | ⟨e3, e4, hj⟩
      · simp at ha'
      · exact h.disj k m ys zs e1 hk hm a ha ha'
      · exact h.disj k j ys zs hkj hk hj a ha ha'
  · intro a ha
    rw [hnodes] at ha
    rcases h.cover a ha with ⟨k, zs, hk, hz⟩ | hk
    · by_cases e : k = m
      · subst e; rw [hm] at hk; cases hk
        exact .inl ⟨l, xs, by rw [upd_other _ _ hlm, upd_same], hz⟩
      · by_cases e' : k = l
        · subst e'; rw [hl] at hk; cases hk; simp at hz
        · exact .inl ⟨k, zs, by rw [upd_other _ _ e, upd_other _ _ e']; exact hk, hz⟩
    · exact .inr hk
  · intro a ha
    rw [hnodes]
    refine ⟨(h.leak a ha).1, fun k zs hk => ?_⟩
    rcases get k zs hk with ⟨rfl, rfl⟩ | ⟨rfl, rfl⟩ | ⟨e1, e2, hk⟩
    · simp
    · exact (h.leak a ha).2 m zs hm
    · exact (h.leak a ha).2 k zs hk

end Verif.LL
