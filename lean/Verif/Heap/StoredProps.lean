import Verif.Heap.Stored
import Verif.Heap.Lemmas
import Verif.Array.Reach
import Verif.Array.Bugs

/-! # `Heap` on its storage does what `Heap` on a sequence does -/

set_option autoImplicit false

namespace Verif.HeapS

open Verif.Arr (wp_growStorage growStorage onlyIf bind_of_ok Elem St Src A M getD moveFrom writeAt emplaceBack popBack reserve destructor wp wp_bind wp_pure wp_ite
  wp_getD wp_mono WF Holds Post wp_ok bind_of_ub inBounds_iff readAll)

variable {α β γ : Type} {cfg : Elem α} {lt : α → α → Bool}

/-! ### The simulation -/

/-- Whatever the abstract program `F` does on a sequence without changing its length, the program `G` does on an array that
holds the sequence. -/
def Sim (cfg : Elem α) (F : Heap.M α β) (G : A α β) : Prop :=
  ∀ (st st' : Heap.St α) (b : β) (s : St α), F st = .ok b st' → WF s.mem → Holds cfg s.mem s.d st.arr.toList →
    s.d.cap < 2 ^ 63 → wp G s (fun b' s' => b' = b ∧ Post cfg s s' st'.arr.toList s.d.cap) fun _ => False

theorem Sim.bind {F : Heap.M α β} {F' : β → Heap.M α γ} {G : A α β} {G' : β → A α γ} (h : Sim cfg F G)
    (h' : ∀ b, Sim cfg (F' b) (G' b)) : Sim cfg (F >>= F') (G >>= G') := by
  intro st st' c s hf hw hh hc
  change Heap.M.bind F F' st = _ at hf
  unfold Heap.M.bind at hf
  split at hf
  · rename_i b st1 e1
    rw [wp_bind]
    refine wp_mono (h st st1 b s e1 hw hh hc) ?_ (fun _ h => h)
    rintro b' s1 ⟨rfl, p1⟩
    refine wp_mono (h' b' st1 st' c s1 hf p1.wf p1.holds (by rw [p1.cap]; exact hc)) ?_ (fun _ h => h)
    rintro c' s2 ⟨rfl, p2⟩
    refine ⟨rfl, ?_⟩
    have := p1.trans cfg p2
    rw [p1.cap] at this
    exact this
  · cases hf
  · cases hf

theorem sim_pure (b : β) : Sim cfg (pure b) (pure b) := by
  intro st st' b' s hf hw hh _
  cases hf
  rw [wp_pure]
  exact ⟨rfl, Post.refl cfg hw hh⟩

theorem toDiff_small {n : Nat} (h : n < 2 ^ 63) : toDiff n = n := by unfold toDiff; rw [if_pos h]

theorem wrap_small {n : Nat} (h : n < 2 ^ 64) : wrap n = n := Nat.mod_eq_of_lt h

theorem toSize_small {n : Nat} (h : n < 2 ^ 63) : toSize (n : Int) = n := by unfold toSize; omega

theorem sim_get (i : Int) : Sim cfg (Heap.get i) (get i) := by
  intro st st' b s hf hw hh _
  unfold Heap.get at hf
  split at hf
  · rename_i h
    cases hf
    have hsz := hh.size
    have hle := hh.le
    have hlt : i.toNat < st.arr.toList.length := by simpa using h.2
    unfold get
    rw [if_pos h.1]
    unfold Verif.Arr.index
    rw [wp_bind, wp_getD]
    refine Verif.Arr.wp_read ((inBounds_iff (hh.alive cfg (by omega))).mpr (by omega)) (hh.cells i.toNat hlt) ?_
    exact ⟨by simp, Post.refl cfg hw hh⟩
  · cases hf

theorem sim_compareAt (i j : Int) : Sim cfg (Heap.compareAt lt i j) (compareAt lt i j) := by
  refine (sim_get i).bind fun x => (sim_get j).bind fun y => ?_
  intro st st' b s hf hw hh _
  cases hf
  rw [wp_pure]
  exact ⟨rfl, Post.refl cfg hw hh⟩

theorem wp_moveFrom_triv (ht : cfg.triv = true) {i : Nat} {s : St α} {xs : List α} (hh : Holds cfg s.mem s.d xs)
    (hw : WF s.mem) (hi : i < xs.length) :
    wp (moveFrom cfg s.d.blk i) s (fun v s' => v = xs[i] ∧ s'.d = s.d ∧ Post cfg s s' xs s.d.cap) fun _ => False := by
  have hsz := hh.size
  have hle := hh.le
  refine Verif.Arr.wp_moveFrom cfg ((inBounds_iff (hh.alive cfg (by omega))).mpr (by omega)) (hh.cells i hi) fun s' e => ?_
  rw [if_pos ht, Verif.Arr.upd2_self (hh.cells i hi)] at e
  exact ⟨rfl, e.d, e.post cfg hw hh⟩

theorem sim_swapAt (ht : cfg.triv = true) (i j : Int) : Sim cfg (Heap.swapAt i j) (swapAt cfg i j) := by
  intro st st' b s hf hw hh hc
  unfold Heap.swapAt at hf
  split at hf
  · rename_i h
    cases hf
    have hi : i.toNat < st.arr.toList.length := by simpa using h.1.2
    have hj : j.toNat < st.arr.toList.length := by simpa using h.2.2
    unfold swapAt
    rw [if_pos ⟨h.1.1, h.2.1⟩, wp_bind, wp_getD, wp_bind]
    refine wp_mono (wp_moveFrom_triv ht hh hw hi) ?_ (fun _ h => h)
    rintro x s1 ⟨rfl, d1, p1⟩
    rw [wp_bind, ← d1]
    refine wp_mono (wp_moveFrom_triv ht p1.holds p1.wf hj) ?_ (fun _ h => h)
    rintro y s2 ⟨rfl, d2, p2⟩
    rw [wp_bind]
    refine Verif.Arr.wp_writeAt cfg p2.wf p2.holds hi fun s3 p3 => ?_
    refine Verif.Arr.wp_writeAt cfg p3.wf p3.holds (by simpa using hj) fun s4 p4 => ⟨rfl, ?_⟩
    have p := ((p1.trans cfg p2).trans cfg p3).trans cfg p4
    rw [p3.cap, p2.cap, p1.cap] at p
    have e : (st.arr.swap i.toNat j.toNat h.1.2 h.2.2).toList =
        (st.arr.toList.set i.toNat st.arr.toList[j.toNat]).set j.toNat st.arr.toList[i.toNat] := by
      simp [Array.swap]
    rw [e, d1]
    exact p
  · cases hf

theorem sim_size : Sim cfg (Heap.M.size : Heap.M α Nat) size := by
  intro st st' b s hf hw hh hc
  cases hf
  have hsz := hh.size
  have hle := hh.le
  unfold size
  rw [wp_bind, wp_getD, wp_pure, wrap_small (by omega)]
  exact ⟨by simpa using hsz, Post.refl cfg hw hh⟩

theorem Sim.ite {c : Prop} [Decidable c] {F F' : Heap.M α β} {G G' : A α β} (h : c → Sim cfg F G) (h' : ¬ c → Sim cfg F' G') :
    Sim cfg (if c then F else F') (if c then G else G') := by
  split
  · exact h ‹_›
  · exact h' ‹_›

theorem sim_pick {i child : Nat} (hi : i < 2 ^ 63) : Sim cfg (Heap.pick lt i child) (pick lt i child) := by
  unfold Heap.pick pick
  -- the size is needed to know that the child is small
  intro st st' b s hf hw hh hc
  have hle := hh.le
  have hsz := hh.size
  refine sim_size.bind (F' := fun n => if child < n then _ else _) (G' := fun n => if child < n then _ else _)
    (fun n => ?_) st st' b s hf hw hh hc
  refine Sim.ite (fun hcn => ?_) fun _ => sim_pure _
  intro st st' b s hf hw hh hc
  by_cases hc' : child < 2 ^ 63
  · rw [toDiff_small hi, toDiff_small hc']
    refine ((sim_compareAt _ _).bind fun b => ?_) st st' b s hf hw hh hc
    exact Sim.ite (fun _ => sim_pure _) fun _ => sim_pure _
  · -- the abstract comparison would have been out of range
    exfalso
    have hsz := hh.size
    have hle := hh.le
    simp only [Array.length_toList] at hsz
    change Heap.M.bind _ _ st = _ at hf
    have : Heap.compareAt lt (i : Int) (child : Int) st = .ub := by
      unfold Heap.compareAt
      show Heap.M.bind _ _ st = _
      unfold Heap.M.bind
      split
      · rename_i x st1 e1
        have : st1 = st := by
          unfold Heap.get at e1; split at e1 <;> cases e1; rfl
        subst this
        show Heap.M.bind _ _ st1 = _
        unfold Heap.M.bind Heap.get
        rw [dif_neg (by rintro ⟨-, h2⟩; simp at h2; omega)]
      · rfl
      · rename_i e1; unfold Heap.get at e1; split at e1 <;> cases e1
    unfold Heap.M.bind at hf
    rw [this] at hf
    cases hf

theorem pick_lt {i child k : Nat} {st st' : Heap.St α} (h : Heap.pick lt i child st = .ok k st') :
    st'.arr = st.arr ∧ (k = i ∨ k < st.arr.size) := by
  unfold Heap.pick at h
  change Heap.M.bind _ _ st = _ at h
  unfold Heap.M.bind Heap.M.size at h
  simp only at h
  split at h
  · rename_i hc
    change Heap.M.bind _ _ st = _ at h
    unfold Heap.M.bind at h
    split at h
    · rename_i b st1 e1
      have : st1.arr = st.arr := by
        unfold Heap.compareAt at e1
        change Heap.M.bind _ _ st = _ at e1
        unfold Heap.M.bind at e1
        split at e1
        · rename_i x st2 e2
          have h2 : st2 = st := by unfold Heap.get at e2; split at e2 <;> cases e2; rfl
          subst h2
          change Heap.M.bind _ _ st2 = _ at e1
          unfold Heap.M.bind at e1
          split at e1
          · rename_i y st3 e3
            have h3 : st3 = st2 := by unfold Heap.get at e3; split at e3 <;> cases e3; rfl
            subst h3
            cases e1; rfl
          · cases e1
          · cases e1
        · cases e1
        · cases e1
      cases b
      · cases h; exact ⟨this, .inl rfl⟩
      · cases h; exact ⟨this, .inr hc⟩
    · cases h
    · cases h
  · cases h; exact ⟨rfl, .inl rfl⟩

theorem sim_heapfyDown (ht : cfg.triv = true) (fuel : Nat) :
    ∀ i, i + 1 < 2 ^ 63 → Sim cfg (Heap.heapfyDown lt fuel i) (heapfyDown cfg lt fuel i) := by
  induction fuel with
  | zero => intro i _ st st' b s hf; cases hf
  | succ f ih =>
    intro i hi
    unfold Heap.heapfyDown heapfyDown
    have hl : leftChild i = Heap.leftChild i := by
      have h : i * 2 + 1 < 2 ^ 64 := by omega
      exact wrap_small h
    have hr : rightChild i = Heap.rightChild i := by
      have h : i * 2 + 2 < 2 ^ 64 := by omega
      exact wrap_small h
    rw [hl, hr]
    intro st st' b s hf hw hh hc
    -- run the abstract program to learn where the indices are
    have hf0 := hf
    change Heap.M.bind _ _ st = _ at hf
    unfold Heap.M.bind at hf
    split at hf
    · rename_i i1 st1 e1
      have k1 := pick_lt e1
      have hsz := hh.size
      have hle := hh.le
      simp only [Array.length_toList] at hsz
      have hi1 : i1 + 1 < 2 ^ 63 := by rcases k1.2 with h | h <;> omega
      rw [wp_bind]
      refine wp_mono (sim_pick (by omega) st st1 i1 s e1 hw hh hc) ?_ (fun _ h => h)
      rintro j1 s1 ⟨rfl, p1⟩
      change Heap.M.bind _ _ st1 = _ at hf
      unfold Heap.M.bind at hf
      split at hf
      · rename_i i2 st2 e2
        have k2 := pick_lt e2
        have hi2 : i2 + 1 < 2 ^ 63 := by rcases k2.2 with h | h <;> [omega; (rw [k1.1] at h; omega)]
        rw [wp_bind]
        refine wp_mono (sim_pick (by omega) st1 st2 i2 s1 e2 p1.wf p1.holds (by rw [p1.cap]; exact hc)) ?_ (fun _ h => h)
        rintro j2 s2 ⟨rfl, p2⟩
        have hc2 : s2.d.cap < 2 ^ 63 := by rw [p2.cap, p1.cap]; exact hc
        have key : Sim cfg (if j2 ≠ i then (do Heap.swapAt (i : Int) (j2 : Int); Heap.heapfyDown lt f j2) else pure ())
            (if j2 ≠ i then (do swapAt cfg (toDiff i) (toDiff j2); heapfyDown cfg lt f j2) else pure ()) := by
          refine Sim.ite (fun _ => ?_) fun _ => sim_pure _
          rw [toDiff_small (by omega), toDiff_small (n := j2) (by omega)]
          exact (sim_swapAt ht _ _).bind fun _ => ih j2 hi2
        refine wp_mono (key st2 st' b s2 hf p2.wf p2.holds hc2) ?_ (fun _ h => h)
        rintro _ s3 ⟨rfl, p3⟩
        have p := (p1.trans cfg p2).trans cfg p3
        rw [p2.cap, p1.cap] at p
        exact ⟨rfl, p⟩
      · cases hf
      · cases hf
    · cases hf
    · cases hf

theorem parent_small {n : Nat} (s : St α) (Q : Int → St α → Prop) (E : St α → Prop) :
    wp (parent (n : Int)) s Q E ↔ Q (Heap.parent n) s := by
  unfold parent
  rw [if_pos (by omega)]
  rfl

theorem sim_upLoop (ht : cfg.triv = true) (fuel : Nat) :
    ∀ i p : Nat, i < 2 ^ 63 → p < 2 ^ 63 → Sim cfg (Heap.upLoop lt fuel i p) (upLoop cfg lt fuel i p) := by
  induction fuel with
  | zero => intro i p _ _ st st' b s hf; cases hf
  | succ f ih =>
    intro i p hi hp
    unfold Heap.upLoop upLoop
    have hcond : ((i : Int) ≠ 0) = (i ≠ 0) := by simp
    simp only [hcond]
    refine Sim.ite (fun hi0 => ?_) fun _ => sim_pure _
    rw [toDiff_small hi, toSize_small hp]
    refine (sim_compareAt _ _).bind fun b => Sim.ite (fun _ => sim_pure _) fun _ => ?_
    refine (sim_swapAt ht _ _).bind fun _ => ?_
    intro st st' b s hf hw hh hc
    rw [wp_bind, parent_small]
    obtain ⟨q, hq, hq'⟩ : ∃ q : Nat, Heap.parent (p : Int) = q ∧ q < 2 ^ 63 := by
      refine ⟨(p - 1) / 2, ?_, by omega⟩
      unfold Heap.parent
      rcases p with _ | p
      · rfl
      · rw [show ((p + 1 : Nat) : Int) - 1 = (p : Int) by omega, Int.tdiv_eq_ediv_of_nonneg (by omega)]
        omega
    rw [hq] at hf ⊢
    exact ih p q hp hq' st st' b s hf hw hh hc

theorem sim_heapfyUp (ht : cfg.triv = true) (fuel i : Nat) (hi : i < 2 ^ 63) :
    Sim cfg (Heap.heapfyUp lt fuel i) (heapfyUp cfg lt fuel i) := by
  unfold Heap.heapfyUp heapfyUp
  intro st st' b s hf hw hh hc
  rw [toDiff_small hi, wp_bind, parent_small]
  obtain ⟨q, hq, hq'⟩ : ∃ q : Nat, Heap.parent (i : Int) = q ∧ q < 2 ^ 63 := by
    refine ⟨(i - 1) / 2, ?_, by omega⟩
    unfold Heap.parent
    rcases i with _ | p
    · rfl
    · rw [show ((p + 1 : Nat) : Int) - 1 = (p : Int) by omega, Int.tdiv_eq_ediv_of_nonneg (by omega)]
      omega
  rw [hq] at hf ⊢
  exact sim_upLoop ht fuel i q hi hq' st st' b s hf hw hh hc

/-! ### More fuel does not change the result -/

/-- More fuel does not change a defined result. -/
def Mono (F : Nat → A α β) : Prop := ∀ f s, F f s ≠ .ub → F (f + 1) s = F f s

theorem Mono.const (G : A α β) : Mono fun _ => G := fun _ _ _ => rfl

theorem Mono.bind {F : Nat → A α β} {G : Nat → β → A α γ} (hF : Mono F) (hG : ∀ b, Mono fun f => G f b) :
    Mono fun f => F f >>= G f := by
  intro f s h
  show M.bind _ _ _ = M.bind _ _ _
  have h' : M.bind (F f) (G f) s ≠ .ub := h
  have e : F (f + 1) s = F f s := by
    refine hF f s fun e => h' ?_
    unfold M.bind; rw [e]
  unfold M.bind at h' ⊢
  rw [e]
  cases hf : F f s with
  | ok b s' => rw [hf] at h'; exact hG b f s' h'
  | _ => rfl

theorem Mono.ite {c : Prop} [Decidable c] {F G : Nat → A α β} (hF : Mono F) (hG : Mono G) :
    Mono fun f => if c then F f else G f := by
  intro f s h
  by_cases hc : c
  · simp only [if_pos hc] at h ⊢; exact hF f s h
  · simp only [if_neg hc] at h ⊢; exact hG f s h

theorem upLoop_mono : ∀ i p, Mono fun f => upLoop cfg lt f i p := by
  have key : ∀ f i p s, upLoop cfg lt f i p s ≠ .ub → upLoop cfg lt (f + 1) i p s = upLoop cfg lt f i p s := by
    intro f
    induction f with
    | zero => intro i p s h; exact absurd rfl h
    | succ f ih =>
      intro i p s h
      -- one step with the recursive call replaced by a program of one more fuel
      let step : (Nat → Int → A α Unit) → A α Unit := fun r =>
        if i ≠ 0 then do
          let b ← compareAt lt p (toDiff i)
          if !b then pure ()
          else do
            swapAt cfg p (toDiff i)
            let q ← parent p
            r (toSize p) q
        else pure ()
      let R : Nat → Nat → Int → A α Unit := fun k => if k = 0 then upLoop cfg lt f else upLoop cfg lt (f + 1)
      have hm : ∀ i p, ∀ s, R 0 i p s ≠ .ub → R 1 i p s = R 0 i p s := fun i p s => ih i p s
      show step (R 1) s = step (R 0) s
      have h0 : step (R 0) s ≠ .ub := h
      have hstep : Mono fun k => step (if k = 0 then upLoop cfg lt f else if k = 1 then upLoop cfg lt (f + 1) else upLoop cfg lt (f + 1)) := by
        refine Mono.ite ((Mono.const _).bind fun b => Mono.ite (Mono.const _) ((Mono.const _).bind fun _ =>
          (Mono.const _).bind fun q => ?_)) (Mono.const _)
        intro k s' hk
        rcases k with _ | k
        · exact ih _ _ s' hk
        · simp
      exact hstep 0 s h0
  exact fun i p f s => key f i p s

theorem heapfyDown_mono : ∀ i, Mono fun f => heapfyDown cfg lt f i := by
  have key : ∀ f i s, heapfyDown cfg lt f i s ≠ .ub → heapfyDown cfg lt (f + 1) i s = heapfyDown cfg lt f i s := by
    intro f
    induction f with
    | zero => intro i s h; exact absurd rfl h
    | succ f ih =>
      intro i s h
      let step : (Nat → A α Unit) → A α Unit := fun r => do
        let i1 ← pick lt i (leftChild i)
        let i2 ← pick lt i1 (rightChild i)
        if i2 ≠ i then do
          swapAt cfg (toDiff i) (toDiff i2)
          r i2
        else pure ()
      have hstep : Mono fun k => step (if k = 0 then heapfyDown cfg lt f else heapfyDown cfg lt (f + 1)) := by
        refine (Mono.const _).bind fun i1 => (Mono.const _).bind fun i2 => Mono.ite ((Mono.const _).bind fun _ => ?_)
          (Mono.const _)
        intro k s' hk
        rcases k with _ | k
        · exact ih _ s' hk
        · simp
      exact hstep 0 s h
  exact fun i f s => key f i s

theorem push_mono (src : Src α) : Mono fun f => push cfg lt f src := by
  unfold push heapfyUp
  exact (Mono.const _).bind fun _ => (Mono.const _).bind fun _ => (Mono.const _).bind fun _ => upLoop_mono _ _

theorem pop_mono : Mono (pop cfg lt) := by
  unfold pop
  exact (Mono.const _).bind fun _ => (Mono.const _).bind fun _ => (Mono.const _).bind fun _ => heapfyDown_mono _

theorem pushAll_mono (srcs : List (Src α)) : Mono fun f => pushAll cfg lt f srcs := by
  induction srcs with
  | nil => exact Mono.const _
  | cons x xs ih => exact (push_mono x).bind fun _ => ih

theorem Mono.tryRethrow {F : Nat → A α β} (h : Mono F) (g : A α Unit) : Mono fun f => M.tryRethrow (F f) g := by
  intro f s hne
  have h' : M.tryRethrow (F f) g s ≠ .ub := hne
  show M.tryRethrow (F (f + 1)) g s = M.tryRethrow (F f) g s
  have e : F (f + 1) s = F f s := by
    refine h f s fun e => h' ?_
    unfold M.tryRethrow; rw [e]
  unfold M.tryRethrow
  rw [e]

theorem fromRange_mono (hint : Bool) (srcs : List (Src α)) : Mono fun f => fromRange cfg lt f hint srcs :=
  Mono.tryRethrow ((Mono.const _).bind fun _ => pushAll_mono srcs) _

/-- The program gives `r` from every amount of fuel on. -/
def Runs (F : Nat → A α Unit) (s : St α) (r : Verif.Arr.Res (St α) Unit) : Prop := ∃ n, ∀ fuel, n ≤ fuel → F fuel s = r

theorem Mono.runs {F : Nat → A α Unit} (h : Mono F) {f : Nat} {s : St α} {r : Verif.Arr.Res (St α) Unit} (e : F f s = r)
    (hr : r ≠ .ub) : Runs F s r := by
  refine ⟨f, fun f' hf => ?_⟩
  induction hf with
  | refl => exact e
  | step _ ih => rw [h _ s (by rw [ih]; exact hr), ih]

theorem Runs.unique {F : Nat → A α Unit} {s : St α} {r r' : Verif.Arr.Res (St α) Unit} (h1 : Runs F s r) (h2 : Runs F s r') :
    r = r' := by
  obtain ⟨n, h1⟩ := h1
  obtain ⟨k, h2⟩ := h2
  exact (h1 (max n k) (by omega)).symm.trans (h2 (max n k) (by omega))

/-! ### What a client sees -/

/-- The elements `h[0]`, `h[1]`, … as the client reads them. -/
def elems (s : St α) : Option (List α) :=
  match readAll s.d.size 0 s with
  | .ok xs _ => some xs
  | _ => none

/-- An argument of `push`: a value from elsewhere, or element `i` of the heap itself. -/
inductive Arg (α : Type)
  | val (v : α)
  | own (i : Nat)

/-- What the argument refers to. -/
def Arg.src (s : St α) : Arg α → Src α
  | .val v => .val v
  | .own i => .ref s.d.blk i

/-- Its value in a heap with elements `xs`. -/
def Arg.value (xs : List α) : Arg α → Option α
  | .val v => some v
  | .own i => xs[i]?

/-- The capacity after one more element. -/
def after (s : St α) : Nat := if s.d.size = s.d.cap then s.d.size + max s.d.size 1 else s.d.cap

/-- The states of a heap: default construction in any memory or construction from a range, then pushes and pops. A push may
have been left by an exception. Allocations of 2^63 elements or more do not succeed. -/
inductive Reach (cfg : Elem α) (lt : α → α → Bool) : St α → Prop
  | new {m} : WF m → Reach cfg lt ⟨m, .null⟩
  | range {m hint} {vs : List α} {s'} : WF m → 2 * vs.length + 2 < 2 ^ 63 →
      Runs (fun f => fromRange cfg lt f hint (vs.map .val)) ⟨m, .null⟩ (.ok () s') → Reach cfg lt s'
  | push {s s'} {x : Arg α} : Reach cfg lt s → after s < 2 ^ 63 → (∀ i, x = .own i → i < s.d.size) →
      (Runs (fun f => push cfg lt f (x.src s)) s (.ok () s') ∨ Runs (fun f => push cfg lt f (x.src s)) s (.throw s')) →
      Reach cfg lt s'
  | pop {s s'} : Reach cfg lt s → Runs (pop cfg lt) s (.ok () s') → Reach cfg lt s'

theorem elems_of {s : St α} {xs : List α} (h : Holds cfg s.mem s.d xs) : elems s = some xs := by
  have := Verif.Arr.wp_readAll cfg h (E := fun _ => False) s.d.size 0 (by rw [Nat.zero_add]; exact h.size)
  unfold wp at this
  unfold elems
  have hs : (⟨s.mem, s.d⟩ : St α) = s := rfl
  rw [hs] at this
  split at this
  · rename_i e; rw [e]; simp [this.1]
  · exact this.elim
  · exact this.elim

/-- The invariant of the stored heap. -/
structure Good (cfg : Elem α) (lt : α → α → Bool) (s : St α) (st : Heap.St α) : Prop where
  wf : WF s.mem
  holds : Holds cfg s.mem s.d st.arr.toList
  small : s.d.cap < 2 ^ 63
  ordered : Heap.Ordered lt st.arr

theorem holds_push {s s' : St α} {st : Heap.St α} {v : α} {c : Nat} (p : Post cfg s s' (st.arr.toList ++ [v]) c) :
    Holds cfg s'.mem s'.d ({ st with arr := st.arr.push v } : Heap.St α).arr.toList := by
  have := p.holds; simpa using this

theorem push_wp (ht : cfg.triv = true) {s : St α} {st st' : Heap.St α} {v : α} {src : Src α} {fuel : Nat}
    (hw : WF s.mem) (hh : Holds cfg s.mem s.d st.arr.toList) (hc : after s < 2 ^ 63)
    (hsrc : Verif.Arr.SrcOk s.mem src v) (hfor : s.d.size = s.d.cap → Verif.Arr.Foreign s.d.blk src)
    (hf : Heap.push lt fuel v st = .ok () st') :
    wp (push cfg lt fuel src) s (fun _ s' => Post cfg s s' st'.arr.toList (after s))
      (fun s' => s.mem.ticks ≠ none ∧ ∃ c, c ≤ after s ∧ Post cfg s s' st.arr.toList c) := by
  have hsz := hh.size
  have hle := hh.le
  have haft : after s = if st.arr.toList.length = s.d.cap then st.arr.toList.length + max st.arr.toList.length 1 else s.d.cap := by
    unfold after; rw [hsz]
  unfold push
  rw [wp_bind]
  refine Verif.Arr.wp_emplaceBack' cfg hw hh (.inl ht) hsrc (fun h => hfor (by omega)) (fun s1 p1 _ _ => ?_)
    (fun s1 c p1 h1 h2 h3 => ⟨h3, c, by rw [haft]; exact h2, p1⟩)
  rw [← haft] at p1
  -- the abstract push appends, reads the size and moves up
  have hf' : Heap.heapfyUp lt fuel st.arr.size { st with arr := st.arr.push v } = .ok () st' := by
    have : Heap.push lt fuel v st = Heap.heapfyUp lt fuel ((st.arr.push v).size - 1) { st with arr := st.arr.push v } := rfl
    rw [this] at hf
    simpa using hf
  have hh1 := holds_push p1
  have hs1 : s1.d.size = st.arr.size + 1 := by have := hh1.size; simpa using this
  have hcap1 := hh1.le
  rw [p1.cap] at hcap1
  rw [wp_bind]
  unfold size
  rw [wp_bind, wp_getD, wp_pure, hs1, wrap_small (n := st.arr.size + 1) (by omega)]
  have hidx : wrap (st.arr.size + 1 + (2 ^ 64 - 1)) = st.arr.size := by
    unfold wrap
    rw [show st.arr.size + 1 + (2 ^ 64 - 1) = st.arr.size + 2 ^ 64 by omega, Nat.add_mod_right, Nat.mod_eq_of_lt (by omega)]
  rw [hidx]
  refine wp_mono (sim_heapfyUp ht fuel st.arr.size (by omega) _ st' () s1 hf' p1.wf hh1 (by rw [p1.cap]; exact hc)) ?_
    (fun _ h => h.elim)
  rintro _ s2 ⟨-, p2⟩
  have p := p1.trans cfg p2
  rw [p1.cap] at p
  exact p

theorem pop_wp (ht : cfg.triv = true) {s : St α} {st st' : Heap.St α} {fuel : Nat} (hw : WF s.mem)
    (hh : Holds cfg s.mem s.d st.arr.toList) (hc : s.d.cap < 2 ^ 63) (hf : Heap.pop lt fuel st = .ok () st') :
    wp (pop cfg lt fuel) s (fun _ s' => Post cfg s s' st'.arr.toList s.d.cap) (fun _ => False) := by
  have hsz := hh.size
  simp only [Array.length_toList] at hsz
  have hpop : Sim cfg (Heap.popBack : Heap.M α Unit) (popBack cfg) := by
    intro st st' b s hf hw hh _
    unfold Heap.popBack at hf
    split at hf
    · cases hf
    · rename_i hne
      cases hf
      refine Verif.Arr.wp_popBack cfg hw hh (by intro h; apply hne; have := congrArg List.length h; simpa using this)
        fun s' p => ⟨rfl, ?_⟩
      simpa using p
  have key : Sim cfg (do Heap.swapAt 0 ((st.arr.size : Int) - 1); Heap.popBack; Heap.heapfyDown lt fuel 0)
      (do swapAt cfg 0 ((st.arr.size : Int) - 1); popBack cfg; heapfyDown cfg lt fuel 0) :=
    (sim_swapAt ht _ _).bind fun _ => hpop.bind fun _ => sim_heapfyDown ht fuel 0 (by omega)
  unfold pop
  rw [wp_bind, wp_getD, hsz]
  refine wp_mono (key st st' () s hf hw hh hc) ?_ (fun _ h => h)
  rintro _ s' ⟨-, p⟩
  exact p

theorem Good.nil {m : Verif.Arr.Mem α} (h : WF m) : Good cfg lt ⟨m, .null⟩ Heap.empty :=
  ⟨h, by simpa [Heap.empty] using Verif.Arr.holds_null cfg m, by simp [Verif.Arr.Data.null], by
    intro i j hi; simp [Heap.empty] at hi⟩

theorem runs_of_wp {F : Nat → A α Unit} (hm : Mono F) {s : St α} {Q : Unit → St α → Prop} {E : St α → Prop} {f : Nat}
    (h : wp (F f) s Q E) :
    (∃ s', Runs F s (.ok () s') ∧ Q () s') ∨ (∃ s', Runs F s (.throw s') ∧ E s') := by
  unfold wp at h
  rcases hr : F f s with ⟨b, s'⟩ | s' | _
  · rw [hr] at h; exact .inl ⟨s', hm.runs hr (by simp), h⟩
  · rw [hr] at h; exact .inr ⟨s', hm.runs hr (by simp), h⟩
  · rw [hr] at h; exact h.elim

/-- One push. -/
theorem push_runs (ht : cfg.triv = true) (hlt : Heap.StrictWeakOrder lt) {s : St α} {st : Heap.St α} (g : Good cfg lt s st)
    (hc : after s < 2 ^ 63) {x : Arg α} {v : α} (hx : x.value st.arr.toList = some v)
    (hfull : s.d.size = s.d.cap → ∀ i, x ≠ .own i) :
    (∃ s' st', Runs (fun f => push cfg lt f (x.src s)) s (.ok () s') ∧ Good cfg lt s' st' ∧ Heap.Pushed lt st v st' ∧
      Post cfg s s' st'.arr.toList (after s)) ∨
    (∃ s', Runs (fun f => push cfg lt f (x.src s)) s (.throw s') ∧ Good cfg lt s' st ∧ s.mem.ticks ≠ none ∧
      ∃ c, Post cfg s s' st.arr.toList c) := by
  obtain ⟨st', ⟨n, hn⟩, hp⟩ := Heap.push_spec hlt g.ordered v
  have hsrc : Verif.Arr.SrcOk s.mem (x.src s) v := by
    cases x with
    | val u => exact Option.some.inj hx
    | own i =>
      have hsz := g.holds.size
      have hle := g.holds.le
      obtain ⟨hi, hv⟩ := List.getElem?_eq_some_iff.1 hx
      exact ⟨(inBounds_iff (g.holds.alive cfg (by omega))).mpr (by omega), by rw [g.holds.cells i hi, hv]⟩
  have hfor : s.d.size = s.d.cap → Verif.Arr.Foreign s.d.blk (x.src s) := by
    intro h
    cases x with
    | val u => exact trivial
    | own i => exact absurd rfl (hfull h i)
  rcases runs_of_wp (push_mono (x.src s)) (push_wp ht g.wf g.holds hc hsrc hfor (hn n (Nat.le_refl _))) with
    ⟨s', h1, p⟩ | ⟨s', h1, h2, c, h3, p⟩
  · exact .inl ⟨s', st', h1, ⟨p.wf, p.holds, by rw [p.cap]; exact hc, hp.ordered⟩, hp, p⟩
  · exact .inr ⟨s', h1, ⟨p.wf, p.holds, by rw [p.cap]; omega, g.ordered⟩, h2, c, p⟩

/-- One pop. -/
theorem pop_runs (ht : cfg.triv = true) (hlt : Heap.StrictWeakOrder lt) {s : St α} {st : Heap.St α} (g : Good cfg lt s st)
    (hne : 0 < st.arr.size) :
    ∃ s' st', Runs (pop cfg lt) s (.ok () s') ∧ Good cfg lt s' st' ∧ Heap.Popped lt st st' ∧
      Post cfg s s' st'.arr.toList s.d.cap := by
  obtain ⟨st', ⟨n, hn⟩, hp⟩ := Heap.pop_spec hlt g.ordered hne
  rcases runs_of_wp pop_mono (pop_wp ht g.wf g.holds g.small (hn n (Nat.le_refl _))) with ⟨s', h1, p⟩ | ⟨s', h1, h⟩
  · exact ⟨s', st', h1, ⟨p.wf, p.holds, by rw [p.cap]; exact g.small, hp.ordered⟩, hp, p⟩
  · exact h.elim

/-- The loop of the constructors. -/
theorem pushAll_wp (ht : cfg.triv = true) (hlt : Heap.StrictWeakOrder lt) (fuel : Nat) (vs : List α) :
    ∀ {s : St α} {st st' : Heap.St α}, Good cfg lt s st → 2 * (st.arr.size + vs.length) + 2 < 2 ^ 63 →
    Heap.pushAll lt fuel vs st = .ok () st' →
    wp (pushAll cfg lt fuel (vs.map .val)) s (fun _ s' => Good cfg lt s' st' ∧ ∃ c, Post cfg s s' st'.arr.toList c)
      (fun s' => s.mem.ticks ≠ none ∧ ∃ st1, Good cfg lt s' st1 ∧ ∃ c, Post cfg s s' st1.arr.toList c) := by
  induction vs with
  | nil =>
    intro s st st' g _ hf
    cases hf
    show wp (pure ()) _ _ _
    rw [wp_pure]
    exact ⟨g, _, Post.refl cfg g.wf g.holds⟩
  | cons v vs ih =>
    intro s st st' g hlen hf
    simp only [List.length_cons] at hlen
    have hsz := g.holds.size
    simp only [Array.length_toList] at hsz
    have hsm := g.small
    have hc : after s < 2 ^ 63 := by unfold after; split <;> omega
    change Heap.M.bind _ _ st = _ at hf
    unfold Heap.M.bind at hf
    split at hf
    · rename_i b st1 e1
      have hp1 : Heap.Pushed lt st v st1 := by
        obtain ⟨st2, h2, hp⟩ := Heap.push_spec hlt g.ordered v
        have := h2.unique ((Heap.push_mono lt v).runs e1 (by simp))
        cases this; exact hp
      have hsize : st1.arr.size = st.arr.size + 1 := by
        have := hp1.perm.length_eq; simpa using this
      show wp (push cfg lt fuel (.val v) >>= fun _ => pushAll cfg lt fuel (vs.map .val)) _ _ _
      rw [wp_bind]
      refine wp_mono (push_wp ht g.wf g.holds hc (src := .val v) rfl (fun _ => trivial) e1) ?_ ?_
      · rintro _ s1 p1
        have g1 : Good cfg lt s1 st1 := ⟨p1.wf, p1.holds, by rw [p1.cap]; exact hc, hp1.ordered⟩
        refine wp_mono (ih g1 (by omega) hf) ?_ ?_
        · rintro _ s2 ⟨g2, c, p2⟩; exact ⟨g2, c, p1.trans cfg p2⟩
        · rintro s2 ⟨h1, st2, g2, c, p2⟩
          exact ⟨fun h => h1 (p1.ticks h), st2, g2, c, p1.trans cfg p2⟩
      · rintro s1 ⟨h1, c, h2, p1⟩
        exact ⟨h1, st, ⟨p1.wf, p1.holds, by rw [p1.cap]; omega, g.ordered⟩, c, p1⟩
    · cases hf
    · cases hf

/-- The constructors from ranges. -/
theorem fromRange_runs (ht : cfg.triv = true) (hlt : Heap.StrictWeakOrder lt) {m : Verif.Arr.Mem α} (hw : WF m) (hint : Bool)
    (vs : List α) (hlen : 2 * vs.length + 2 < 2 ^ 63) :
    (∃ s' st', Runs (fun f => fromRange cfg lt f hint (vs.map .val)) ⟨m, .null⟩ (.ok () s') ∧ Good cfg lt s' st' ∧
      st'.arr.toList.Perm vs ∧ ∃ c, Post cfg ⟨m, .null⟩ s' st'.arr.toList c) ∨
    (∃ s', Runs (fun f => fromRange cfg lt f hint (vs.map .val)) ⟨m, .null⟩ (.throw s') ∧ m.ticks ≠ none ∧
      ∀ b, s'.mem.size b = m.size b) := by
  obtain ⟨st', ⟨n, hn⟩, ho, hperm⟩ := Heap.pushAll_spec hlt vs (s := Heap.empty) (Heap.ordered_empty lt)
  have g0 : Good cfg lt (⟨m, .null⟩ : St α) Heap.empty := Good.nil hw
  have key : wp (fromRange cfg lt n hint (vs.map .val)) ⟨m, .null⟩
      (fun _ s' => Good cfg lt s' st' ∧ ∃ c, Post cfg ⟨m, .null⟩ s' st'.arr.toList c)
      (fun s' => m.ticks ≠ none ∧ ∀ b, s'.mem.size b = m.size b) := by
    -- what remains after an exception
    have hclean : ∀ (s1 : St α) (xs : List α) (c : Nat), Post cfg ⟨m, .null⟩ s1 xs c → m.ticks ≠ none →
        wp (do let d ← getD; destructor cfg d) s1
          (fun _ s' => m.ticks ≠ none ∧ ∀ b, s'.mem.size b = m.size b)
          (fun s' => m.ticks ≠ none ∧ ∀ b, s'.mem.size b = m.size b) := by
      intro s1 xs c p1 hne
      rw [wp_bind, wp_getD]
      refine Verif.Arr.wp_destructor cfg p1.holds fun s2 h1 _ _ _ _ => ⟨hne, fun b => ?_⟩
      rw [h1]
      have hk := p1.upd.keep b
      have ho := p1.upd.owned b
      by_cases hb : s1.d.blk ≠ 0 ∧ b = s1.d.blk
      · rw [if_pos hb]
        rcases p1.upd.new with h | h
        · exact absurd h hb.1
        · rw [hb.2]; exact h.symm
      · rw [if_neg hb]
        by_cases hm : m.size b = none
        · rw [hm]
          by_contra hcon
          rcases ho hcon with h | h
          · by_cases h0 : s1.d.blk = 0
            · rw [h, h0, p1.wf.null] at hcon; exact hcon rfl
            · exact hb ⟨h0, h⟩
          · exact h.1 hm
        · refine (hk hm ?_).1
          rintro rfl
          exact hm hw.null
    unfold fromRange
    rw [Verif.Arr.wp_tryRethrow, wp_bind, Verif.Arr.wp_onlyIf]
    have hrest : ∀ (s1 : St α), Good cfg lt s1 Heap.empty → (∃ c, Post cfg ⟨m, .null⟩ s1 [] c) →
        wp (pushAll cfg lt n (vs.map .val)) s1
          (fun _ s' => Good cfg lt s' st' ∧ ∃ c, Post cfg ⟨m, .null⟩ s' st'.arr.toList c)
          (fun s' => wp (do let d ← getD; destructor cfg d) s'
            (fun _ s' => m.ticks ≠ none ∧ ∀ b, s'.mem.size b = m.size b)
            (fun s' => m.ticks ≠ none ∧ ∀ b, s'.mem.size b = m.size b)) := by
      rintro s1 g1 ⟨c1, p1⟩
      refine wp_mono (pushAll_wp ht hlt n vs g1 (by simpa [Heap.empty] using hlen) (hn n (Nat.le_refl _))) ?_ ?_
      · rintro _ s2 ⟨g2, c, p2⟩; exact ⟨g2, c, p1.trans cfg p2⟩
      · rintro s2 ⟨h1, st2, -, c, p2⟩
        exact hclean s2 _ c (p1.trans cfg p2) fun h => h1 (p1.ticks h)
    split
    · refine Verif.Arr.wp_reserve cfg hw (xs := []) (Verif.Arr.holds_null cfg m) (.inl ht) (fun s1 p1 => ?_) (fun s1 p1 h => ?_)
      · refine hrest s1 ⟨p1.wf, by simpa [Heap.empty] using p1.holds, ?_, Heap.ordered_empty lt⟩ ⟨_, p1⟩
        rw [p1.cap]; simp [Verif.Arr.Data.null]; omega
      · exact hclean s1 [] _ p1 h
    · exact hrest _ g0 ⟨_, Post.refl cfg hw (Verif.Arr.holds_null cfg m)⟩
  rcases runs_of_wp (fromRange_mono hint _) key with ⟨s', h1, g, c, p⟩ | ⟨s', h1, h2⟩
  · exact .inl ⟨s', st', h1, g, by simpa [Heap.empty] using hperm, c, p⟩
  · exact .inr ⟨s', h1, h2⟩

theorem bind_of_throw {F : A α β} {G : β → A α γ} {s s' : St α} (h : F s = .throw s') : (F >>= G) s = .throw s' := by
  show M.bind F G s = _
  unfold M.bind
  rw [h]

theorem Runs.of_all {F : Nat → A α Unit} {s : St α} {r : Verif.Arr.Res (St α) Unit} (h : ∀ f, F f s = r) : Runs F s r :=
  ⟨0, fun f _ => h f⟩

/-- Pushing an own element of a full heap: undefined, or the allocation fails. -/
theorem push_own (ht : cfg.triv = true) {s : St α} {st : Heap.St α} (g : Good cfg lt s st) (hfull : s.d.size = s.d.cap)
    (hne : 0 < s.d.size) (i : Nat) :
    (∀ f, push cfg lt f (.ref s.d.blk i) s = .ub) ∨
    (s.mem.ticks ≠ none ∧ ∃ s', (∀ f, push cfg lt f (.ref s.d.blk i) s = .throw s') ∧ Good cfg lt s' st ∧
      Post cfg s s' st.arr.toList s.d.cap) := by
  have hsz := g.holds.size
  have hw := g.wf
  have hh := g.holds
  have key := wp_growStorage cfg (n := s.d.size + max s.d.size 1)
      (Q := fun _ s' => Post cfg s s' st.arr.toList (s.d.size + max s.d.size 1) ∧ s'.d.blk = s.mem.next)
      (E := fun s' => Post cfg s s' st.arr.toList s.d.cap ∧ s.mem.ticks ≠ none) hw hh (.inl ht)
      (by omega) (fun s' p _ _ h => ⟨p, h⟩) (fun _ p h => ⟨p, h⟩)
  unfold wp at key
  rcases hr : growStorage cfg (s.d.size + max s.d.size 1) s with ⟨b, s1⟩ | s1 | _
  · rw [hr] at key
    obtain ⟨p, h2⟩ := key
    left
    intro f
    have he : emplaceBack cfg (.ref s.d.blk i) s = .ub := by
      unfold emplaceBack
      rw [bind_of_ok (show getD s = .ok s.d s from rfl)]
      unfold onlyIf
      rw [if_pos hfull, bind_of_ok hr, bind_of_ok (show getD s1 = .ok s1.d s1 from rfl)]
      apply bind_of_ub
      apply Verif.Arr.evalSrc_dead_ub
      by_contra hal
      rcases p.upd.owned s.d.blk hal with h | h
      · have := hh.alive cfg (by omega)
        rw [h, h2, hw.fresh _ (Nat.le_refl _)] at this
        cases this
      · exact h.2 rfl
    unfold push
    exact bind_of_ub he
  · rw [hr] at key
    obtain ⟨p, h2⟩ := key
    right
    refine ⟨h2, s1, fun f => ?_, ⟨p.wf, p.holds, by rw [p.cap]; exact g.small, g.ordered⟩, p⟩
    have he : emplaceBack cfg (.ref s.d.blk i) s = .throw s1 := by
      unfold emplaceBack
      rw [bind_of_ok (show getD s = .ok s.d s from rfl)]
      unfold onlyIf
      rw [if_pos hfull, bind_of_throw hr]
    unfold push
    exact bind_of_throw he
  · rw [hr] at key
    exact key.elim

theorem pop_empty_ub {s : St α} {st : Heap.St α} (g : Good cfg lt s st) (h : st.arr.size = 0) (f : Nat) :
    pop cfg lt f s = .ub := by
  have hsz := g.holds.size
  simp only [Array.length_toList] at hsz
  have hd : s.d.size = 0 := by omega
  have : swapAt cfg 0 ((s.d.size : Int) - 1) s = .ub := by
    unfold swapAt
    rw [hd, if_neg (by omega)]; rfl
  unfold pop
  rw [bind_of_ok (show getD s = .ok s.d s from rfl)]
  exact bind_of_ub this

theorem reach_good (ht : cfg.triv = true) (hlt : Heap.StrictWeakOrder lt) {s : St α} (h : Reach cfg lt s) :
    ∃ st, Good cfg lt s st := by
  induction h with
  | new hw => exact ⟨_, Good.nil hw⟩
  | @range m hint vs s' hw hlen hr =>
    rcases fromRange_runs ht hlt hw hint vs hlen with ⟨s2, st', h1, g, -⟩ | ⟨s2, h1, -⟩
    · have := h1.unique hr; cases this; exact ⟨st', g⟩
    · have := h1.unique hr; cases this
  | @push s s' x _ hc hown hr ih =>
    obtain ⟨st, g⟩ := ih
    have hsz := g.holds.size
    by_cases hf : s.d.size = s.d.cap ∧ ∃ i, x = .own i
    · -- undefined, or the allocation failed
      obtain ⟨hf, i, rfl⟩ := hf
      have hi := hown i rfl
      rcases push_own (lt := lt) ht g hf (by omega) i with e | ⟨-, s2, e, g2, -⟩
      · rcases hr with hr | hr
        · have := (Runs.of_all (F := fun f => push cfg lt f ((Arg.own i : Arg α).src s)) e).unique hr; cases this
        · have := (Runs.of_all (F := fun f => push cfg lt f ((Arg.own i : Arg α).src s)) e).unique hr; cases this
      · rcases hr with hr | hr
        · have := (Runs.of_all (F := fun f => push cfg lt f ((Arg.own i : Arg α).src s)) e).unique hr; cases this
        · have := (Runs.of_all (F := fun f => push cfg lt f ((Arg.own i : Arg α).src s)) e).unique hr; cases this
          exact ⟨st, g2⟩
    · have hv : ∃ v, x.value st.arr.toList = some v := by
        cases x with
        | val v => exact ⟨v, rfl⟩
        | own i => exact ⟨_, List.getElem?_eq_getElem (by have := hown i rfl; omega)⟩
      obtain ⟨v, hv⟩ := hv
      rcases push_runs ht hlt g hc hv (fun h i hi => hf ⟨h, i, hi⟩) with ⟨s2, st', h1, g', -⟩ | ⟨s2, h1, g', -⟩
      · rcases hr with hr | hr
        · have := h1.unique hr; cases this; exact ⟨st', g'⟩
        · have := h1.unique hr; cases this
      · rcases hr with hr | hr
        · have := h1.unique hr; cases this
        · have := h1.unique hr; cases this; exact ⟨st, g'⟩
  | @pop s s' _ hr ih =>
    obtain ⟨st, g⟩ := ih
    by_cases hne : 0 < st.arr.size
    · obtain ⟨s2, st', h1, g', -⟩ := pop_runs ht hlt g hne
      have := h1.unique hr; cases this; exact ⟨st', g'⟩
    · exfalso
      obtain ⟨n, hn⟩ := hr
      have := hn n (Nat.le_refl _)
      rw [pop_empty_ub g (by omega)] at this
      cases this

/-! ### The statements -/

/-- Everything in memory that is not the storage of the heap is as before, and the blocks alive are the same ones, except that
the storage of the heap may have moved. -/
def OthersKept (s s' : St α) : Prop :=
  (∀ b, s.mem.size b ≠ none → b ≠ s.d.blk → s'.mem.size b = s.mem.size b ∧ s'.mem.cell b = s.mem.cell b) ∧
  (∀ b, s'.mem.size b ≠ none → b = s'.d.blk ∨ (s.mem.size b ≠ none ∧ b ≠ s.d.blk))

theorem OthersKept.of_post {s s' : St α} {xs : List α} {c : Nat} (p : Post cfg s s' xs c) : OthersKept s s' :=
  ⟨p.upd.keep, p.upd.owned⟩

/-- C122. The elements of a heap can be read, and none precedes one of its children. -/
theorem heap_stored_invariant_partial (ht : cfg.triv = true) (hlt : Heap.StrictWeakOrder lt) {s : St α} (h : Reach cfg lt s) :
    ∃ xs, elems s = some xs ∧ xs.length = s.d.size ∧
      ∀ i j (hi : i < xs.length) (hj : j < xs.length), (j = 2 * i + 1 ∨ j = 2 * i + 2) → lt xs[i] xs[j] = false := by
  obtain ⟨st, g⟩ := reach_good ht hlt h
  exact ⟨_, elems_of g.holds, g.holds.size.symm, fun i j hi hj hij => g.ordered i j (by simpa using hi) (by simpa using hj) hij⟩

/-- C122. A push of a value, or of an element of the heap while there is room, stops. It adds the element, or an exception
leaves the elements as they were. -/
theorem heap_stored_push_partial (ht : cfg.triv = true) (hlt : Heap.StrictWeakOrder lt) {s : St α} (h : Reach cfg lt s)
    {xs : List α} (hxs : elems s = some xs) (hc : after s < 2 ^ 63) {x : Arg α} {v : α} (hx : x.value xs = some v)
    (hfull : s.d.size = s.d.cap → ∀ i, x ≠ .own i) :
    (∃ s' ys, Runs (fun f => push cfg lt f (x.src s)) s (.ok () s') ∧ Reach cfg lt s' ∧ elems s' = some ys ∧
      ys.Perm (v :: xs) ∧ OthersKept s s') ∨
    (s.mem.ticks ≠ none ∧ ∃ s', Runs (fun f => push cfg lt f (x.src s)) s (.throw s') ∧ Reach cfg lt s' ∧
      elems s' = some xs ∧ OthersKept s s') := by
  obtain ⟨st, g⟩ := reach_good ht hlt h
  have e := elems_of g.holds
  rw [hxs] at e
  cases e
  have hown : ∀ i, x = .own i → i < s.d.size := by
    rintro i rfl
    have := (List.getElem?_eq_some_iff.1 hx).1
    rw [g.holds.size]; exact this
  rcases push_runs ht hlt g hc hx hfull with ⟨s', st', h1, g', hp, p⟩ | ⟨s', h1, g', h2, c, p⟩
  · exact .inl ⟨s', _, h1, h.push hc hown (.inl h1), elems_of g'.holds, hp.perm, .of_post p⟩
  · exact .inr ⟨h2, s', h1, h.push hc hown (.inr h1), elems_of g'.holds, .of_post p⟩

/-- C122. A pop of a heap with elements stops, throws nothing, allocates nothing and removes the front, which no other element
follows. -/
theorem heap_stored_pop_partial (ht : cfg.triv = true) (hlt : Heap.StrictWeakOrder lt) {s : St α} (h : Reach cfg lt s) {x : α}
    {xs : List α} (hxs : elems s = some (x :: xs)) :
    (∃ s' ys, Runs (pop cfg lt) s (.ok () s') ∧ Reach cfg lt s' ∧ elems s' = some ys ∧ ys.Perm xs ∧ OthersKept s s' ∧
      s'.d.cap = s.d.cap) ∧
    ∀ y ∈ xs, lt x y = false := by
  obtain ⟨st, g⟩ := reach_good ht hlt h
  have e := elems_of g.holds
  rw [hxs] at e
  have hl : st.arr.toList = x :: xs := (Option.some.inj e).symm
  have hn : 0 < st.arr.size := by rw [← Array.length_toList, hl]; simp
  have h0 : st.arr[0] = x := by
    have : st.arr.toList[0]? = some x := by rw [hl]; rfl
    simpa [hn] using this
  refine ⟨?_, fun y hy => ?_⟩
  · obtain ⟨s', st', h1, g', hp, p⟩ := pop_runs ht hlt g hn
    refine ⟨s', _, h1, h.pop h1, elems_of g'.holds, ?_, .of_post p, p.cap⟩
    obtain ⟨z, hz, hperm⟩ := hp.perm
    have := (Heap.get_ok (s := st) hn).symm.trans hz
    cases this
    have h0' : st.arr[0] = x := h0
    rw [hl, h0'] at hperm
    exact (List.perm_cons x).1 hperm.symm
  · have : y ∈ st.arr := by rw [← Array.mem_toList_iff, hl]; exact List.mem_cons_of_mem _ hy
    obtain ⟨k, hk, rfl⟩ := Array.mem_iff_getElem.1 this
    rw [← h0]
    exact Heap.root_max hlt g.ordered k hk

/-- C122. Construction from a range stops with a heap of its elements, or an exception leaves and no block of memory stays
behind. -/
theorem heap_stored_range_partial (ht : cfg.triv = true) (hlt : Heap.StrictWeakOrder lt) {m : Verif.Arr.Mem α} (hw : WF m)
    (hint : Bool) (vs : List α) (hlen : 2 * vs.length + 2 < 2 ^ 63) :
    (∃ s' ys, Runs (fun f => fromRange cfg lt f hint (vs.map .val)) ⟨m, .null⟩ (.ok () s') ∧ Reach cfg lt s' ∧
      elems s' = some ys ∧ ys.Perm vs ∧ OthersKept ⟨m, .null⟩ s') ∨
    (m.ticks ≠ none ∧ ∃ s', Runs (fun f => fromRange cfg lt f hint (vs.map .val)) ⟨m, .null⟩ (.throw s') ∧
      ∀ b, s'.mem.size b = m.size b) := by
  rcases fromRange_runs ht hlt hw hint vs hlen with ⟨s', st', h1, g, h2, c, p⟩ | ⟨s', h1, h2, h3⟩
  · exact .inl ⟨s', _, h1, .range hw hlen h1, elems_of g.holds, h2, .of_post p⟩
  · exact .inr ⟨h2, s', h1, h3⟩

/-- C122. The destructor releases the storage of the heap and nothing else. -/
theorem heap_stored_destroy_partial (ht : cfg.triv = true) (hlt : Heap.StrictWeakOrder lt) {s : St α} (h : Reach cfg lt s) :
    ∃ s', destructor cfg s.d s = .ok () s' ∧
      (∀ b, s'.mem.size b = if s.d.blk ≠ 0 ∧ b = s.d.blk then none else s.mem.size b) ∧
      ∀ b, b ≠ s.d.blk → s'.mem.cell b = s.mem.cell b := by
  obtain ⟨st, g⟩ := reach_good ht hlt h
  obtain ⟨_, s', h1, h2⟩ := wp_ok (Verif.Arr.wp_destructor cfg g.holds
    (Q := fun _ s' => (∀ b, s'.mem.size b = if s.d.blk ≠ 0 ∧ b = s.d.blk then none else s.mem.size b) ∧
      ∀ b, b ≠ s.d.blk → s'.mem.cell b = s.mem.cell b) (E := fun _ => False) fun s' h1 h2 _ _ _ => ⟨h1, h2⟩)
  exact ⟨s', h1, h2⟩

/-- C122. Disagreement: pushing an element of a heap whose storage is full reads storage already released, unless the
allocation fails. -/
theorem heap_stored_push_own_wrong (ht : cfg.triv = true) (hlt : Heap.StrictWeakOrder lt) {s : St α} (h : Reach cfg lt s)
    (hfull : s.d.size = s.d.cap) {i : Nat} (hi : i < s.d.size) (hn : s.mem.ticks = none) :
    Runs (fun f => push cfg lt f ((Arg.own i : Arg α).src s)) s .ub := by
  obtain ⟨st, g⟩ := reach_good ht hlt h
  rcases push_own (lt := lt) ht g hfull (by omega) i with e | ⟨h', -⟩
  · exact .of_all e
  · exact absurd hn h'

theorem heapfyUp_zero (f : Nat) (s : St α) : heapfyUp cfg lt (f + 1) 0 s = .ok () s := by
  unfold heapfyUp
  rw [bind_of_ok (show parent (α := α) (toDiff 0) s = .ok 0 s from rfl)]
  rfl

/-- C122. Disagreement: with elements of class type the second push assigns to raw storage. -/
theorem heap_stored_class_wrong (ht : cfg.triv = false) {m : Verif.Arr.Mem α} (hw : WF m) (hn : m.ticks = none) (v w : α) :
    ∃ s', Runs (fun f => push cfg lt f (.val v)) ⟨m, .null⟩ (.ok () s') ∧ elems s' = some [v] ∧
      Runs (fun f => push cfg lt f (.val w)) s' .ub := by
  obtain ⟨_, s1, h1, p⟩ := wp_ok (Verif.Arr.wp_emplaceBack cfg (s := ⟨m, .null⟩) (xs := []) (src := .val v) (v := v)
    (Q := fun _ s' => Post cfg ⟨m, .null⟩ s' [v] 1) (E := fun _ => False) hw (Verif.Arr.holds_null cfg m) (.inr (.inl rfl)) rfl
    (fun _ => trivial) (fun s' p _ _ => p) (fun _ _ _ _ h => h hn))
  have hs1 : s1.d.size = 1 := p.holds.size
  refine ⟨s1, ?_, elems_of p.holds, .of_all fun f => ?_⟩
  · refine (push_mono (Src.val v)).runs (f := 1) ?_ (by simp)
    unfold push
    rw [bind_of_ok h1, bind_of_ok (show size s1 = .ok 1 s1 by unfold size; rw [bind_of_ok (show getD s1 = .ok s1.d s1 from rfl), hs1]; rfl)]
    exact heapfyUp_zero 0 s1
  · unfold push
    apply bind_of_ub
    unfold emplaceBack
    rw [bind_of_ok (show getD s1 = .ok s1.d s1 from rfl)]
    unfold onlyIf
    rw [if_pos (by rw [hs1, p.cap])]
    exact bind_of_ub (Verif.Arr.growStorage_class_ub cfg ht p.wf p.holds (by simp) (p.ticks hn))

/-! ### The hypotheses can be met -/

section Examples

/-- `int`. -/
def intElem : Elem Nat := ⟨true, id⟩

/-- A memory with a block of somebody else. -/
def someMem (ticks : Option Nat) : Verif.Arr.Mem Nat :=
  ⟨fun b => if b = 1 then some 2 else none, fun _ _ => .live 7, 2, ticks, 0, 0, 0⟩

theorem someMem_wf (t : Option Nat) : WF (someMem t) := by
  refine ⟨fun b hb => ?_, rfl, Nat.zero_lt_two⟩
  have hb : 2 ≤ b := hb
  show (if b = 1 then some 2 else none) = none
  rw [if_neg (by omega)]

def less (a b : Nat) : Bool := decide (a < b)

theorem less_swo : Heap.StrictWeakOrder less := by
  constructor <;> simp [less] <;> omega

/-- The elements after a program, and whether it was left by an exception. -/
def outcome (r : Verif.Arr.Res (St Nat) Unit) : Option (Bool × Option (List Nat)) :=
  match r with
  | .ok _ s => some (true, elems s)
  | .throw s => some (false, elems s)
  | .ub => none

def three : A Nat Unit := pushAll intElem less 9 [.val 3, .val 1, .val 4]

example : outcome (three ⟨someMem none, .null⟩) = some (true, some [4, 1, 3]) := by decide +kernel
-- the storage has room for a fourth: an own element may be pushed; the fifth may not be one
example : outcome ((do three; let d ← getD; push intElem less 9 (.ref d.blk 2)) ⟨someMem none, .null⟩) =
    some (true, some [4, 3, 3, 1]) := by decide +kernel
example : outcome ((do
    three; push intElem less 9 (.val 9); let d ← getD; push intElem less 9 (.ref d.blk 2)) ⟨someMem none, .null⟩) = none := by
  decide +kernel
-- an allocation that fails
example : outcome ((do three; push intElem less 9 (.val 9); push intElem less 9 (.val 8)) ⟨someMem (some 7), .null⟩) =
    some (false, some [9, 4, 3, 1]) := by decide +kernel
example : outcome ((do three; pop intElem less 9) ⟨someMem none, .null⟩) = some (true, some [3, 1]) := by decide +kernel

/-- A reachable heap of three elements in such a memory, with room for one more. -/
example : ∃ s, Reach intElem less s ∧ elems s = some [4, 1, 3] ∧ after s < 2 ^ 63 ∧ s.d.size < s.d.cap ∧
    s.mem.size 1 = some 2 ∧ s.mem.ticks = none := by
  have h0 : Runs (fun f => fromRange intElem less f false ([3, 1, 4].map .val)) ⟨someMem none, .null⟩
      (fromRange intElem less 9 false ([3, 1, 4].map .val) ⟨someMem none, .null⟩) := by
    refine (fromRange_mono false _).runs (f := 9) rfl ?_
    intro h
    have : outcome (fromRange intElem less 9 false ([3, 1, 4].map .val) ⟨someMem none, .null⟩) = none := by rw [h]; rfl
    revert this; decide +kernel
  have key : (match fromRange intElem less 9 false ([3, 1, 4].map .val) ⟨someMem none, .null⟩ with
    | .ok _ s => decide (elems s = some [4, 1, 3] ∧ after s < 2 ^ 63 ∧ s.d.size < s.d.cap ∧
        s.mem.size 1 = some 2 ∧ s.mem.ticks = none)
    | _ => false) = true := by decide +kernel
  rcases hr : fromRange intElem less 9 false ([3, 1, 4].map .val) ⟨someMem none, .null⟩ with ⟨b, s⟩ | s | _
  · rw [hr] at h0 key
    exact ⟨s, .range (someMem_wf none) (by decide) h0, by simpa using key⟩
  · rw [hr] at key; cases key
  · rw [hr] at key; cases key

end Examples

end Verif.HeapS
