import Verif.Proofs.AStar
import Verif.Props.ShortestPath
import Mathlib.Algebra.Order.Group.Nat
import Mathlib.Tactic.FinCases

/-! # Property theorems C04 (A* search)

Exact arithmetic: distances and weights in a linearly ordered cancellative commutative monoid, weights non-negative. -/

set_option autoImplicit false
set_option linter.unusedSectionVars false

namespace MM.SP.AStar

variable {V D : Type} [DecidableEq V] [LinearOrder D] [AddCommMonoid D] [IsOrderedCancelAddMonoid D]

/-- The heuristic is consistent: along an edge it drops by at most the weight. -/
def Consistent (g : Graph V {w : D // 0 ≤ w}) (h : V → D) : Prop :=
  ∀ v t w, (t, w) ∈ g v → h v ≤ w.1 + h t

private theorem cons_of {g : Graph V {w : D // 0 ≤ w}} {h : V → D} (hc : Consistent g h) : Cons g h where
  mono := fun a b v hab => add_le_add_left hab (h v)
  cancel := fun a b v hab => le_of_add_le_add_right hab
  edge := fun d v t w he => by
    have := hc v t w he
    change d + h v ≤ d + w.1 + h t
    rw [add_assoc]
    exact add_le_add_right this d
  zero := fun v => zero_add (h v)

variable {g : Graph V {w : D // 0 ≤ w}} {h : V → D} {exceeds : D → Bool} {stop : List V → Bool} {start goal : V}

/-- **C04 (termination).** With a consistent heuristic no execution runs forever. -/
theorem astar_terminates [Fintype V] (hc : Consistent g h) :
    ¬ ∃ f : Nat → State V D, f 0 = init {w : D // 0 ≤ w} h start ∧
      ∀ n, Step g h exceeds stop (f n) (f (n + 1)) := by
  rintro ⟨f, h0, hf⟩
  have hη := cons_of hc
  have hreach : ∀ n, Reach g h exceeds stop start (f n) := by
    intro n
    induction n with
    | zero => rw [h0]; exact .init
    | succ n ih => exact .step ih (hf n)
  have hstep : ∀ n, (Fintype.card V - (f (n + 1)).finished.toFinset.card <
        Fintype.card V - (f n).finished.toFinset.card) ∨
      (Fintype.card V - (f (n + 1)).finished.toFinset.card = Fintype.card V - (f n).finished.toFinset.card ∧
        (f (n + 1)).queue.length < (f n).queue.length) := by
    intro n
    have hi := inv_reach hη (hreach n)
    have hs := hf n
    generalize f (n + 1) = t at hs ⊢
    generalize f n = s at hs hi ⊢
    cases hs with
    | pop k v hmem hmin hgo =>
      rw [expand_finished, List.toFinset_cons]
      by_cases hv : v ∈ s.finished
      · right
        rw [expand_stale_queue hη hi hmem hmin hv, Finset.insert_eq_of_mem (by simpa using hv)]
        exact ⟨rfl, by rw [List.length_erase_of_mem hmem]; have := List.length_pos_of_mem hmem; omega⟩
      · left
        have hn : v ∉ s.finished.toFinset := by simpa using hv
        rw [Finset.card_insert_of_notMem hn]
        have : s.finished.toFinset.card < Fintype.card V := Finset.card_lt_univ_of_notMem hn
        omega
  have key : ∀ a b n, Fintype.card V - (f n).finished.toFinset.card = a → (f n).queue.length = b → False := by
    intro a
    induction a using Nat.strong_induction_on with
    | _ a iha =>
      intro b
      induction b using Nat.strong_induction_on with
      | _ b ihb =>
        intro n ha hb
        rcases hstep n with h | ⟨h1, h2⟩
        · exact iha _ (ha ▸ h) _ (n + 1) rfl rfl
        · exact ihb _ (hb ▸ h2) (n + 1) (h1.trans ha) rfl
  exact key _ _ 0 rfl rfl

/-- **C04 (reachable goal).** When the search has ended and the goal is reachable, the path read off the predecessors
is a path of the graph from start to goal whose length is minimal over all walks.
Missing for the full claim: unreachable goals are not reported, see `astar_unreachable_fails`. -/
theorem astar_shortest_partial (dflt : V) (hc : Consistent g h) {s : State V D}
    (hr : Reach g h noBound (goalStop goal) start s) (hdone : Done (goalStop goal) s)
    (hreach : Reachable g start goal) :
    ∃ n p ws, pathBack dflt n s.pred goal [] = some p ∧ p.head? = some start ∧ p.getLast? = some goal ∧
      VPath g p ws ∧ MinCost g start goal (cost D ws) := by
  have hη := cons_of hc
  have hi := inv_reach hη hr
  obtain ⟨ws0, hw0⟩ := hreach
  have hfin : goal ∈ s.finished := by
    rcases hdone with hq | hs
    · rcases walkIn_bound hη hi (walkIn_of_walk (ok := (· ∉ s.disabled)) (disabled_false hi) hw0) with
        ⟨d, hd, _⟩ | ⟨e, he, _⟩
      · rcases hi.opn goal d hd with r | r
        · exact r
        · rw [hq] at r; cases r
      · rw [hq] at he; cases he
    · simpa [goalStop] using hs
  obtain ⟨_, d, hd, _⟩ := hi.fin goal hfin
  obtain ⟨n, p, ws, hp, hh, hv, hcost⟩ := pathBack_chain dflt (hi.chain goal d hd)
  refine ⟨n, p ++ [goal], ws, hp [], hh, by simp, hv, ?_⟩
  obtain rfl : d = cost D ws := by rw [hd] at hcost; simpa using hcost
  refine ⟨hi.walk goal _ hd, fun ws' hw' => ?_⟩
  obtain ⟨d', hd', hl⟩ := finished_le hη hi hfin (walkIn_of_walk (ok := (· ∉ s.disabled)) (disabled_false hi) hw')
  rw [hd] at hd'; cases hd'; exact hl

/-- **C04 (bounded soundness).** Also with a distance bound, every stored distance is the cost of a real path, which the
predecessors describe. -/
theorem astar_sound_partial (dflt : V) (hc : Consistent g h) {s : State V D}
    (hr : Reach g h exceeds stop start s) (x : V) (d : D) (hd : s.dist x = some d) :
    (∃ n p ws, pathBack dflt n s.pred x [] = some p ∧ p.head? = some start ∧ p.getLast? = some x ∧
      VPath g p ws ∧ cost D ws = d) ∧ (x ≠ start → exceeds d = false) := by
  have hi := inv_reach (cons_of hc) hr
  obtain ⟨n, p, ws, hp, hh, hv, hcost⟩ := pathBack_chain dflt (hi.chain x d hd)
  refine ⟨⟨n, p ++ [x], ws, hp [], hh, by simp, hv, ?_⟩, fun hx => (hi.bound x d hd).resolve_left hx⟩
  rw [hd] at hcost; simpa using hcost.symm

/-! ### Concrete cases -/

private theorem Reach.next {s : State V D} (hr : Reach g h exceeds stop start s) (k : D) (v : V)
    (hm : (k, v) ∈ s.queue) (hmin : ∀ e ∈ s.queue, k ≤ e.1) (hs : stop s.finished = false) :
    Reach g h exceeds stop start (expand g h exceeds s k v) := .step hr (.pop s k v hm hmin hs)

abbrev NW := {w : Nat // 0 ≤ w}

/-- 0 → 1 (2), 1 → 3 (2), 0 → 2 (1), 2 → 3 (5); vertex 4 is isolated. -/
def gA : Graph (Fin 5) NW
  | 0 => [(1, ⟨2, by decide⟩), (2, ⟨1, by decide⟩)]
  | 1 => [(3, ⟨2, by decide⟩)]
  | 2 => [(3, ⟨5, by decide⟩)]
  | _ => []

/-- A consistent, non-trivial heuristic for goal 3. -/
def hA : Fin 5 → Nat
  | 0 => 4 | 1 => 2 | 2 => 4 | 3 => 0 | 4 => 0

theorem hA_consistent : Consistent gA hA := by
  intro v t w hw
  fin_cases v <;> simp [gA] at hw
  · rcases hw with ⟨rfl, rfl⟩ | ⟨rfl, rfl⟩ <;> decide
  · obtain ⟨rfl, rfl⟩ := hw; decide
  · obtain ⟨rfl, rfl⟩ := hw; decide

example : ∃ s : State (Fin 5) Nat, Reach gA hA noBound (goalStop 3) 0 s ∧ Done (goalStop 3) s ∧
    Reachable gA 0 3 ∧ 2 ∉ s.finished := by
  refine ⟨expand gA hA noBound (expand gA hA noBound (expand gA hA noBound
    (init NW hA 0) 4 0) 4 1) 4 3, ?_, .inr (by decide), ⟨[⟨2, by decide⟩, ⟨2, by decide⟩], ?_⟩, by decide⟩
  · exact Reach.next (Reach.next (Reach.next (Reach.init) _ _ (by decide) (by decide) rfl) _ _
      (by decide) (by decide) rfl) _ _ (by decide) (by decide) rfl
  · exact Walk.snoc (g := gA) (a := 0) (b := 1) (c := 3) (ws := [⟨2, by decide⟩]) (w := ⟨2, by decide⟩)
      (Walk.snoc (ws := []) .nil (b := 0) (c := 1) (by decide)) (by decide)

/-- **C04 fails (unreachable goal).** Searching the isolated vertex 4 from vertex 1, the default-inserting lookup makes
the reconstruction return the path `0, 4`: it does not begin at the start, uses no edge, and is not empty. -/
theorem astar_unreachable_fails :
    ∃ (g : Graph (Fin 5) NW) (s : State (Fin 5) Nat), Reach g (fun _ => 0) noBound (goalStop 4) 1 s ∧
      Done (goalStop 4) s ∧ ¬ Reachable g 1 4 ∧ pathBack 0 9 s.pred 4 [] = some [0, 4] := by
  refine ⟨gA, expand gA (fun _ => 0) noBound (expand gA (fun _ => 0) noBound
    (init NW (fun _ => 0) 1) 0 1) 2 3, ?_, .inl (by decide), ?_, by decide⟩
  · exact Reach.next (Reach.next (Reach.init) _ _ (by decide) (by decide) rfl) _ _
      (by decide) (by decide) rfl
  · rintro ⟨ws, hw⟩
    generalize hx : (4 : Fin 5) = x at hw
    cases hw with
    | nil => revert hx; decide
    | @snoc b c ws w _ he =>
      subst hx
      fin_cases b <;> simp [gA] at he

/-- The reconstruction never returns an empty path, so unreachability can never be reported. -/
theorem astar_path_never_empty_fails (dflt : V) (n : Nat) (pred : V → Option V) (p : List V)
    (hp : pathBack dflt n pred goal [] = some p) : p ≠ [] := by
  have key : ∀ (n : Nat) (pred : V → Option V) (v : V) (acc p : List V),
      pathBack dflt n pred v acc = some p → p ≠ [] := by
    intro n
    induction n with
    | zero => intro pred v acc p h; simp [pathBack] at h
    | succ n ih =>
      intro pred v acc p h
      simp only [pathBack] at h
      split at h
      · cases h; simp
      · exact ih _ _ _ _ h
  exact key n pred goal [] p hp

end MM.SP.AStar
