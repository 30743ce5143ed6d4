import Verif.Proofs.Traversal
import Mathlib.Tactic.FinCases

/-! # Property theorems C05 (graph traversal) -/

set_option autoImplicit false
set_option linter.unusedSectionVars false

namespace MM.Traversal

open Relation

variable {V : Type} [DecidableEq V] [Fintype V]

/-- **C05 (BFS).** Breadth-first search ends after at most `|V|` iterations; every vertex reachable from the start
(through vertices not already visited on entry) is discovered exactly once and finished exactly once, and no other
vertex is. -/
theorem bfs_visits_exactly_reachable (adj : V → List V) (visited : List V) (start : V) (hs : start ∉ visited) :
    ∃ s, bfs adj visited start (Fintype.card V) = some s ∧
      s.discovered.Nodup ∧ s.finished.Perm s.discovered ∧
      (∀ x, x ∈ s.discovered ↔ ReflTransGen (fun a b => b ∈ adj a ∧ b ∉ visited) start x) ∧
      (∀ x, x ∈ s.visited ↔ x ∈ s.discovered ∨ x ∈ visited) := by
  obtain ⟨s, hr, hi, hf⟩ := run_spec (push := fun t q => q ++ [t]) (edges := adj) (v0 := visited) (start := start)
    (fun t q => List.perm_append_comm (l₁ := q) (l₂ := [t])) (Fintype.card V) _ (inv_init hs) (Nat.le_add_right _ _)
  refine ⟨s, hr, hi.nodup, by simpa [hf] using hi.perm, fun x => ⟨hi.sound x, complete hi hf x⟩, hi.vis⟩

/-- **C05 (DFS).** The same for depth-first search. -/
theorem dfs_visits_exactly_reachable (adj : V → List V) (visited : List V) (start : V) (hs : start ∉ visited) :
    ∃ s, dfs adj visited start (Fintype.card V) = some s ∧
      s.discovered.Nodup ∧ s.finished.Perm s.discovered ∧
      (∀ x, x ∈ s.discovered ↔ ReflTransGen (fun a b => b ∈ adj a ∧ b ∉ visited) start x) ∧
      (∀ x, x ∈ s.visited ↔ x ∈ s.discovered ∨ x ∈ visited) := by
  obtain ⟨s, hr, hi, hf⟩ := run_spec (push := fun t q => t :: q) (edges := fun v => (adj v).reverse) (v0 := visited)
    (start := start) (fun t q => List.Perm.refl _) (Fintype.card V) _ (inv_init hs) (Nat.le_add_right _ _)
  have hadj : Adj (fun v => (adj v).reverse) visited = (fun a b => b ∈ adj a ∧ b ∉ visited) := by
    funext a b; simp [Adj]
  refine ⟨s, hr, hi.nodup, by simpa [hf] using hi.perm, fun x => ⟨?_, ?_⟩, hi.vis⟩
  · rw [← hadj]; exact hi.sound x
  · rw [← hadj]; exact complete hi hf x

/-- A graph with a cycle and an unreachable vertex: the hypotheses are met and the two orders differ. -/
example : (bfs (V := Fin 5) (fun | 0 => [1, 2] | 1 => [3] | 2 => [0] | 3 => [2] | _ => [0]) [] 0 5).map
      (fun s => (s.discovered, s.finished)) = some ([0, 1, 2, 3], [0, 1, 2, 3]) ∧
    (dfs (V := Fin 5) (fun | 0 => [1, 2] | 1 => [3] | 2 => [0] | 3 => [2] | _ => [0]) [] 0 5).map
      (fun s => (s.discovered, s.finished)) = some ([0, 2, 1, 3], [0, 1, 3, 2]) := by
  decide

end MM.Traversal
