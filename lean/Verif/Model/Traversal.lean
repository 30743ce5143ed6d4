import Verif.Model.Outcome

/-!
# Breadth-first and depth-first search

Model of `src/library/include/graph/algorithm/breadth_first_search.hpp` 30-67 and `depth_first_search.hpp` 30-72 with a
visitor that never stops (`visitor.hpp` 21-47), recording its callbacks.
-/

set_option autoImplicit false

namespace MM.Traversal

variable {V : Type} [DecidableEq V]

/-- breadth_first_search.hpp 30-33, depth_first_search.hpp 30-33: `visited` and queue/stack are passed by reference; `discovered` and `finished` log the callbacks
`discover_vertex` and `finish_vertex` in order (latest last). -/
structure State (V : Type) where
  visited : List V
  frontier : List V
  discovered : List V
  finished : List V

/-- breadth_first_search.hpp 34-37 and depth_first_search.hpp 34-37; `visited` may be non-empty on entry. -/
def init (visited : List V) (start : V) : State V where
  visited := start :: visited
  frontier := [start]
  discovered := [start]
  finished := []

/-- breadth_first_search.hpp 55-62 and depth_first_search.hpp 58-65: one out edge with target `t`; `push` is
`queue.push` or `stack.push`. -/
def doEdge (push : V → List V → List V) (s : State V) (t : V) : State V :=
  if t ∈ s.visited then s
  else { s with visited := t :: s.visited, discovered := s.discovered ++ [t], frontier := push t s.frontier }

/-- breadth_first_search.hpp 40-65, depth_first_search.hpp 40-70: one iteration; `none` when the frontier is empty.
`edges v` are the targets in the order in which the loop meets them. -/
def step (push : V → List V → List V) (edges : V → List V) (s : State V) : Option (State V) :=
  match s.frontier with
  | [] => none
  | v :: rest =>
    some { (edges v).foldl (doEdge push) { s with frontier := rest } with
           finished := ((edges v).foldl (doEdge push) { s with frontier := rest }).finished ++ [v] }

/-- breadth_first_search.hpp 39: `n` iterations of the loop, `none` when it has not ended by then. -/
def run (push : V → List V → List V) (edges : V → List V) : Nat → State V → Option (State V)
  | 0, s => if s.frontier.isEmpty then some s else none
  | n + 1, s =>
    match step push edges s with
    | none => some s
    | some t => run push edges n t

/-- breadth_first_search.hpp 30-67: FIFO queue, edges in order. -/
def bfs (adj : V → List V) (visited : List V) (start : V) (n : Nat) : Option (State V) :=
  run (fun t q => q ++ [t]) adj n (init visited start)

/-- depth_first_search.hpp: LIFO stack, edges from last to first (lines 45-66). -/
def dfs (adj : V → List V) (visited : List V) (start : V) (n : Nat) : Option (State V) :=
  run (fun t q => t :: q) (fun v => (adj v).reverse) n (init visited start)

end MM.Traversal
