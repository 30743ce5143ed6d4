import Mathlib.Order.Defs.LinearOrder

/-!
# Candidate sets of a point

Model of `src/library/include/matching/algorithm/candidate_search.hpp`: edges added in mode NEXT (155-202), one candidate per edge
(204-366), nodes of the candidates (519-578).  Geometry is a parameter: `dist` gives distances of the track point.
-/

set_option autoImplicit false

namespace MM.NextSearch

/-- The graph: edge descriptors are positions in the list, with source and target (graph/graph_view.hpp `source`, `target`). -/
abbrev Net := List (Nat × Nat)

/-- `source(edge)` as used in candidate_search.hpp 164. -/
def src (n : Net) (e : Nat) : Nat := (n[e]?.getD (0, 0)).1

/-- `target(edge)` as used in candidate_search.hpp 165. -/
def tgt (n : Net) (e : Nat) : Nat := (n[e]?.getD (0, 0)).2

/-- `out_edges_view(vertex)` as used in candidate_search.hpp 168-169. -/
def out (n : Net) (v : Nat) : List Nat := (List.range n.length).filter (fun e => decide (src n e = v))

/-- boost `set::emplace` (candidate_search.hpp 181, 199): ordered, each element once. -/
def put (x : Nat) : List Nat → List Nat
  | [] => [x]
  | y :: ys => if x < y then x :: y :: ys else if x = y then y :: ys else y :: put x ys

/-- candidate_search.hpp 180-183 and 198-201. -/
def putAll (xs : List Nat) (s : List Nat) : List Nat := xs.foldl (fun s x => put x s) s

variable {R : Type} [LinearOrder R]

/-- candidate_search.hpp 170-175: is the adjacent edge `a` of `e` added?  Line 171 takes the line of `e`, not of `a`. -/
def adjacentAdded (dist : Nat → R) (e _a : Nat) : Bool := decide (dist e ≤ dist e)

/-- candidate_search.hpp 159-178. -/
def adjacent (n : Net) (dist : Nat → R) (es : List Nat) : List Nat :=
  es.flatMap fun e => [src n e, tgt n e].flatMap fun v => (out n v).filter (adjacentAdded dist e)

/-- candidate_search.hpp 185-196. -/
def reverses (n : Net) (es : List Nat) : List Nat :=
  es.flatMap fun e => (out n (tgt n e)).filter (fun a => decide (tgt n a = src n e))

/-- candidate_search.hpp 155-202 `_additions_next`. -/
def additionsNext (n : Net) (dist : Nat → R) (es : List Nat) : List Nat :=
  putAll (reverses n (putAll (adjacent n dist es) es)) (putAll (adjacent n dist es) es)

/-- boost `multiset::emplace` (candidate_search.hpp 358, 539, 546): ordered by distance, after equal ones (candidate_edge.hpp
99-101, candidate_node.hpp 53-55). -/
def insertBy {α : Type} (d : α → R) (x : α) : List α → List α
  | [] => [x]
  | y :: ys => if d x < d y then x :: y :: ys else y :: insertBy d x ys

/-- candidate_search.hpp 217-366: a candidate for each edge found, if it has a length; `make` is `CandEdge.candidate`. -/
def process {C : Type} (make : Nat → Option C) (d : C → R) (es : List Nat) (set : List C) : List C :=
  (es.filterMap make).foldl (fun s c => insertBy d c s) set

/-- candidate_search.hpp 528-529: state of the loop, `node_set` and `node_check`. -/
structure Nodes where
  nodes : List Nat
  check : List Nat

/-- candidate_search.hpp 536-541 and 543-548. -/
def addNode (d : Nat → R) (s : Nodes) (v : Nat) : Nodes :=
  if v ∈ s.check then s else ⟨insertBy d v s.nodes, put v s.check⟩

/-- candidate_search.hpp 527-549: the nodes of the candidates. -/
def nodesOf (n : Net) (d : Nat → R) (es : List Nat) : List Nat :=
  (es.foldl (fun s e => addNode d (addNode d s (src n e)) (tgt n e)) ⟨[], []⟩).nodes

/-- candidate_search.hpp 560-564: is the next point equal? -/
def nextEqual {P : Type} [DecidableEq P] (track : List P) (i : Nat) : Bool :=
  decide (i + 1 < track.length) && decide (track[i]? = track[i + 1]?)

end MM.NextSearch
