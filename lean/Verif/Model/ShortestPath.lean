import Verif.Model.Outcome
import Mathlib.Order.Defs.LinearOrder
import Mathlib.Order.Nat
import Mathlib.Logic.Function.Basic

/-!
# Dijkstra search with the visitors of `network`

Model of `src/library/include/graph/algorithm/dijkstra_shortest_path.hpp` together with the visitors of
`src/library/include/geometry/network/network.hpp`.

Vertices are identified by their index, as the code does through `graph.vertex_index` (unique indices are a
precondition, see C09).  The d-ary heap is a bag; a step may pop *any* entry with minimal priority.
-/

set_option autoImplicit false

namespace MM.SP

/-- graph/common.hpp 27-29.  `WHITE` also stands for "no entry in the colour map". -/
inductive Color where
  | white | gray | black
  deriving DecidableEq, Repr

/-- Accumulation of edge weights `distance + weight` (dijkstra_shortest_path.hpp 89).  Only what the proofs use is
required of it: adding the same weight is monotone and weights never decrease a distance.  Rounding to nearest of
IEEE additions with non-negative weights satisfies both. -/
class Cost (D : Type) (W : Type) [LinearOrder D] where
  zero : D
  add : D → W → D
  mono : ∀ {a b : D} (w : W), a ≤ b → add a w ≤ add b w
  infl : ∀ (a : D) (w : W), a ≤ add a w

instance : Cost Nat Nat where
  zero := 0
  add := (· + ·)
  mono := fun w h => Nat.add_le_add_right h w
  infl := fun a w => Nat.le_add_right a w

/-- Out edges of every vertex in the order of `out_edges_view`: target and weight
(dijkstra_shortest_path.hpp 73-88; adjacency_list.hpp / compressed_sparse_row.hpp `out_edges_view`, `target`). -/
abbrev Graph (V W : Type) := V → List (V × W)

/-- State of the search: the three maps and the queue passed by reference (dijkstra_shortest_path.hpp 55-57), the
log of `finish_vertex` callbacks (line 102) and the log of vertices the bounding visitor disabled
(network.hpp 432). -/
structure State (V D : Type) where
  pred : V → Option V
  dist : V → Option D
  color : V → Color
  queue : List (D × V)
  finished : List V
  disabled : List V

variable {V W D : Type} [DecidableEq V] [LinearOrder D] [Cost D W]

/-- dijkstra_shortest_path.hpp 59-64: initialisation. -/
def init (W : Type) [Cost D W] (start : V) : State V D where
  pred := Function.update (fun _ => none) start (some start)
  dist := Function.update (fun _ => none) start (some (Cost.zero W))
  color := Function.update (fun _ => .white) start .gray
  queue := [(Cost.zero W, start)]
  finished := []
  disabled := []

/-- network.hpp 418-434 `base_max_distance_visitor::examine_edge`: if the *stored* distance of the source plus the
weight exceeds the bound, the target is coloured black.  `exceeds d` is the test `d > factor * max_distance`; a
disabled factor (`< 0`) is `fun _ => false`.  A missing stored distance cannot occur for a popped vertex; the
default-inserting `operator[]` is modelled by falling back to zero. -/
def examineEdge (exceeds : D → Bool) (v : V) (e : V × W) (s : State V D) : State V D :=
  if exceeds (Cost.add ((s.dist v).getD (Cost.zero W)) e.2) then
    { s with color := Function.update s.color e.1 .black, disabled := e.1 :: s.disabled }
  else s

/-- dijkstra_shortest_path.hpp 87-98: relaxation of one edge; `d` is the popped distance. -/
def relaxEdge (d : D) (v : V) (e : V × W) (s : State V D) : State V D :=
  if s.color e.1 ≠ .black then
    match s.dist e.1 with
    | none =>
      { s with pred := Function.update s.pred e.1 (some v)
               dist := Function.update s.dist e.1 (some (Cost.add d e.2))
               color := Function.update s.color e.1 .gray
               queue := (Cost.add d e.2, e.1) :: s.queue }
    | some old =>
      if Cost.add d e.2 < old then
        { s with pred := Function.update s.pred e.1 (some v)
                 dist := Function.update s.dist e.1 (some (Cost.add d e.2))
                 color := Function.update s.color e.1 .gray
                 queue := (Cost.add d e.2, e.1) :: s.queue }
      else s
  else s

/-- dijkstra_shortest_path.hpp 74-99: body of the edge loop. -/
def doEdge (exceeds : D → Bool) (d : D) (v : V) (s : State V D) (e : V × W) : State V D :=
  relaxEdge d v e (examineEdge exceeds v e s)

/-- dijkstra_shortest_path.hpp 67-102: one iteration of the main loop for the popped entry `(d, v)`. -/
def expand (g : Graph V W) (exceeds : D → Bool) (s : State V D) (d : D) (v : V) : State V D :=
  let s1 := { s with queue := s.queue.erase (d, v) }
  let s2 := (g v).foldl (doEdge exceeds d v) s1
  { s2 with color := Function.update s2.color v .black, finished := v :: s2.finished }

/-- dijkstra_shortest_path.hpp 66-103: one iteration, for some minimal queue entry.  `stop` is `visitor.stopped()`
as a function of the `finish_vertex` log. -/
inductive Step (g : Graph V W) (exceeds : D → Bool) (stop : List V → Bool) :
    State V D → State V D → Prop where
  | pop (s : State V D) (d : D) (v : V) (hmem : (d, v) ∈ s.queue)
      (hmin : ∀ e ∈ s.queue, d ≤ e.1) (hgo : stop s.finished = false) :
      Step g exceeds stop s (expand g exceeds s d v)

/-- All states the loop can be in at its head (line 66) (dijkstra_shortest_path.hpp 66). -/
inductive Reach (g : Graph V W) (exceeds : D → Bool) (stop : List V → Bool) (start : V) :
    State V D → Prop where
  | init : Reach g exceeds stop start (init W start)
  | step {s t} : Reach g exceeds stop start s → Step g exceeds stop s t → Reach g exceeds stop start t

/-- The loop condition of line 66 is false (dijkstra_shortest_path.hpp 66). -/
def Done (stop : List V → Bool) (s : State V D) : Prop :=
  s.queue = [] ∨ stop s.finished = true

/-- graph/algorithm/visitor.hpp 21-47: the plain visitor never stops. -/
def neverStop : List V → Bool := fun _ => false

/-- network.hpp 462-471 `goals_visitor::finish_vertex`: stop once as many goals as requested have been finished. The
found set is a subset of the goal set, so the size test is "all goals found"; before the first callback nothing is
stopped. -/
def goalsStop (goals : List V) : List V → Bool :=
  fun fin => !fin.isEmpty && goals.all (fun t => t ∈ fin)

/-- network.hpp 236-243 and 283-287: reconstruction of the path by following `predecessors[...]`; the map is
default-inserting, `dflt` is the inserted value (index 0).  `fuel` bounds the number of iterations; `none` means that
the loop is still running after `fuel` iterations. -/
def pathBack (dflt : V) : Nat → (V → Option V) → V → List V → Option (List V)
  | 0, _, _, _ => none
  | n + 1, pred, v, acc =>
    let p := (pred v).getD dflt
    -- `predecessors[vertex]` inserts the default when missing
    let pred' := Function.update pred v (some p)
    if p = v then some (v :: acc) else pathBack dflt n pred' p (v :: acc)

end MM.SP
