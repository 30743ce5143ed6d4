import Verif.Model.ShortestPath
import Mathlib.Algebra.Order.Monoid.Defs

/-!
# A* search with the visitors of `network`

Model of `src/library/include/graph/algorithm/a_star_shortest_path.hpp` (55-105) and of
`network::a_star_shortest_paths` (`src/library/include/geometry/network/network.hpp` 256-297).

It shares the state, the visitor and the path reconstruction with the Dijkstra model.  Differences that matter: queue
entries carry distance plus heuristic, and the distance of the expanded vertex is the *stored* one.
-/

set_option autoImplicit false

namespace MM.SP.AStar

variable {V W D : Type} [DecidableEq V] [LinearOrder D] [Cost D W] [Add D]

/-- a_star_shortest_path.hpp 61-66: initialisation; `h v` is `heuristic_func(v, goal)`. -/
def init (W : Type) [Cost D W] (h : V → D) (start : V) : State V D where
  pred := Function.update (fun _ => none) start (some start)
  dist := Function.update (fun _ => none) start (some (Cost.zero W))
  color := Function.update (fun _ => .white) start .gray
  queue := [(h start, start)]
  finished := []
  disabled := []

/-- a_star_shortest_path.hpp 92: no distance yet, or a larger one. -/
def improves (old : Option D) (d : D) : Bool :=
  match old with
  | none => true
  | some o => decide (d < o)

/-- a_star_shortest_path.hpp 88-100: relaxation of one edge, from the stored distance of `v`. -/
def relaxEdge (h : V → D) (v : V) (e : V × W) (s : State V D) : State V D :=
  if s.color e.1 ≠ .black then
    if improves (s.dist e.1) (Cost.add ((s.dist v).getD (Cost.zero W)) e.2) = true then
      { s with pred := Function.update s.pred e.1 (some v)
               dist := Function.update s.dist e.1 (some (Cost.add ((s.dist v).getD (Cost.zero W)) e.2))
               color := Function.update s.color e.1 .gray
               queue := (Cost.add ((s.dist v).getD (Cost.zero W)) e.2 + h e.1, e.1) :: s.queue }
    else s
  else s

/-- a_star_shortest_path.hpp 75-101: body of the edge loop. -/
def doEdge (h : V → D) (exceeds : D → Bool) (v : V) (s : State V D) (e : V × W) : State V D :=
  relaxEdge h v e (examineEdge exceeds v e s)

/-- a_star_shortest_path.hpp 68-104: one iteration for the popped entry `(k, v)`. -/
def expand (g : Graph V W) (h : V → D) (exceeds : D → Bool) (s : State V D) (k : D) (v : V) : State V D :=
  let s1 := { s with queue := s.queue.erase (k, v) }
  let s2 := (g v).foldl (doEdge h exceeds v) s1
  { s2 with color := Function.update s2.color v .black, finished := v :: s2.finished }

/-- One iteration of the main loop (lines 67-105) for some entry of minimal priority (a_star_shortest_path.hpp 67-105). -/
inductive Step (g : Graph V W) (h : V → D) (exceeds : D → Bool) (stop : List V → Bool) :
    State V D → State V D → Prop where
  | pop (s : State V D) (k : D) (v : V) (hmem : (k, v) ∈ s.queue)
      (hmin : ∀ e ∈ s.queue, k ≤ e.1) (hgo : stop s.finished = false) :
      Step g h exceeds stop s (expand g h exceeds s k v)

/-- All states at the head of the loop (a_star_shortest_path.hpp 67). -/
inductive Reach (g : Graph V W) (h : V → D) (exceeds : D → Bool) (stop : List V → Bool) (start : V) :
    State V D → Prop where
  | init : Reach g h exceeds stop start (init W h start)
  | step {s t} : Reach g h exceeds stop start s → Step g h exceeds stop s t → Reach g h exceeds stop start t

/-- network.hpp 492-497 `goal_visitor::finish_vertex`. -/
def goalStop (goal : V) : List V → Bool := fun fin => decide (goal ∈ fin)

/-- Non-negative weights in an ordered monoid (exact arithmetic); `distances[vertex] + edge_distance`, line 90 (a_star_shortest_path.hpp 90). -/
instance exactCost (D : Type) [LinearOrder D] [AddCommMonoid D] [IsOrderedCancelAddMonoid D] :
    Cost D {w : D // 0 ≤ w} where
  zero := 0
  add := fun d w => d + w.1
  mono := fun w hab => add_le_add_left hab w.1
  infl := fun _ w => le_add_of_nonneg_right w.2

end MM.SP.AStar
