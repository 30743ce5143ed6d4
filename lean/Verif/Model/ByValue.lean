import Verif.Model.GraphHelper

/-!
# Nodes and edges handed over by value

Model of the overloads of `src/library/include/io/helper/graph_helper.hpp` 344-361 and 449-472 that take the node or the
edge by value and move it into the graph, inside the function that `retry_alloc` (io/memory_mapped/utils.hpp 72-87) calls
again after the storage has grown.  Moving an edge (geometry/network/edge.hpp 51-52) keeps its id and empties its line;
moving a node (geometry/network/node.hpp 59-60) copies it.
-/

set_option autoImplicit false

namespace MM.GHelper

open MM.AdjList

variable {P L : Type}

/-- geometry/network/edge.hpp 51-52: an edge after it has been moved from; `drained` is the line left behind. -/
def movedFrom (drained : L) (r : Rec L) : Rec L := ⟨r.id, drained⟩

/-- graph_helper.hpp 453-457, one attempt: the ends are looked up, then the parameter is moved into a new edge
(adjacency_list.hpp 748-753), before any place for it is allocated.  The parameter is part of the state. -/
def addMoved (drained : L) (i j : Nat) (p : Store P L × Rec L) : Outcome ((Store P L × Rec L) × Option Nat) :=
  (descriptor p.1 i).bind fun v => (descriptor p.1 j).bind fun w =>
    (addEdgeAt p.1.now v w p.2 p.1.next).map fun x => ((x.1, movedFrom drained p.2), x.2)

/-- graph_helper.hpp 458-460: the storage grows, the parameter is left as it is. -/
def growBeside (p : Store P L × Rec L) : Store P L × Rec L := (grow p.1, p.2)

/-- graph_helper.hpp 449-472 `add_edge` with the edge by value. -/
def callMoved (drained : L) (mapped : Bool) (i j : Nat) (r : Rec L) (s : Store P L) : Outcome (Store P L × Option Nat) :=
  (if mapped then retry (addMoved drained i j) growBeside 1 (s, r) else addMoved drained i j (s, r)).map
    fun x => (x.1.1, x.2)

/-- A call: by reference, or a node or an edge by value (graph_helper.hpp 270-472). -/
inductive Call (P L : Type) where
  | ref (op : Op P L)
  | node (r : Rec P)
  | edge (i j : Nat) (r : Rec L)

/-- graph_helper.hpp 270-472; a node by value (344-361) is copied in every attempt, as by reference without tags. -/
def Call.call (drained : L) (mapped : Bool) : Call P L → Store P L → Outcome (Store P L × Option Nat)
  | .ref op, s => GHelper.call mapped op s
  | .node r, s => GHelper.call mapped (.node r []) s
  | .edge i j r, s => callMoved drained mapped i j r s

/-- All calls, `bad_alloc` ends them (as arc_node_importer.hpp 60-109). -/
def runCalls (drained : L) (mapped : Bool) : List (Call P L) → Store P L → List Nat → Outcome (Run P L)
  | [], s, rs => .ok ⟨s, rs, true⟩
  | c :: cs, s, rs =>
    match c.call drained mapped s with
    | .ok (t, some r) => runCalls drained mapped cs t (rs ++ [r])
    | .ok (t, none) => .ok ⟨t, rs, false⟩
    | .throws => .throws
    | .ub => .ub

end MM.GHelper
