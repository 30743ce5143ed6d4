import Verif.Model.Osm
import Verif.Model.TagFlow

/-!
# Files read into a network, with the tags

The handler of `Model/Osm.lean` and the storages of `Model/TagFlow.lean` together: each function of the handler works on the nodes, the
graph and both storages of tags at once.  Paths relative to /repo/src/library/include/.  Not modelled: growing of the memory mapped
storages (C53, C57), the reprojection of points.
-/

set_option autoImplicit false

namespace MM.OsmTags

open MM.TagFlow

variable {P : Type}

/-- An element of the files (osm_importer.hpp 47): nodes with their tags, ways (which have them in `Osm.Way`). -/
inductive Elem (P : Type) where
  | node (n : Osm.Node P) (tags : List Pair)
  | way (w : Osm.Way)

/-- osm_handler.hpp 91-96: the helpers of the handler. -/
structure Reader (P : Type) where
  osm : Osm.St P := Osm.St.empty
  tags : World := {}

/-- osm_handler_helper.hpp 110-134 `add_node`: tags, then the node. -/
def addNode (r : Reader P) (n : Osm.Node P) (ts : List Pair) : Outcome (Reader P) :=
  (r.tags.step (.node n.id ts)).map fun w => ⟨Osm.addNode r.osm n.id n.point, w⟩

/-- osm_handler.hpp 45-52 `node`. -/
def node (r : Reader P) (n : Osm.Node P) (ts : List Pair) : Outcome (Reader P) :=
  if n.visible then
    (Osm.containsNode r.osm n.id).bind fun c => if c.2 then .ok ⟨c.1, r.tags⟩ else addNode ⟨c.1, r.tags⟩ n ts
  else .ok r

/-- osm_handler_helper.hpp 159-165 `add_vertex`, graph_helper.hpp 270-294: tags of the node, then the vertex. -/
def addVertex (r : Reader P) (i : Nat) : Outcome (Reader P) :=
  match r.osm.vertices[i]? with
  | some v => if v.index.isSome then .ok r else (r.tags.step (.vertex v.id)).map fun w => ⟨Osm.addVertex r.osm i, w⟩
  | none => .ok r

/-- osm_handler.hpp 61-66; the exception for an unknown node is caught. -/
def addFound (r : Reader P) : Option Nat → Outcome (Reader P)
  | some i => addVertex r i
  | none => .ok r

/-- osm_handler.hpp 58-68. -/
def addVertices : Reader P → List Nat → Outcome (Reader P)
  | r, [] => .ok r
  | r, n :: ns => (Osm.getNode r.osm n).bind fun g => (addFound ⟨g.1, r.tags⟩ g.2).bind fun r1 => addVertices r1 ns

/-- graph_helper.hpp 398-430 `add_edge`: the vertices (`none`: `out_of_range`), the tags of the way, the edge. -/
def graphEdge (r : Reader P) (w : Osm.Way) (a b : Osm.Vertex P) : Outcome (Option (Reader P)) :=
  match Osm.graphEdge r.osm w.id a b with
  | some st => (r.tags.step (.edge w.id w.tags)).map fun t => some ⟨st, t⟩
  | none => .ok none

/-- osm_handler_helper.hpp 167-214 `add_edge`; exceptions `out_of_range` are caught (osm_handler.hpp 81). -/
def addEdge (r : Reader P) (oneway reverse : Bool) (w : Osm.Way) (a b : Osm.Vertex P) : Outcome (Reader P) :=
  if oneway then
    if reverse then (graphEdge r w b a).map fun o => o.getD r else (graphEdge r w a b).map fun o => o.getD r
  else
    (graphEdge r w a b).bind fun o =>
      match o with
      | none => .ok r
      | some r1 => (graphEdge r1 w b a).map fun o1 => o1.getD r1

/-- osm_handler.hpp 72-83, the body of the second loop for two found nodes. -/
def pairEdge (f : Osm.Filters) (w : Osm.Way) (r : Reader P) (i j : Option Nat) : Outcome (Reader P) :=
  match i, j with
  | some i, some j =>
    match r.osm.vertices[i]?, r.osm.vertices[j]? with
    | some a, some b => addEdge r (Osm.detectOneway f w.tags).1 (Osm.detectOneway f w.tags).2 w a b
    | _, _ => .ok r
  | _, _ => .ok r

/-- osm_handler.hpp 70-84; with an empty way `size() - 1` underflows. -/
def addEdges (f : Osm.Filters) (w : Osm.Way) : Reader P → List Nat → Outcome (Reader P)
  | _, [] => .ub
  | r, [_] => .ok r
  | r, a :: b :: rs => (Osm.getNode r.osm a).bind fun g =>
    (Osm.getNode g.1 b).bind fun h => (pairEdge f w ⟨h.1, r.tags⟩ g.2 h.2).bind fun r1 => addEdges f w r1 (b :: rs)

/-- osm_handler.hpp 54-86 `way`. -/
def way (f : Osm.Filters) (r : Reader P) (w : Osm.Way) : Outcome (Reader P) :=
  if w.visible && Osm.keep f w.tags then (addVertices r w.refs).bind fun r1 => addEdges f w r1 w.refs else .ok r

/-- The handler is called (osm_importer.hpp 47). -/
def element (f : Osm.Filters) (r : Reader P) : Elem P → Outcome (Reader P)
  | .node n ts => node r n ts
  | .way w => way f r w

/-- osm_importer.hpp 37-53: the elements of all files in turn. -/
def run (f : Osm.Filters) (r : Reader P) : List (Elem P) → Outcome (Reader P)
  | [] => .ok r
  | e :: es => (element f r e).bind fun r1 => run f r1 es

/-- network_import.hpp 68-106 `simplify` as far as tags are concerned: edges of the graph are merged (`TagFlow.Op.merge`), one pair
after the other. -/
def simplify (complete : Bool) (w : World) (pairs : List (Nat × Nat)) : Outcome World :=
  w.run (pairs.map fun p => .merge complete p.1 p.2)

end MM.OsmTags
