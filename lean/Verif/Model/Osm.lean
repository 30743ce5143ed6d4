import Verif.Model.Outcome
import Mathlib.Data.List.Sort

/-!
# Import of OpenStreetMap files (io/network/osm_handler.hpp, io/helper/osm_handler_helper.hpp, io/network/osm_importer.hpp)

The handler is called for each node and way of the files in turn.  `std::lower_bound` and `std::binary_search` are undefined when
the range is not sorted; `std::sort` is an insertion sort here.  Not modelled: growing of the memory mapped storages (C53, C57),
tags of nodes and edges (C36, C54), lengths and directions of the edges, the reprojection of points.
-/

set_option autoImplicit false

namespace MM.Osm

variable {P : Type}

/-- A rule of `osmium::TagsFilter` (osm_importer.hpp 57-84): the result, the key, the value if one is given. -/
structure Rule where
  result : Bool
  key : String
  value : Option String
deriving DecidableEq

/-- `osmium::TagsFilter` (osm_importer.hpp 57-84): the first matching rule decides, otherwise the default. -/
structure Filter where
  default : Bool
  rules : List Rule

/-- A rule matches a tag (`osmium::TagMatcher`, library of osm_handler.hpp 98). -/
def Rule.applies (r : Rule) (tag : String × String) : Bool :=
  decide (r.key = tag.1) && (match r.value with | none => true | some v => decide (v = tag.2))

/-- Calling a filter (osm_handler.hpp 102, 104, 119, 122). -/
def Filter.test (f : Filter) (tag : String × String) : Bool :=
  match f.rules.find? (fun r => r.applies tag) with
  | some r => r.result
  | none => f.default

/-- osm_handler.hpp 98. -/
structure Filters where
  query : Filter
  filter : Filter
  oneway : Filter
  reverse : Filter

/-- osm_importer.hpp 57-84. -/
def defaults : Filters where
  query := ⟨false, [⟨true, "highway", none⟩]⟩
  filter := ⟨true, []⟩
  oneway := ⟨false, [⟨true, "oneway", some "yes"⟩, ⟨true, "oneway", some "true"⟩, ⟨true, "oneway", some "1"⟩,
    ⟨true, "junction", some "roundabout"⟩, ⟨true, "highway", some "motorway"⟩]⟩
  reverse := ⟨false, [⟨true, "oneway", some "-1"⟩, ⟨true, "oneway", some "reverse"⟩]⟩

/-- `osmium::Node` (osm_handler.hpp 45). -/
structure Node (P : Type) where
  id : Nat
  visible : Bool
  point : P

/-- `osmium::Way` (osm_handler.hpp 54). -/
structure Way where
  id : Nat
  visible : Bool
  refs : List Nat
  tags : List (String × String)

/-- `osm_vertex` (osm_handler_storage.hpp 32-80); `index`: `vertex_index` if `added`. -/
structure Vertex (P : Type) where
  id : Nat
  point : P
  index : Option Nat
deriving DecidableEq

/-- An edge of the graph: indices of the vertices, identifier of the way, the line (osm_handler_helper.hpp 182-188). -/
structure Edge (P : Type) where
  src : Nat
  tgt : Nat
  way : Nat
  line : P × P
deriving DecidableEq

/-- Members of osm_handler_helper.hpp 217-221, vertices (identifier and point) and edges of the graph. -/
structure St (P : Type) where
  vertices : List (Vertex P)
  sort : Bool
  verts : List (Nat × P)
  edges : List (Edge P)
deriving DecidableEq

/-- At the beginning (osm_handler_helper.hpp 217-221). -/
def St.empty : St P := ⟨[], false, [], []⟩

/-- osm_handler_helper.hpp 117: the last node has a greater identifier. -/
def outOfOrder (vs : List (Vertex P)) (id : Nat) : Bool :=
  match vs.getLast? with
  | some v => decide (id < v.id)
  | none => false

/-- osm_handler_helper.hpp 110-134 `add_node`. -/
def addNode (st : St P) (id : Nat) (p : P) : St P :=
  { st with sort := st.sort || outOfOrder st.vertices id, vertices := st.vertices ++ [⟨id, p, none⟩] }

/-- osm_handler_storage.hpp 61-67. -/
def Vertex.le (a b : Vertex P) : Prop := a.id ≤ b.id

/-- osm_handler_storage.hpp 61-67. -/
instance : DecidableRel (Vertex.le (P := P)) := fun a b => inferInstanceAs (Decidable (a.id ≤ b.id))

/-- osm_handler_helper.hpp 136-141 `check_and_sort_nodes`. -/
def checkAndSort (st : St P) : St P :=
  if st.sort then { st with vertices := st.vertices.insertionSort Vertex.le, sort := false } else st

/-- `std::lower_bound` by the identifier (osm_handler_helper.hpp 146, 152): the first position with an identifier not less. -/
def lowerBound (vs : List (Vertex P)) (id : Nat) : Outcome Nat :=
  if List.Pairwise Vertex.le vs then .ok (vs.findIdx (fun v => decide (id ≤ v.id))) else .ub

/-- The vertex at the position, if it has the identifier (osm_handler_helper.hpp 146, 153). -/
def hit (vs : List (Vertex P)) (id : Nat) (i : Nat) : Option Nat :=
  match vs[i]? with
  | some v => if v.id = id then some i else none
  | none => none

/-- osm_handler_helper.hpp 149-157 `get_node`; `none`: `out_of_range` is thrown. -/
def getNode (st : St P) (id : Nat) : Outcome (St P × Option Nat) :=
  (lowerBound (checkAndSort st).vertices id).bind fun i => .ok (checkAndSort st, hit (checkAndSort st).vertices id i)

/-- osm_handler_helper.hpp 143-147 `contains_node`. -/
def containsNode (st : St P) (id : Nat) : Outcome (St P × Bool) :=
  (lowerBound (checkAndSort st).vertices id).bind fun i => .ok (checkAndSort st, (hit (checkAndSort st).vertices id i).isSome)

/-- osm_handler.hpp 45-52 `node`. -/
def node (st : St P) (n : Node P) : Outcome (St P) :=
  if n.visible then
    (containsNode st n.id).bind fun r => .ok (if r.2 then r.1 else addNode r.1 n.id n.point)
  else .ok st

/-- osm_handler_helper.hpp 159-165 `add_vertex` of the node at position `i`, graph_helper.hpp 270-294. -/
def addVertex (st : St P) (i : Nat) : St P :=
  match st.vertices[i]? with
  | some v => if v.index.isSome then st
    else { st with vertices := st.vertices.set i { v with index := some st.verts.length }, verts := st.verts ++ [(v.id, v.point)] }
  | none => st

/-- osm_handler.hpp 61-66; the exception for an unknown node is caught. -/
def addFound (g : St P × Option Nat) : St P :=
  match g.2 with
  | some i => addVertex g.1 i
  | none => g.1

/-- osm_handler.hpp 58-68. -/
def addVertices : St P → List Nat → Outcome (St P)
  | st, [] => .ok st
  | st, r :: rs => (getNode st r).bind fun g => addVertices (addFound g) rs

/-- graph_helper.hpp 398-430 `add_edge` of the graph; `none`: `out_of_range` of `at`. -/
def graphEdge (st : St P) (way : Nat) (a b : Vertex P) : Option (St P) :=
  if a.index.getD 0 < st.verts.length ∧ b.index.getD 0 < st.verts.length then
    some { st with edges := st.edges ++ [⟨a.index.getD 0, b.index.getD 0, way, (a.point, b.point)⟩] }
  else none

/-- osm_handler_helper.hpp 167-214 `add_edge`; exceptions are caught (osm_handler.hpp 81). -/
def addEdge (st : St P) (oneway reverse : Bool) (way : Nat) (a b : Vertex P) : St P :=
  if oneway then
    if reverse then (graphEdge st way b a).getD st else (graphEdge st way a b).getD st
  else
    match graphEdge st way a b with
    | none => st
    | some st1 => (graphEdge st1 way b a).getD st1

/-- osm_handler.hpp 100-113 `keep`. -/
def keep (f : Filters) (tags : List (String × String)) : Bool :=
  if tags.any f.query.test then tags.all f.filter.test else false

/-- osm_handler.hpp 115-127 `detect_oneway`. -/
def detectOneway (f : Filters) (tags : List (String × String)) : Bool × Bool := (tags.any f.oneway.test, tags.any f.reverse.test)

/-- osm_handler.hpp 72-83, the body of the second loop for two found nodes. -/
def pairEdge (f : Filters) (w : Way) (st : St P) (i j : Option Nat) : St P :=
  match i, j with
  | some i, some j =>
    match st.vertices[i]?, st.vertices[j]? with
    | some a, some b => addEdge st (detectOneway f w.tags).1 (detectOneway f w.tags).2 w.id a b
    | _, _ => st
  | _, _ => st

/-- osm_handler.hpp 70-84; with an empty way `size() - 1` underflows and `osm_nodes[0]` does not exist.  The second node is also
looked up if the first is unknown, which has no effect. -/
def addEdges (f : Filters) (w : Way) : St P → List Nat → Outcome (St P)
  | _, [] => .ub
  | st, [_] => .ok st
  | st, a :: b :: rs => (getNode st a).bind fun g =>
    (getNode g.1 b).bind fun h => addEdges f w (pairEdge f w h.1 g.2 h.2) (b :: rs)

/-- osm_handler.hpp 54-86 `way`. -/
def way (f : Filters) (st : St P) (w : Way) : Outcome (St P) :=
  if w.visible && keep f w.tags then (addVertices st w.refs).bind fun st1 => addEdges f w st1 w.refs else .ok st

/-- An element of the files (osm_importer.hpp 47). -/
inductive Element (P : Type) where
  | node (n : Node P)
  | way (w : Way)

/-- The handler is called (osm_importer.hpp 47). -/
def element (f : Filters) (st : St P) : Element P → Outcome (St P)
  | .node n => node st n
  | .way w => way f st w

/-- osm_importer.hpp 37-53: the elements of all files in turn. -/
def run (f : Filters) (st : St P) : List (Element P) → Outcome (St P)
  | [] => .ok st
  | e :: es => (element f st e).bind fun st1 => run f st1 es

end MM.Osm
