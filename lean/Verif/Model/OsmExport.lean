import Verif.Model.Convert
import Verif.Model.Osm

/-!
# Export of OpenStreetMap files (io/network/osm_exporter.hpp)

`proj` is `geometry::reproject_point` and gives the pair of coordinates, `K`.  The edges are numbered by their positions.  The unordered
map of points is a list; nothing below depends on its order.  Not modelled: rounding of coordinates in `osmium::Location`, the writing of
the buffer.
-/

set_option autoImplicit false

namespace MM.OsmExport

variable {P K : Type} [DecidableEq P] [DecidableEq K]

/-- Tags of a node or an edge, decoded (osm_exporter.hpp 146, 193). -/
abbrev Tags := List (String × String)

/-- A vertex of the graph (osm_exporter.hpp 74): point and tags. -/
structure Vertex (P : Type) where
  point : P
  tags : Tags

/-- An edge of the graph (osm_exporter.hpp 57, 90): ends, line and tags. -/
structure Edge (P : Type) where
  src : Nat
  tgt : Nat
  line : List P
  tags : Tags

/-- `_graph` (osm_exporter.hpp 125). -/
structure Graph (P : Type) where
  vertices : List (Vertex P)
  edges : List (Edge P)

/-- A written node (osm_exporter.hpp 140-154, 162-165). -/
structure NodeOut (K : Type) where
  id : Nat
  location : K
  tags : Tags
deriving DecidableEq

/-- A written way (osm_exporter.hpp 171-210); `edge` is the number of the edge, which is not written. -/
structure WayOut (K : Type) where
  id : Nat
  edge : Nat
  refs : List (Nat × K)
  tags : Tags
deriving DecidableEq

/-- `_point_map` (osm_exporter.hpp 127). -/
abbrev PointMap (K : Type) := List (K × Nat)

/-- osm_exporter.hpp 63-66; `index` is the size of the map. -/
def insertPoint (m : PointMap K) (k : K) : PointMap K := if (m.lookup k).isSome then m else m ++ [(k, m.length)]

/-- osm_exporter.hpp 53-68. -/
def indexPoints (proj : P → K) (g : Graph P) : PointMap K := (g.edges.flatMap (fun e => e.line.map proj)).foldl insertPoint []

/-- `_point_map[key]` (osm_exporter.hpp 138, 182): inserts zero if there is none. -/
def access (m : PointMap K) (k : K) : Nat × PointMap K :=
  match m.lookup k with
  | some i => (i, m)
  | none => (0, m ++ [(k, 0)])

/-- osm_exporter.hpp 73-77 with `add_node` 130-157: the written nodes, the map. -/
def addNodes (proj : P → K) : PointMap K → List (Vertex P) → List (NodeOut K) × PointMap K
  | m, [] => ([], m)
  | m, v :: vs => (⟨(access m (proj v.point)).1, proj v.point, v.tags⟩ :: (addNodes proj (access m (proj v.point)).2 vs).1,
      (addNodes proj (access m (proj v.point)).2 vs).2)

/-- osm_exporter.hpp 80-85 with `add_point` 159-166; `points_added` are the locations of the nodes written before. -/
def addPoints (m : PointMap K) (nodes : List (NodeOut K)) : List (NodeOut K) :=
  (m.filter (fun p => decide (p.1 ∉ nodes.map NodeOut.location))).map (fun p => ⟨p.2, p.1, []⟩)

/-- osm_exporter.hpp 98: `lines_are_reversed` always gives a value (C52). -/
def linesReversed (a b : List P) : Bool :=
  match Convert.reversed a b with
  | .ok r => r
  | _ => false

/-- osm_exporter.hpp 93-98: numbers of the edges from the target of `e` with the reversed line. -/
def reverses (g : Graph P) (e : Edge P) : List Nat :=
  (List.range g.edges.length).filter fun j =>
    match g.edges[j]? with
    | some f => decide (f.src = e.tgt) && linesReversed e.line f.line
    | none => false

/-- osm_exporter.hpp 196-204: the tag is not skipped. -/
def keepTag (t : String × String) : Bool := !(decide (t.1 = "oneway") && (decide (t.2 = "-1") || decide (t.2 = "reverse")))

/-- osm_exporter.hpp 192-209. -/
def wayTags (tags : Tags) (isOneway : Bool) : Tags :=
  tags.filter keepTag ++
    (if !(tags.any fun t => decide (t.1 = "oneway") && decide (t.2 = "yes")) && isOneway then [("oneway", "yes")] else [])

/-- osm_exporter.hpp 176-187; the points are in the map, so that it stays as it is. -/
def wayRefs (proj : P → K) (m : PointMap K) (line : List P) : List (Nat × K) := line.map fun p => ((access m (proj p)).1, proj p)

/-- osm_exporter.hpp 89-106 from edge `i` on, with `add_way` 168-211. -/
def addWays (proj : P → K) (m : PointMap K) (g : Graph P) : Nat → List (Edge P) → List Nat → Nat → List (WayOut K)
  | _, [], _, _ => []
  | i, e :: es, reversed, index =>
    if i ∈ reversed then addWays proj m g (i + 1) es reversed index
    else ⟨index, i, wayRefs proj m e.line, wayTags e.tags (reverses g e).isEmpty⟩ ::
      addWays proj m g (i + 1) es (reverses g e ++ reversed) (index + 1)

/-- osm_exporter.hpp 71-85: all nodes of the file. -/
def nodes (proj : P → K) (g : Graph P) : List (NodeOut K) :=
  (addNodes proj (indexPoints proj g) g.vertices).1 ++
    addPoints (addNodes proj (indexPoints proj g) g.vertices).2 (addNodes proj (indexPoints proj g) g.vertices).1

/-- osm_exporter.hpp 88-106: all ways of the file; `index` goes on where it stopped for the points. -/
def ways (proj : P → K) (g : Graph P) : List (WayOut K) :=
  addWays proj (addNodes proj (indexPoints proj g) g.vertices).2 g 0 g.edges [] (indexPoints proj g).length

end MM.OsmExport
