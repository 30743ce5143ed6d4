import Verif.Model.Route
import Verif.Model.Common

/-!
# Export of the edges a route travels along

Models matching/algorithm/route.hpp 305-365 and geometry/network/network.hpp 106-135, 187-212 (paths relative to
/repo/src/library/include/).

Simplifications: an edge is known by its position in the list of edges of the network (its descriptor, and the address of its
line); what the spatial index answers is an argument; azimuths are numbers of an ordered field instead of floating point
numbers.
-/

set_option autoImplicit false

namespace MM.ExportEdges

open MM.Line MM.Route

variable {P : Type} [DecidableEq P] {R : Type} [Field R] [LinearOrder R] [IsStrictOrderedRing R]

/-- geometry/network/edge.hpp 33-36. -/
structure Edge (P : Type) where
  id : Nat
  line : List P
deriving DecidableEq, Repr

/-- A value of the spatial index: a segment and the edge it belongs to (network.hpp 129-130; the number of the segment is not
read). -/
abbrev Entry (P : Type) := (P × P) × Nat

/-- network.hpp 125-131: the entries of an edge; an edge without points has none. -/
def entriesOf (e : Edge P) (i : Nat) : List (Entry P) := (segs e.line).map fun s => (s, i)

/-- network.hpp 123-133: the entries of all edges from number `i` on. -/
def entriesFrom : Nat → List (Edge P) → List (Entry P)
  | _, [] => []
  | i, e :: es => entriesOf e i ++ entriesFrom (i + 1) es

/-- network.hpp 106-135 `build_spatial_indices`: the entries of the index of segments. -/
def entries (es : List (Edge P)) : List (Entry P) := entriesFrom 0 es

/-- network.hpp 197-198: the angle between two segments; `az` is `azimuth_segment_deg`. -/
def deviation (az : P × P → R) (s t : P × P) : R := |Common.angleDiff (az s) (az t)|

/-- network.hpp 195-206: body of the loop; the best angle and edge so far. -/
def better (az : P × P → R) (s : P × P) (best : Option (R × Nat)) (e : Entry P) : Option (R × Nat) :=
  match best with
  | none => some (deviation az s e.1, e.2)
  | some b => if (s.1 = e.1.1 ∧ s.2 = e.1.2) ∨ deviation az s e.1 < b.1 then some (deviation az s e.1, e.2) else some b

/-- network.hpp 187-212 `fitting_edge`; `hits` are the entries the index finds to intersect the segment (194). -/
def fittingEdge (az : P × P → R) (hits : P × P → List (Entry P)) (s : P × P) : Option Nat :=
  ((hits s).foldl (better az s) none).map Prod.snd

/-- route.hpp 315 and rich_segment.hpp 116-128: segments of which the points differ are asked for. -/
def segmentEdge (az : P × P → R) (hits : P × P → List (Entry P)) (s : P × P) : Option Nat :=
  if s.1 = s.2 then none else fittingEdge az hits s

/-- route.hpp 319-327: an edge is added unless it is the last one. -/
def addEdge (acc : List Nat) (e : Nat) : List Nat := if acc.getLast? = some e then acc else acc ++ [e]

/-- route.hpp 305-337 `edges_list`. -/
def edgesList (az : P × P → R) (hits : P × P → List (Entry P)) (r : Route P) : Outcome (List Nat) :=
  r.multiLine.map fun ls => ((ls.flatMap segs).filterMap (segmentEdge az hits)).foldl addEdge []

/-- route.hpp 339-349 `export_edges_route`; the line of an edge is at the address of its number. -/
def exportRoute (es : List (Edge P)) (l : List Nat) : Route P :=
  Route.ofRefs (l.filterMap fun i => (es[i]?).map fun e => ⟨i, e.line⟩)

/-- route.hpp 355-363: an identifier is added unless it is the last one. -/
def addId (ids : List Nat) (e : Edge P) : List Nat := if ids.getLast? = some e.id then ids else ids ++ [e.id]

/-- route.hpp 351-365 `edge_ids`. -/
def edgeIds (es : List (Edge P)) (l : List Nat) : List Nat := (l.filterMap fun i => es[i]?).foldl addId []

end MM.ExportEdges
