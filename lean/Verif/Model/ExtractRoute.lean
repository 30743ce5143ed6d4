import Mathlib.Order.Defs.LinearOrder

/-!
# From vertex path to route

Model of `network::extract_route`, `src/library/include/geometry/network/network.hpp` 299-342.
-/

set_option autoImplicit false

namespace MM.Extract

variable {V L : Type} [DecidableEq V] [LinearOrder L]

/-- The rich line of an edge as seen by `extract_route`: its identity, whether it has no points, and its length if it
has one (rich_line.hpp 132: at least two points). -/
structure Line (L : Type) where
  name : Nat
  empty : Bool
  len : Option L
  deriving DecidableEq, Repr

/-- An out edge: target vertex and line (network.hpp 316-319). -/
abbrev Out (V L : Type) := V × Line L

/-- State of the scan: chosen line and `shortest_length` (none = infinity), network.hpp 313-314. -/
structure Best (L : Type) where
  line : Option (Line L)
  shortest : Option L

/-- network.hpp 320-321: the condition under which a line replaces the choice. -/
def accepts (b : Best L) (l : Line L) : Bool :=
  !l.empty && (match l.len, b.shortest with
    | none, _ => true
    | some _, none => true
    | some x, some y => decide (x < y))

/-- network.hpp 317-327: loop body over the out edges. -/
def scanOne (next : V) (b : Best L) (e : Out V L) : Best L :=
  if e.1 = next then
    if accepts b e.2 then ⟨some e.2, e.2.len <|> b.shortest⟩ else b
  else b

/-- network.hpp 313-327: choice for one pair of vertices. -/
def choose (adj : V → List (Out V L)) (v next : V) : Option (Line L) :=
  ((adj v).foldl (scanOne next) ⟨none, none⟩).line

/-- network.hpp 309-334: loop over the path; a pair without choice adds nothing (line 330). -/
def edgesOf (adj : V → List (Out V L)) : List V → List (Line L)
  | v :: w :: rest => (choose adj v w).toList ++ edgesOf adj (w :: rest)
  | _ => []

/-- Result (network.hpp 301-341): invalid route, valid route without lines, or a route of lines. -/
inductive Route (L : Type) where
  | invalid
  | stay
  | lines (ls : List (Line L))
  deriving DecidableEq, Repr

/-- network.hpp 299-342 `extract_route`. -/
def extractRoute (adj : V → List (Out V L)) (path : List V) : Route L :=
  if path = [] then .invalid
  else if edgesOf adj path = [] then .stay
  else .lines (edgesOf adj path)

end MM.Extract
