import Verif.Model.Substring

/-!
# Candidate on an edge

Model of `src/library/include/matching/algorithm/candidate_search.hpp` 204-361 `_process_candidate_query` for one edge:
projection of the track point, snapping to points nearby, and the two lines from the start of the edge to the projection and
from there to its end.  Measured times only enter as the size from which on the index is used.
-/

set_option autoImplicit false

namespace MM.CandEdge

open MM.Line MM.Substring

variable {P R A : Type} [DecidableEq P] [LinearOrder R]

/-- Geometry and index: `interp` is `line_interpolate`, `proj` the closest point of a segment (both substring.hpp), `closest`
the closest point of a line (candidate_search.hpp 222), `nearest` the first result of a query of the segment index (271-274);
`one` and `eps` are the constants of lines 245, 257 and 268, 288. -/
structure Env (P R A : Type) where
  G : Geo P R A
  interp : List P → R → P
  proj : P → P × P → P
  closest : P → List P → P
  nearest : P → Option (P × P)
  one : R
  eps : R

/-- candidate_search.hpp 220-227: projection point and its distance. -/
def project (E : Env P R A) (p : P) (edge : List P) : P × R :=
  (if E.G.len p (E.closest p edge) = E.G.zeroR then p else E.closest p edge, E.G.len p (E.closest p edge))

/-- candidate_search.hpp 245, 250: the least distance so far. -/
def least (E : Env P R A) : Option (P × R) → R
  | none => E.one
  | some b => b.2

/-- candidate_search.hpp 244-254: the loop over the points of the edge; `none` is the null pointer with distance `one`. -/
def nearestPoint (E : Env P R A) (q : P) : List P → Option (P × R) → Option (P × R)
  | [], best => best
  | v :: vs, best =>
    nearestPoint E q vs (if E.G.len v q < least E best then some (v, E.G.len v q) else best)

/-- candidate_search.hpp 267-285: the nearer end of the nearest segment of the network. -/
def nearestEnd (E : Env P R A) (q : P) : Option (P × R) :=
  (E.nearest q).map fun s => if E.G.len s.2 q < E.G.len s.1 q then (s.2, E.G.len s.2 q) else (s.1, E.G.len s.1 q)

/-- candidate_search.hpp 255-261 and 286-292: replaced by a point very near. -/
def snapTo (E : Env P R A) (p : P) (found : Option (P × R)) (x : P × R) : P × R :=
  match found with
  | none => x
  | some v => if v.1 ≠ x.1 ∧ v.2 < E.eps then (v.1, E.G.len p v.1) else x

/-- candidate_search.hpp 241-294: `switch` is `_edge_size_switch`, 16 at first, later any number from 2 on, depending on measured
times (229-240). -/
def snapped (E : Env P R A) (switch : Nat) (p : P) (edge : List P) : P × R :=
  if edge.length ≤ switch then snapTo E p (nearestPoint E (project E p edge).1 edge none) (project E p edge)
  else snapTo E p (nearestEnd E (project E p edge).1) (project E p edge)

/-- candidate_edge.hpp 28-48 without edge and mark. -/
structure Cand (P R : Type) where
  proj : P
  dist : R
  from_ : List P
  to_ : List P
deriving DecidableEq

/-- substring.hpp 314-321 `substring_point_to` with `use_to_point`.  Distances that are infinite (edges with repeated points)
are not modelled: `ub`. -/
def pointTo (E : Env P R A) (edge : List P) (q : P) : Outcome (List P) :=
  match distanceTo E.G E.proj true edge q with
  | some b => substringTo E.G E.interp edge b (some q)
  | none => .ub

/-- substring.hpp 305-312 `substring_point_from` with `use_from_point`; as above. -/
def pointFrom (E : Env P R A) (edge : List P) (q : P) : Outcome (List P) :=
  match distanceFrom E.G E.proj true edge q with
  | some a => substringFrom E.G E.interp edge a (some q)
  | none => .ub

/-- candidate_search.hpp 332-333 and 342-343: `not has_length()` or length zero. -/
def noLength (E : Env P R A) (l : List P) : Bool :=
  match plainLength E.G l with
  | none => true
  | some r => decide (r = E.G.zeroR)

/-- candidate_search.hpp 299-303 `_set_from_to_edge`; `z` is the last point, `t` the line to the end as it was. -/
def fromEdge (E : Env P R A) (p : P) (edge : List P) (z : P) (t : List P) : Cand P R := ⟨z, E.G.len p z, edge, t⟩

/-- candidate_search.hpp 305-309 `_set_to_to_edge`; `x` is the first point, `f` the line from the start as it was. -/
def toEdge (E : Env P R A) (p : P) (edge : List P) (x : P) (f : List P) : Cand P R := ⟨x, E.G.len p x, f, edge⟩

/-- candidate_search.hpp 329-353: the projection lies within the edge. -/
def within (E : Env P R A) (p : P) (edge : List P) (x z : P) (y : P × R) : Outcome (Cand P R) :=
  (pointTo E edge y.1).bind fun f =>
    if noLength E f then .ok (toEdge E p edge x f)
    else if plainLength E.G f = plainLength E.G edge then .ok (fromEdge E p edge z [])
    else (pointFrom E edge y.1).bind fun t =>
      if noLength E t then .ok (fromEdge E p edge z t)
      else if plainLength E.G t = plainLength E.G edge then .ok (toEdge E p edge x [])
      else .ok ⟨y.1, y.2, f, t⟩

/-- candidate_search.hpp 296-356: the lines from the start and to the end for projection `y`. -/
def divide (E : Env P R A) (p : P) (edge : List P) (y : P × R) : Outcome (Cand P R) :=
  match edge.head?, edge.getLast? with
  | some x, some z =>
    if x = y.1 then .ok ⟨y.1, y.2, [], edge⟩
    else if z = y.1 then .ok ⟨y.1, y.2, edge, []⟩
    else if E.G.len x y.1 = E.G.zeroR then .ok (toEdge E p edge x [])
    else if E.G.len z y.1 = E.G.zeroR then .ok (fromEdge E p edge z [])
    else within E p edge x z y
  | _, _ => .ub

/-- candidate_search.hpp 218-364: the candidate for an edge, if it has a length. -/
def candidate (E : Env P R A) (switch : Nat) (p : P) (edge : List P) : Option (Outcome (Cand P R)) :=
  if (plainLength E.G edge).isSome then some (divide E p edge (snapped E switch p edge)) else none

end MM.CandEdge
