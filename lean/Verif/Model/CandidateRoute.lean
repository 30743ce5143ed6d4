import Verif.Model.TrimMerge
import Verif.Model.Substring

/-!
# The route between two candidates (matching/algorithm/route.hpp 160-242)

Paths are relative to /repo/src/library/include/.  The shortest path between the nodes (route.hpp 104-158, network.hpp
299-342) is an argument; addresses of new lines come from a counter as in `Model/Route.lean`.
-/

set_option autoImplicit false

namespace MM.Route

open MM.Line

variable {P : Type} [DecidableEq P] {R A : Type} [LinearOrder R]

/-- matching/candidate/candidate_edge.hpp 30-113: edge, the parts of it up to and behind the projection point, the projection
point.  Simplification: the measurement and the distance to it are not read by `candidate_route`. -/
structure Cand (P : Type) where
  edge : Nat
  before : Ref P
  behind : Ref P
  proj : P
deriving DecidableEq, Repr

/-- route.hpp 177-188: the distances between which the edge is travelled if both candidates are on the same edge and the
second is not before the first. -/
def overlap (G : Geo P R A) (edgeLine : Nat → List P) (c d : Cand P) : Option (R × R) :=
  if c.edge = d.edge then
    match plainLength G c.behind.line, plainLength G d.before.line, plainLength G (edgeLine c.edge),
        plainLength G c.before.line with
    | some start, some stop, some whole, some a =>
      if whole ≤ G.addR start stop ∧ a ≤ stop then some (a, stop) else none
    | _, _, _, _ => none
  else none

/-- route.hpp 733-794: whether the merge leaves with `route_merge_exception`, at a gap. -/
def leftAtGap (o : Outcome (Acc P)) : Bool :=
  match o with
  | .throws => true
  | _ => false

/-- route.hpp 212-213, 221-222, 225-226, 230-231: merge of adjacent routes; 232-237: at a gap the route is invalid, other
exceptions are passed on. -/
def mergeAdjacent (next : Nat) (rs : List (Route P)) : Outcome (Route P) :=
  if !rs.all Route.invalid && leftAtGap (mergeLoop false true rs ⟨[], [], rs.foldr (fun r n => max r.top n) next⟩) then
    .ok Route.bad
  else merge false true (rs.foldr (fun r n => max r.top n) next) rs

/-- route.hpp 204-227: both ends trimmed where that is possible. -/
def trimEnds (G : Geo P R A) (turn : A → Bool) (next : Nat) (s m e : Route P) : Outcome (Route P) :=
  (trimMerge G turn next s m).bind fun sm =>
    if sm.invalid then
      (trimMerge G turn next m e).bind fun me =>
        if me.invalid then mergeAdjacent next [s, m, e] else mergeAdjacent next [s, me]
    else
      (trimMerge G turn (max next sm.top) sm e).bind fun sme =>
        if sme.invalid then mergeAdjacent next [sm, e] else .ok sme

/-- route.hpp 160-242 `candidate_route`; `m` is the shortest path from the end of the edge of `c` to the begin of that of
`d` (198), `interp` is `line_interpolate`. -/
def candidateRoute (G : Geo P R A) (interp : List P → R → P) (turn : A → Bool) (edgeLine : Nat → List P) (within : Bool)
    (next : Nat) (m : Route P) (c d : Cand P) : Outcome (Route P) :=
  if c.proj = d.proj then .ok (Route.ofRefs [])
  else
    match overlap G edgeLine c d with
    | some (a, b) =>
      (Substring.substring G interp (edgeLine c.edge) a b (some c.proj) (some d.proj)).map fun l => Route.ofOwn [⟨next, l⟩]
    | none =>
      if m.invalid then .ok Route.bad
      else if within then trimEnds G turn next (Route.ofRefs [c.behind]) m (Route.ofRefs [d.before])
      else mergeAdjacent next [Route.ofRefs [c.behind], m, Route.ofRefs [d.before]]

end MM.Route
