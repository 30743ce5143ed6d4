import Verif.Model.CandidateRoute
import Verif.Model.Router

/-!
# The route of a match: from the chosen candidates to one line (matching/algorithm/route.hpp 250-303)

`Model/Router.lean` models which routes are assembled, with abstract routes.  Here the routes are those of
`Model/CandidateRoute.lean` (between two candidates) and `Model/Route.lean` (join, merge).  Paths are relative to
/repo/src/library/include/.
-/

set_option autoImplicit false

namespace MM.MatchRoute

open MM.Route MM.Line MM.Router

variable {P : Type} [DecidableEq P] {R A : Type} [LinearOrder R]

/-- matching/algorithm/route.hpp 250-253, arguments and what is read of the network: geometry, interpolation on a line, what
counts as a reversal, lines of edges, whether turns within edges are allowed, whether joints are removed, the nearest segment
of the index (`none`: empty index), the next free address, the candidates named by entries of the policy, and the path of
the network between the edges of two of them (100-159). -/
structure Setting (P R A : Type) where
  G : Geo P R A
  interp : List P → R → P
  turn : A → Bool
  edgeLine : Nat → List P
  within : Bool
  joins : Bool
  nearest : P → Option (P × P)
  free : Nat
  cand : Entry → Cand P
  path : Entry → Entry → Route P

/-- geometry/network/network.hpp 173-185 `point_in_edges` (first component): the point is an end of the nearest segment. -/
def pointInEdges (nearest : P → Option (P × P)) (p : P) : Bool :=
  match nearest p with
  | some s => decide (s.1 = p) || decide (s.2 = p)
  | none => false

/-- matching/algorithm/route.hpp 275-276: the route between the candidates of two entries. -/
def Setting.leg (s : Setting P R A) (p q : Entry) : Outcome (Route P) :=
  candidateRoute s.G s.interp s.turn s.edgeLine s.within s.free (s.path p q) (s.cand p) (s.cand q)

/-- route.hpp 282-288: the last point of the last line, if there is one, is not found in the edges. -/
def freeEnd (s : Setting P R A) (prev : Route P) : Bool :=
  match prev.refs.getLast?.bind (fun r => r.line.getLast?) with
  | some p => !pointInEdges s.nearest p
  | none => false

/-- Addresses of new lines are above all in use (lists allocate them, matching/algorithm/route.hpp 289, 302). -/
def unused (s : Setting P R A) (rs : List (Route P)) : Nat := rs.foldr (fun r n => max r.top n) s.free

/-- route.hpp 278-294: joining with the previous route.  Lengths cached by the routes are not read any more after a join (302
computes anew), so plain routes suffice. -/
def joinStep (s : Setting P R A) (routes : List (Route P)) (skipped : Bool) (r : Route P) : List (Route P) × Route P :=
  match routes.getLast? with
  | some prev =>
    if s.joins && !skipped && !r.invalid && !r.refs.isEmpty && !prev.invalid && freeEnd s prev then
      (routes.dropLast ++ [(join s.G s.turn true (unused s [prev, r]) prev r).1],
        (join s.G s.turn true (unused s [prev, r]) prev r).2)
    else (routes, r)
  | none => (routes, r)

/-- route.hpp 296: whether the route is kept. -/
def kept (s : Setting P R A) (r : Route P) : Bool := !r.invalid && (routeLength s.G r.lines).isSome

/-- route.hpp 278-299: one route more; the flag tells whether something was skipped since the last one kept. -/
def step (s : Setting P R A) (routes : List (Route P)) (skipped : Bool) (r : Route P) : List (Route P) × Bool :=
  if kept s (joinStep s routes skipped r).2 then
    ((joinStep s routes skipped r).1 ++ [(joinStep s routes skipped r).2], false)
  else ((joinStep s routes skipped r).1, skipped)

/-- route.hpp 257-300: the loop over the policy; a repeated position advances by two entries (264-270). -/
def collect (s : Setting P R A) : List Entry → List (Route P) → Bool → Outcome (List (Route P))
  | p :: q :: rest, routes, skipped =>
    if p.1 = q.1 then collect s rest routes true
    else (s.leg p q).bind fun r => collect s (q :: rest) (step s routes skipped r).1 (step s routes skipped r).2
  | _, routes, _ => .ok routes
termination_by l => l.length

/-- route.hpp 250-303 `candidates_route`. -/
def candidatesRoute (s : Setting P R A) (policy : List Entry) : Outcome (Route P) :=
  (collect s policy [] false).bind fun rs => merge false false (unused s rs) rs

/-- matching/matcher.hpp 123-124, 149, 160, 175: the match is the merge of the routes of the tracks (without 150-159). -/
def matchRoute (next : Nat) (routes : List (Route P)) : Outcome (Route P) :=
  merge false false (routes.foldr (fun r n => max r.top n) next) routes

end MM.MatchRoute
