import Verif.Model.MatchRoute
import Verif.Model.CandidateEdge
import Verif.Model.ExtractRoute
import Verif.Model.AStar
import Verif.Model.Weights
import Mathlib.Algebra.Order.Group.Defs

/-!
# From a track to its match

How the parts modelled elsewhere work together when a track is matched with the hidden Markov model: candidates on edges
(`Model/CandidateEdge.lean`), routing between them (`Model/ShortestPath.lean`, `Model/ExtractRoute.lean`,
`Model/CandidateRoute.lean`), weights (`Model/Weights.lean`), decoding (`Model/Viterbi.lean`) and the route of the match
(`Model/MatchRoute.lean`).  Paths are relative to /repo/src/library/include/.
-/

set_option autoImplicit false

namespace MM.Pipe

open MM.Line MM.Route MM.Router

variable {V P R A : Type} [DecidableEq V] [DecidableEq P]

/-- geometry/network/edge.hpp 29-39 and its ends in the graph (graph/adjacency_list.hpp 888-902). -/
structure Edge (V P : Type) where
  source : V
  target : V
  line : List P

/-- geometry/network/network_base.hpp 59-81, 147: the network; edges are named by their positions. -/
structure Net (V P : Type) where
  edges : List (Edge V P)

/-- network_base.hpp 95-97 `edge(edge_desc).rich_line`. -/
def Net.line (n : Net V P) (e : Nat) : List P :=
  match n.edges[e]? with
  | some x => x.line
  | none => []

/-- network.hpp 316-319: out edges of a vertex with their targets. -/
def Net.outs (n : Net V P) (v : V) : List (V × Nat) :=
  n.edges.zipIdx.filterMap fun x => if x.1.source = v then some (x.1.target, x.2) else none

section Search

variable [AddCommGroup R] [LinearOrder R] [IsOrderedAddMonoid R]

/-- Weights of edges are not negative (network.hpp 220-222); they are added exactly (`SP.AStar.exactCost`). -/
abbrev Weight (R : Type) [AddCommGroup R] [LinearOrder R] : Type := {w : R // 0 ≤ w}

/-- network.hpp 220-222 `weight_func`: the length of the line. -/
def weight (G : Geo P R A) (l : List P) : Weight R := ⟨max 0 ((plainLength G l).getD 0), le_max_left _ _⟩

/-- The graph as the search reads it (network.hpp 231-232). -/
def Net.graph (G : Geo P R A) (n : Net V P) : SP.Graph V (Weight R) :=
  fun v => (n.outs v).map fun x => (x.1, weight G (n.line x.2))

end Search

/-- The graph as `extract_route` reads it (network.hpp 313-327). -/
def Net.adj (G : Geo P R A) (n : Net V P) (v : V) : List (Extract.Out V R) :=
  (n.outs v).map fun x => (x.1, ⟨x.2, decide (n.line x.2 = []), plainLength G (n.line x.2)⟩)

/-- network.hpp 299-342: the route that refers to the lines of the edges; the line of an edge is found at its position. -/
def Net.routeOf (n : Net V P) : Extract.Route R → Route P
  | .invalid => Route.bad
  | .stay => Route.ofRefs []
  | .lines ls => Route.ofRefs (ls.map fun l => ⟨l.name, n.line l.name⟩)

variable [LinearOrder R]

/-- Matching of one track (matching/matcher.hpp 128-149): network, geometry and segment index, what counts as a reversal,
settings, points of the track, candidates of each point (an edge and the division of its line), and what the routing cache
answers for two vertices (matching/algorithm/route.hpp 100-158; `none`: no path was found). -/
structure Job (V P R A : Type) where
  net : Net V P
  env : CandEdge.Env P R A
  turn : A → Bool
  within : Bool
  joins : Bool
  track : List P
  cands : List (List (Nat × CandEdge.Cand P R))
  found : V → V → Option (List V)

/-- matching/algorithm/route.hpp 125-158: what the cache holds for two vertices. -/
def Job.routed (j : Job V P R A) (v w : V) : Route P :=
  match j.found v w with
  | some p => j.net.routeOf (Extract.extractRoute (j.net.adj j.env.G) p)
  | none => Route.bad

/-- The candidate of an entry `candidates[time].edges[number]` (route.hpp 164-165). -/
def Job.entry (j : Job V P R A) (e : Entry) : Option (Nat × CandEdge.Cand P R) :=
  j.cands[e.1]?.bind fun cs => cs[e.2]?

/-- Number of the candidates before an entry: lines of candidates are kept in the candidates
(matching/candidate/candidate_edge.hpp 40-41), so that each has its own address. -/
def Job.place (j : Job V P R A) (e : Entry) : Nat := ((j.cands.take e.1).map List.length).sum + e.2

/-- Addresses from here on are not in use (behind the lines of edges and of candidates, candidate_edge.hpp 40-41). -/
def Job.free (j : Job V P R A) : Nat := j.net.edges.length + 2 * (j.cands.map List.length).sum

/-- candidate_edge.hpp 28-48 with the addresses of its two lines.  The last case is an access out of range. -/
def Job.cand [Inhabited P] (j : Job V P R A) (e : Entry) : Cand P :=
  match j.entry e with
  | some (i, c) => ⟨i, ⟨j.net.edges.length + 2 * j.place e, c.from_⟩, ⟨j.net.edges.length + 2 * j.place e + 1, c.to_⟩, c.proj⟩
  | none => ⟨0, ⟨0, []⟩, ⟨0, []⟩, default⟩

/-- route.hpp 104-105, 198: the route of the cache from the end of the edge of one candidate to the begin of that of another. -/
def Job.path (j : Job V P R A) (p q : Entry) : Route P :=
  match (j.entry p).bind (fun c => j.net.edges[c.1]?), (j.entry q).bind (fun c => j.net.edges[c.1]?) with
  | some a, some b => j.routed a.target b.source
  | _, _ => Route.bad

/-- What the router works with (route.hpp 48, 160-303). -/
def Job.setting [Inhabited P] (j : Job V P R A) : MatchRoute.Setting P R A where
  G := j.env.G
  interp := j.env.interp
  turn := j.turn
  edgeLine := j.net.line
  within := j.within
  joins := j.joins
  nearest := j.env.nearest
  free := j.free
  cand := j.cand
  path := j.path

section Decode

variable [Inhabited P]

/-- environment/environments/hmm.hpp 194-198, 230-234: a value of the segment of the track up to a point. -/
def Job.segment (j : Job V P R A) {α : Type} (value : P → P → α) (t : Nat) : Option α :=
  match j.track[t - 1]?, j.track[t]? with
  | some a, some b => if a = b then none else some (value a b)
  | _, _ => none

/-- hmm.hpp 247-254: azimuth before a point and change of direction there. -/
def Job.turnBefore (j : Job V P R A) (t : Nat) : Option (A × A) :=
  if 2 ≤ t then
    match j.segment j.env.G.az (t - 1), j.segment j.env.G.az t with
    | some a, some b => some (a, j.env.G.dir a b)
    | _, _ => none
  else none

/-- hmm.hpp 270: directions of a route, if it has them. -/
def turns (G : Geo P R A) (r : Route P) : Option A :=
  match routeDirections G G.abs r.lines with
  | .ok d => d
  | _ => none

/-- hmm.hpp 177-281: what the weight of a transition depends on, for the candidates `s` of the point before `t` and `g` of
point `t`.  Exceptions leave the matching; here they count as invalid. -/
noncomputable def Job.legOf (j : Job V P ℝ ℝ) (t g s : Nat) : Weights.Leg :=
  match j.setting.leg (t - 1, s) (t, g) with
  | .ok r => ⟨r.invalid, decide (j.track[t - 1]? = j.track[t]?), routeLength j.env.G r.lines, j.segment j.env.G.len t,
      routeAzimuth j.env.G r.lines, j.segment j.env.G.az t, j.turnBefore t, turns j.env.G r⟩
  | _ => ⟨true, false, none, none, none, none, none, none⟩

/-- hmm.hpp 119-146: distances of the candidates. -/
def Job.dists (j : Job V P R A) : List (List R) := j.cands.map fun cs => cs.map fun c => c.2.dist

/-- learning/algorithms/viterbi.hpp 44-145: the chosen candidates. -/
noncomputable def Job.policy (j : Job V P ℝ ℝ) (f : Weights.Factors) : List Entry :=
  Viterbi.policy (Weights.hmmOf f j.dists j.legOf)

/-- matching/matcher.hpp 137-149, environment/environments/hmm.hpp 341-346: the route of the match. -/
noncomputable def Job.run (j : Job V P ℝ ℝ) (f : Weights.Factors) : Outcome (Route P) :=
  MatchRoute.candidatesRoute j.setting (j.policy f)

end Decode

end MM.Pipe
