import Verif.Model.Pipeline
import Verif.Model.Candidates
import Verif.Model.NextSearch
import Mathlib.Data.List.Sort

/-!
# From the points of a track to their candidates

How the parts of `src/library/include/matching/algorithm/candidate_search.hpp` modelled elsewhere work together: search of edges
(`Model/Candidates.lean`, `Model/NextSearch.lean`), division of each edge (`Model/CandidateEdge.lean`) and adoption
(`Model/Candidates.lean`).  The time limit is not modelled here (`Model/TimeLimit.lean`).
-/

set_option autoImplicit false

namespace MM.Pipe

open MM.Line MM.CandEdge

variable {V P R A : Type} [DecidableEq V] [DecidableEq P] [CommRing R] [LinearOrder R]

/-- matching/settings.hpp 28-33 `CANDIDATE_SEARCH`. -/
inductive Mode
  | circle
  | combined
  | nearest
  | next
deriving DecidableEq

/-- What the search depends on (candidate_search.hpp 61-62): network, geometry, track, settings (matching/settings.hpp 51-58),
distance of a point and a line (130, 162), edges with a segment in a box around a point (122-123) and among the nearest segments
(94), the size from which on the index is used (229-240, depending on measured times), distance of a point and the
segment from another point to a projection (456).  `num` numbers the vertices as the descriptors of the graph do. -/
structure Hunt (V P R A : Type) where
  net : Net V P
  env : Env P R A
  track : List P
  mode : Mode
  adaptive : Bool
  radius : R
  lower : R
  upper : R
  nearby : Bool
  reverse : Bool
  siblings : Bool
  gap : P → List P → R
  box : P → R → List Nat
  near : P → List Nat
  switch : Nat → Nat → Nat
  segDist : P → P → P → R
  num : V → Nat

/-- geometry/network/network.hpp 125-133: the segments of the index with their edges. -/
def Net.segments (n : Net V P) : List ((P × P) × Nat) := n.edges.zipIdx.flatMap fun x => (segs x.1.line).map fun s => (s, x.2)

/-- candidate_search.hpp 93-94, geometry/network/network.hpp 373-376, 397-404: the edges of the `k` nearest segments; `far` is the
distance of a segment.  Of segments equally far, the index may return any. -/
def Net.nearest (n : Net V P) (far : P × P → R) (k : Nat) : List Nat :=
  NextSearch.putAll (((n.segments.insertionSort fun a b => far a.1 ≤ far b.1).take k).map Prod.snd) []

/-- candidate_edge.hpp 28-48 with the lines from and to the projection. -/
abbrev Spot (P R : Type) := Cand.CE R P (List P × List P)

/-- candidate_search.hpp 107, 111, geometry/rich_type/rich_line_data.hpp 350-354: the length of the segment from point `i` of the
track; of equal points it is infinite (common.hpp 28), which does not change a minimum. -/
def Hunt.step (h : Hunt V P R A) (i : Nat) : Option R :=
  match h.track[i]?, h.track[i + 1]? with
  | some a, some b => if a = b then none else some (h.env.G.len a b)
  | _, _ => none

/-- candidate_search.hpp 82-145: what the search for point `p`, number `i`, depends on. -/
def Hunt.looks (h : Hunt V P R A) (i : Nat) (p : P) : Cand.Search R Nat where
  circle := decide (h.mode = .circle)
  radius := h.radius
  lower := h.lower
  upper := h.upper
  prevLen := if 0 < i then h.step (i - 1) else none
  nextLen := h.step i
  dist e := h.gap p (h.net.line e)
  box := h.box p
  nearest := h.near p

/-- candidate_search.hpp 164-165: sources and targets of the edges. -/
def Hunt.pairs (h : Hunt V P R A) : NextSearch.Net := h.net.edges.map fun e => (h.num e.source, h.num e.target)

/-- candidate_search.hpp 82-150: the edges found for a point, in the order of their descriptors; `none` if a search is still
running after `fuel` rounds. -/
def Hunt.edges (h : Hunt V P R A) (fuel i : Nat) (p : P) : Option (Outcome (List Nat)) :=
  match h.mode with
  | .circle => (Cand.radiusSearch (h.looks i p) h.adaptive fuel).map fun o => o.map Prod.snd
  | .combined => (Cand.radiusSearch (h.looks i p) h.adaptive fuel).map fun o => o.map Prod.snd
  | .nearest => some (.ok (h.near p))
  | .next => some (.ok (NextSearch.additionsNext h.pairs (fun e => h.gap p (h.net.line e)) (h.near p)))

/-- candidate_search.hpp 358-363: the candidate that is put into the set. -/
def spot (e : Nat) (c : CandEdge.Cand P R) : Spot P R := ⟨false, e, c.proj, c.dist, (c.from_, c.to_)⟩

/-- candidate_search.hpp 217-363: the candidates of a point on the edges found; edges without length are left out (219). -/
def Hunt.divisions (h : Hunt V P R A) (i : Nat) (p : P) : List Nat → Outcome (List (Spot P R))
  | [] => .ok []
  | e :: es =>
    match candidate h.env (h.switch i e) p (h.net.line e) with
    | none => h.divisions i p es
    | some o => o.bind fun c => (h.divisions i p es).map fun cs => spot e c :: cs

/-- candidate_search.hpp 358: into the set, by distance. -/
def gathered (cs : List (Spot P R)) : List (Spot P R) := cs.foldl (fun s c => NextSearch.insertBy Cand.CE.dist c s) []

/-- candidate_search.hpp 82-153 `_candidate_search_individual`. -/
def Hunt.setOf (h : Hunt V P R A) (fuel i : Nat) (p : P) : Option (Outcome (List (Spot P R))) :=
  (h.edges fuel i p).map fun o => o.bind fun es => (h.divisions i p es).map gathered

/-- candidate_search.hpp 63-66: the loop over the points; the second argument is the number of the first of them. -/
def Hunt.setsFrom (h : Hunt V P R A) (fuel : Nat) : Nat → List P → Option (Outcome (List (List (Spot P R))))
  | _, [] => some (.ok [])
  | i, p :: ps =>
    match h.setOf fuel i p with
    | none => none
    | some .throws => some .throws
    | some .ub => some .ub
    | some (.ok s) => (h.setsFrom fuel (i + 1) ps).map fun o => o.map fun ss => s :: ss

/-- candidate_search.hpp 371-373, 456: the track as adoption sees it. -/
def Hunt.path [Inhabited P] (h : Hunt V P R A) : Cand.Track R P :=
  ⟨h.track.length, fun i => h.track.getD i default, h.env.G.len, h.segDist⟩

/-- candidate_search.hpp 368-517, 552-554: sets with what was adopted, as vectors. -/
def Hunt.finished [Inhabited P] (h : Hunt V P R A) (ss : List (List (Spot P R))) : List (List (Spot P R)) :=
  (List.range h.track.length).map (Cand.adopt h.path h.nearby h.reverse h.siblings (fun i => ss.getD i []))

/-- A candidate as routing uses it: its edge and the division (candidate_edge.hpp 28-48). -/
def plain (c : Spot P R) : Nat × CandEdge.Cand P R := (c.edge, ⟨c.proj, c.dist, c.lines.1, c.lines.2⟩)

/-- candidate_search.hpp 61-73 `candidate_search`: the candidates of all points. -/
def Hunt.candidates [Inhabited P] (h : Hunt V P R A) (fuel : Nat) : Option (Outcome (List (List (Nat × CandEdge.Cand P R)))) :=
  (h.setsFrom fuel 0 h.track).map fun o => o.map fun ss => (h.finished ss).map fun s => s.map plain

/-- matching/matcher.hpp 128-149: the candidates found are matched. -/
def Hunt.job (h : Hunt V P R A) (turn : A → Bool) (within joins : Bool) (found : V → V → Option (List V))
    (cs : List (List (Nat × CandEdge.Cand P R))) : Job V P R A :=
  ⟨h.net, h.env, turn, within, joins, h.track, cs, found⟩

end MM.Pipe
