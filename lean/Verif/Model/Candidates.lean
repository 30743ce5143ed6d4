import Verif.Model.Outcome
import Mathlib.Algebra.Order.Ring.Defs
import Mathlib.Logic.Function.Basic

/-!
# Candidate search: radius search and adoption

Model of `src/library/include/matching/algorithm/candidate_search.hpp`.  Geometry (distances, index queries,
projections) is a parameter.
-/

set_option autoImplicit false

namespace MM.Cand

/-! ### Radius search, 82-153 -/

/-- What one search depends on: settings (settings.hpp 53-56), the lengths of the adjacent segments of the track (107,
111), the distances of edges (130) and the queries of the segment index (94, 123). -/
structure Search (R E : Type) where
  circle : Bool
  radius : R
  lower : R
  upper : R
  prevLen : Option R
  nextLen : Option R
  dist : E → R
  box : R → List E
  nearest : List E

variable {R E : Type} [CommRing R] [LinearOrder R]

/-- candidate_search.hpp 105-107 and 109-112: minimum with the length of an adjacent segment, if there is one. -/
def minOpt (r : R) : Option R → R
  | some l => min r l
  | none => r

/-- candidate_search.hpp 104-120: the radius used in a round. -/
def clamp (s : Search R E) (adaptive : Bool) (cur : R) : R :=
  min (if adaptive then max (minOpt (minOpt cur s.prevLen) s.nextLen) s.lower else cur) s.upper

/-- candidate_search.hpp 122-137: the edges of a round; `prev` are those of the round before. -/
def round (s : Search R E) (r : R) (prev : List E) : List E :=
  (if s.circle then s.box r else prev).filter (fun e => decide (s.dist e ≤ r))

/-- 103-145: the loop, at most `fuel` rounds; `none` if it is still running.  `buffer_box` throws for radii that are not
positive (geometry/algorithm/buffer.hpp 38-40). -/
def search (s : Search R E) : Nat → Bool → R → List E → Option (Outcome (R × List E))
  | 0, _, _, _ => none
  | fuel + 1, adaptive, cur, prev =>
    if s.circle && decide (clamp s adaptive cur ≤ 0) then some .throws
    else if (round s (clamp s adaptive cur) prev).isEmpty && decide (clamp s adaptive cur < s.upper) then
      search s fuel false (clamp s adaptive cur * 2) (round s (clamp s adaptive cur) prev)
    else some (.ok (clamp s adaptive cur, round s (clamp s adaptive cur) prev))

/-- candidate_search.hpp 82-147 for the modes CIRCLE and COMBINED: the latter starts from the nearest edges (91-95). -/
def radiusSearch (s : Search R E) (adaptive : Bool) (fuel : Nat) : Option (Outcome (R × List E)) :=
  search s fuel adaptive s.radius (if s.circle then [] else s.nearest)

/-! ### Adoption, 368-517 -/

/-- candidate_edge.hpp 28-48; `lines` are the lines from and to the projection, which are shared between copies (40-41). -/
structure CE (R P L : Type) where
  adopted : Bool
  edge : Nat
  proj : P
  dist : R
  lines : L
deriving DecidableEq

/-- The track and its geometry: points (candidate_search.hpp 373), distance of points (372), distance of a point to the segment from another
point to a projection (456). -/
structure Track (R P : Type) where
  n : Nat
  pt : Nat → P
  d : P → P → R
  segDist : P → P → P → R

variable {P L : Type} [DecidableEq P]

/-- boost multiset emplace, candidate_edge.hpp 92-94: ordered by distance, after equal elements. -/
def insertCE (x : CE R P L) : List (CE R P L) → List (CE R P L)
  | [] => [x]
  | y :: ys => if x.dist < y.dist then x :: y :: ys else y :: insertCE x ys

/-- candidate_search.hpp 374-378: the copy of a candidate for another point. -/
def copyFor (t : Track R P) (i : Nat) (c : CE R P L) : CE R P L := ⟨true, c.edge, c.proj, t.d (t.pt i) c.proj, c.lines⟩

/-- candidate_edge.hpp 82-85. -/
def sameCE (a b : CE R P L) : Bool := a.edge == b.edge && decide (a.proj = b.proj)

/-- candidate_search.hpp 371-397 `add_candidate`: emplaced unless an equal one is among those with the same distance (`equal_range`). -/
def addTo (t : Track R P) (i : Nat) (c : CE R P L) (l : List (CE R P L)) : List (CE R P L) :=
  if (l.filter (fun x => decide (x.dist = (copyFor t i c).dist))).any (fun x => sameCE x (copyFor t i c)) then l
  else insertCE (copyFor t i c) l

/-- candidate_search.hpp 368-369: the sets of candidates by point. -/
abbrev Sets (R P L : Type) := Nat → List (CE R P L)

/-- candidate_search.hpp 371-397 applied to the set of point `i`. -/
def add (t : Track R P) (st : Sets R P L) (i : Nat) (c : CE R P L) : Sets R P L := Function.update st i (addTo t i c (st i))

/-- Adding several candidates (candidate_search.hpp 399-516: calls of `add_candidate` in loops). -/
def addAll (t : Track R P) (st : Sets R P L) (i : Nat) (cs : List (CE R P L)) : Sets R P L :=
  cs.foldl (fun st c => add t st i c) st

/-- Candidates found for a point itself (candidate_search.hpp 406, 424, 468, 498, 507). -/
def own (l : List (CE R P L)) : List (CE R P L) := l.filter (fun c => !c.adopted)

/-- candidate_search.hpp 418-436: the index over all own candidates. -/
def indexOf (t : Track R P) (st : Sets R P L) : List (Nat × CE R P L) :=
  (List.range t.n).flatMap (fun j => (own (st j)).map (fun c => (j, c)))

/-- candidate_search.hpp 455-475: one result of the query for point `i`. -/
def nearbyResult (t : Track R P) (reverse : Bool) (i : Nat) (st : Sets R P L) (x : Nat × CE R P L) : Sets R P L :=
  if i = x.1 then st
  else if reverse then addAll t (add t st i x.2) x.1 (own (add t st i x.2 i))
  else add t st i x.2

/-- candidate_search.hpp 444-480: point `i` adopts from the index what is within its longest distance (box query and distance test in one). -/
def nearbyPoint (t : Track R P) (reverse : Bool) (idx : List (Nat × CE R P L)) (st : Sets R P L) (i : Nat) : Sets R P L :=
  match (st i).getLast? with
  | none => st
  | some c =>
    if 0 < c.dist then
      (idx.filter (fun x => decide (t.segDist (t.pt i) (t.pt x.1) x.2.proj ≤ c.dist))).foldl (nearbyResult t reverse i) st
    else st

/-- candidate_search.hpp 399-487. -/
def nearby (t : Track R P) (reverse : Bool) (st : Sets R P L) : Sets R P L :=
  (List.range t.n).foldl (nearbyPoint t reverse (indexOf t st)) st

/-- candidate_search.hpp 495-502: from the previous set. -/
def fromPrev (t : Track R P) (st : Sets R P L) (i : Nat) : Sets R P L :=
  if 1 ≤ i then addAll t st i (own (st (i - 1))) else st

/-- candidate_search.hpp 504-511: from the next set. -/
def fromNext (t : Track R P) (st : Sets R P L) (i : Nat) : Sets R P L :=
  if i + 1 < t.n then addAll t st i (own (st (i + 1))) else st

/-- candidate_search.hpp 489-517. -/
def siblings (t : Track R P) (st : Sets R P L) : Sets R P L :=
  (List.range t.n).foldl (fun st i => fromNext t (fromPrev t st i) i) st

/-- candidate_search.hpp 399-517: adoption as configured (without time limit, which gives no candidates at all). -/
def adopt (t : Track R P) (near reverse sibl : Bool) (st : Sets R P L) : Sets R P L :=
  if sibl then siblings t (if near then nearby t reverse st else st) else if near then nearby t reverse st else st

end MM.Cand
