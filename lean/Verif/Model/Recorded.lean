import Verif.Model.Seek
import Verif.Model.Matcher
import Verif.Model.Detect
import Verif.Model.SimplifyLine
import Verif.Model.MedianMerge

/-!
# From recorded parts of a track to one match

How preparation (`Model/Detect.lean`, `Model/SimplifyLine.lean`, `Model/MedianMerge.lean`), the search for candidates
(`Model/Seek.lean`), decoding and routing (`Model/Pipeline.lean`) are put together by `environment/environments/hmm.hpp`,
`learning/algorithms/viterbi.hpp` and `matching/matcher.hpp` (paths relative to /repo/src/library/include/), with the moments at
which the time limit is asked for.
-/

set_option autoImplicit false

namespace MM.Pipe

open MM.Line MM.Route MM.Router MM.CandEdge MM.Matcher

variable {V P R A : Type} [DecidableEq V] [DecidableEq P]

/-- matching/settings.hpp 51-56: what the preparation of a track depends on; `back` and `turn` (reversals), `G` and `segDist`
(distance of a point and a segment), `med`, `box`, `dist`, `half`, `nearest` (median, box around a point, distances, half of a
distance, distance of the nearest edge) are the geometry used by geometry/algorithm/detect.hpp, simplify.hpp and median_merge.hpp. -/
structure Prep (P R A : Type) where
  filter : Bool
  simplify : Bool
  tolerance : R
  merge : Bool
  spread : R
  adaptive : Bool
  back : P → P → P → Bool
  turn : A → Bool
  G : Geo P R A
  segDist : P → P → P → R
  med : List P → Outcome P
  box : P → R → P → Bool
  dist : P → P → R
  half : R → R
  nearest : P → Option R

section Preparation

variable [LinearOrder R] [Zero R]

/-- environment/environments/hmm.hpp 78-82, single.hpp 98-102. -/
def Prep.first (s : Prep P R A) (t : List P) : Outcome (List P) := (Detect.setTrack s.back s.filter t).map Prod.fst

/-- hmm.hpp 89-90, single.hpp 109-110. -/
def Prep.second (s : Prep P R A) (l : List P) : Outcome (List P) :=
  if s.simplify then Simplify.simplifyRichLine s.segDist s.tolerance s.G s.turn (l.length + 1) false l else .ok l

/-- geometry/algorithm/median_merge.hpp 151-163: the tolerance at a point. -/
def Prep.around (s : Prep P R A) (p : P) : R := Median.adaptive s.half s.nearest s.spread s.adaptive p

/-- hmm.hpp 97-99, single.hpp 117-119. -/
def Prep.third (s : Prep P R A) (l : List P) : Outcome (List P) :=
  if s.merge then Median.medianMerge s.med s.box s.dist 0 s.around (l.length + 1) l else .ok l

/-- hmm.hpp 77-105, single.hpp 97-121: the line that is matched, if the time is not up on the way. -/
def Prep.line (s : Prep P R A) (t : List P) : Outcome (List P) :=
  (s.first t).bind fun a => (s.second a).bind fun b => s.third b

end Preparation

/-- matching/matcher.hpp 103-112: what all parts are matched with: network, search and its settings (`hunt`, of which the track is not
used), preparation, router (`turn`, `within`, `joins`, `found` as in `Job`), weights.  `fuel` limits the rounds of the searches for
candidates. -/
structure Rig (V P R A : Type) where
  hunt : Hunt V P R A
  prep : Prep P R A
  turn : A → Bool
  within : Bool
  joins : Bool
  found : V → V → Option (List V)
  factors : Weights.Factors
  fuel : Nat

/-- hmm.hpp 106: the search is for the prepared line. -/
def Rig.on (w : Rig V P R A) (l : List P) : Hunt V P R A := { w.hunt with track := l }

/-- What an environment holds after `set` (hmm.hpp 351-358, without observations and transitions, which are functions of it): prepared
line and candidates; or the exception it left with. -/
abbrev State (P R : Type) := Outcome (List P × List (List (Nat × CandEdge.Cand P R)))

/-- Asking `n` times whether the time is up, giving up with `stop` (hmm.hpp 82-86 and 337-339). -/
def waits {α : Type} (stop : α) : Nat → Asks α → Asks α
  | 0, next => next
  | n + 1, next => .ask fun b => if b then .done stop else waits stop n next

/-- An exception leaves `set` (matching/matcher.hpp 138). -/
def stage {α β : Type} (o : Outcome β) (k : β → Asks (Outcome α)) : Asks (Outcome α) :=
  match o with
  | .ok b => k b
  | .throws => .done .throws
  | .ub => .done .ub

section Set

variable [CommRing R] [LinearOrder R] [Inhabited P]

/-- candidate_search.hpp 61-73: the candidates; a search that is still running counts as undefined. -/
def Rig.sought (w : Rig V P R A) (l : List P) : Outcome (List (List (Nat × CandEdge.Cand P R))) :=
  ((w.on l).candidates w.fuel).getD .ub

/-- How often the adoption of candidates asks for a track of `n` points: while the candidates are counted and put into the index, once
after it was made, after the search in it for each point (candidate_search.hpp 414, 434, 441, 483), after each point of adoption from
neighbours (513), and after each point that is completed (575).  Each time it gives up without candidates. -/
def Rig.pauses (w : Rig V P R A) (n : Nat) : Nat :=
  (if w.hunt.nearby then n + n + 1 + n else 0) + (if w.hunt.siblings then n else 0) + n

/-- hmm.hpp 77-294 `set`.  It asks after each step of the preparation (82, 92, 101), after the search for each point
(candidate_search.hpp 67), during adoption (`pauses`), after the search (108), after the observations and after the transitions of each
point (143, 290).  Simplification: exceptions of the search come after its questions. -/
def Rig.set (w : Rig V P R A) (t : List P) : Asks (State P R) :=
  stage (w.prep.first t) fun a => waits (.ok (a, [])) (if w.prep.filter then 1 else 0) <|
    stage (w.prep.second a) fun b => waits (.ok (b, [])) (if w.prep.simplify then 1 else 0) <|
      stage (w.prep.third b) fun l => waits (.ok (l, [])) (if w.prep.merge then 1 else 0) <|
        waits (.ok (l, [])) l.length <|
          stage (w.sought l) fun cs => waits (.ok (l, [])) (w.pauses cs.length) <|
            waits (.ok (l, cs)) (1 + cs.length + cs.length) (.done (.ok (l, cs)))

/-- matcher.hpp 128-149: the candidates of a prepared line. -/
def Rig.job (w : Rig V P R A) (l : List P) (cs : List (List (Nat × CandEdge.Cand P R))) : Job V P R A :=
  (w.on l).job w.turn w.within w.joins w.found cs

end Set

variable [Inhabited P]

/-- learning/algorithms/viterbi.hpp 44-145: it asks at its begin (47), for each point when it prepares its tables (66) and for each but
the first when it fills them (107), and gives up with an empty policy.  (It does not run after an exception.) -/
noncomputable def Rig.learn (w : Rig V P ℝ ℝ) : State P ℝ → Asks (List Entry)
  | .ok (l, cs) => waits [] (1 + cs.length + (cs.length - 1)) (.done ((w.job l cs).policy w.factors))
  | _ => .done []

/-- hmm.hpp 341-346 `result`.  (Exceptions leave the match; the other cases are not reached then.) -/
noncomputable def Rig.result (w : Rig V P ℝ ℝ) (s : State P ℝ) (p : List Entry) : Route P :=
  match s with
  | .ok (l, cs) =>
    match MatchRoute.candidatesRoute (w.job l cs).setting p with
    | .ok r => r
    | _ => Route.bad
  | _ => Route.bad

/-- matcher.hpp 203-232, 103-162 with Viterbi: environment and learner as the matcher uses them. -/
noncomputable def Rig.engine (w : Rig V P ℝ ℝ) : Engine (List P) (State P ℝ) (List Entry) P where
  set := w.set
  learn := w.learn
  empty := []
  result := w.result

end MM.Pipe
