import Verif.Model.Common
import Verif.Model.Viterbi
import Mathlib.Analysis.SpecialFunctions.Pow.Real

/-!
# Weights of candidates and routes

Observation and transition weights of the hidden Markov model (`INC/environment/environments/hmm.hpp` 112-295) and rewards of
the decision process (`INC/environment/environments/single.hpp` 274-490).  Real numbers instead of floating point numbers;
`⊥` is minus infinity.  Distances of candidates, lengths, azimuths and directions of routes and of the track are given.
-/

set_option autoImplicit false

namespace MM.Weights

noncomputable section

/-! ### Hidden Markov model -/

/-- matching/settings.hpp 67-68. -/
structure Factors where
  distance : ℝ
  length : ℝ
  azimuth : ℝ
  direction : ℝ
  turn : ℝ

/-- hmm.hpp 119-124: the greatest distance of a candidate. -/
def farthest (ds : List ℝ) : ℝ := ds.foldl (fun m d => if d > m then d else m) 0

/-- hmm.hpp 126-128. -/
def scale (ds : List ℝ) : ℝ := (farthest ds + 0.01) * 1.01

/-- hmm.hpp 133-135. -/
def near (m d : ℝ) : ℝ := max 1e-20 ((m - d) / m)

/-- hmm.hpp 133-139: `border` for the first and last point. -/
def obsProb (border : Bool) (m d : ℝ) : ℝ := if border then near m d ^ (3 : ℝ) else near m d

/-- hmm.hpp 140-141: logarithm of a power. -/
def weight (p factor : ℝ) : ℝ := Real.log (p ^ factor)

/-- hmm.hpp 118-146: weights of the candidates of the point `index` of `n` points. -/
def observations (f : Factors) (n index : Nat) (ds : List ℝ) : List ℝ :=
  ds.map fun d => weight (obsProb (decide (index = 0 ∨ n ≤ index + 1)) (scale ds) d) f.distance

/-- hmm.hpp 159-166: all candidates of the first point are equally likely. -/
def initial (n : Nat) : ℝ := Real.log (1 / n)

/-- A route between two candidates and the part of the track between their points, as far as the weight depends on them
(hmm.hpp 177-281): `same` is `next_equal`; `turn` are the azimuth of the track before and its change of direction. -/
structure Leg where
  invalid : Bool
  same : Bool
  routeLength : Option ℝ
  trackLength : Option ℝ
  routeAzimuth : Option ℝ
  trackAzimuth : Option ℝ
  turn : Option (ℝ × ℝ)
  routeDirections : Option ℝ

/-- hmm.hpp 204-220. -/
def lengthProb (next route : ℝ) : ℝ :=
  if 0 < route ∧ 0 < next then
    max 1e-20 (1 - |next - route| / max next route) * (if 1 < route / next then 1 / (route / next) else route / next) *
      (if 10 < route / next then 0.01 else 1)
  else max 1e-20 (1 - |next - route| / max next route)

/-- hmm.hpp 236-238. -/
def azimuthProb (next route : ℝ) : ℝ := max 1e-20 ((180 - |Common.angleDiff next route|) / 180)

/-- hmm.hpp 255-260; direction.hpp 29-32: `direction_deg` is `angle_diff`. -/
def turnProb (current nextTurn route : ℝ) : ℝ :=
  max 1e-20 ((360 - |Common.angleDiff nextTurn (Common.angleDiff current route)|) / 360)

/-- hmm.hpp 271-272. -/
def directionsProb (a : ℝ) : ℝ := max 1e-20 ((360 - a) / 360)

/-- hmm.hpp 246-267. -/
def turnWeight (f : Factors) (l : Leg) (az : ℝ) : ℝ :=
  match l.turn with
  | some t => weight (turnProb t.1 t.2 az) f.turn
  | none => 0

/-- hmm.hpp 228-268. -/
def azimuthWeight (f : Factors) (l : Leg) : ℝ :=
  match l.routeAzimuth with
  | some az => weight (azimuthProb (l.trackAzimuth.getD az) az) f.azimuth + turnWeight f l az
  | none => 0

/-- hmm.hpp 270-281. -/
def directionsWeight (f : Factors) (l : Leg) : ℝ :=
  match l.routeDirections with
  | some a => weight (directionsProb a) f.direction
  | none => 0

/-- hmm.hpp 181-284. -/
def transition (f : Factors) (l : Leg) : WithBot ℝ :=
  if l.invalid then ⊥
  else if l.same && l.routeLength.isNone then ((0 : ℝ) : WithBot ℝ)
  else ((weight (lengthProb (l.trackLength.getD 1) (l.routeLength.getD 1)) f.length + azimuthWeight f l +
    directionsWeight f l : ℝ) : WithBot ℝ)

/-- hmm.hpp 112-295, viterbi.hpp 46-51, 86, 99: the matrices for the decoder; `dists` are the distances of the candidates of
each point, `leg t g s` is that from candidate `s` of the point before `t` to candidate `g` of point `t`. -/
def hmmOf (f : Factors) (dists : List (List ℝ)) (leg : Nat → Nat → Nat → Leg) : Viterbi.Hmm (WithBot ℝ) where
  len := dists.length
  n t := (dists.getD t []).length
  obs t g := (((observations f dists.length t (dists.getD t [])).getD g 0 : ℝ) : WithBot ℝ)
  tr t g s := if t = 0 then ((initial (dists.getD 0 []).length : ℝ) : WithBot ℝ) else transition f (leg t g s)
  late t := ((initial (dists.getD t []).length : ℝ) : WithBot ℝ)
  add a b := a + b
  add3 a b c := a + b + c

/-! ### Decision process -/

/-- single.hpp 274-490, as far as rewards are concerned: distances of the next and current candidate, whether the next point is
the last one, whether the points are equal, lengths of the track and the route between them, azimuths, change of direction of
the track with the azimuth before, directions of the route. -/
structure Step where
  nextDist : ℝ
  currentDist : ℝ
  last : Bool
  same : Bool
  trackLength : Option ℝ
  routeLength : Option ℝ
  routeAzimuth : Option ℝ
  trackAzimuth : Option ℝ
  turn : Option (ℝ × ℝ)
  routeDirections : Option ℝ

/-- single.hpp 284-291: the first point, or the first one after a skip. -/
def firstReward (f : Factors) (atStart : Bool) (d : ℝ) : ℝ := 0 - f.distance * (if atStart then d * 3 else d * 0.1)

/-- single.hpp 322-328. -/
def distancePart (f : Factors) (s : Step) : ℝ :=
  f.distance * (s.nextDist + s.currentDist) + (if s.last then f.distance * (s.nextDist * 2) else 0)

/-- single.hpp 346-361. -/
def lengthPart (f : Factors) (next route : ℝ) : ℝ :=
  if 0 < route ∧ 0 < next then f.length * (|next - route| * (route / next)) else f.length * |next - route|

/-- single.hpp 348-358: the step is turned into a skip. -/
def detour (next route : ℝ) : Bool := decide (0 < route ∧ 0 < next ∧ 10 < route / next)

/-- single.hpp 383-406. -/
def turnPart (f : Factors) (s : Step) (az : ℝ) : ℝ :=
  match s.turn with
  | some t => f.turn * |Common.angleDiff t.2 (Common.angleDiff t.1 az)|
  | none => 0

/-- single.hpp 363-407. -/
def azimuthPart (f : Factors) (s : Step) : ℝ :=
  match s.routeAzimuth with
  | some az => f.azimuth * |Common.angleDiff (s.trackAzimuth.getD az) az| + turnPart f s az
  | none => 0

/-- single.hpp 409-411. -/
def directionsPart (f : Factors) (s : Step) : ℝ :=
  match s.routeDirections with
  | some a => f.direction * a
  | none => 0

/-- single.hpp 311-412: reward of a step along a valid route. -/
def stepReward (f : Factors) (s : Step) : ℝ :=
  if s.same && s.routeLength.isNone then 0
  else 0 - distancePart f s - lengthPart f (s.trackLength.getD 0) (s.routeLength.getD 0) - azimuthPart f s - directionsPart f s

/-- single.hpp 522-530 `_fail_reward`: length of the rest of the track; `none`: a segment of equal points. -/
def failReward (current : Nat) (lengths : List (Option ℝ)) : ℝ :=
  ((lengths.drop current).filterMap id).foldl (· + ·) 0

/-- single.hpp 436-480: the route before and the route meet; change of direction of the routes and of the points, length of the
part travelled forth and back. -/
def backPart (f : Factors) (directions : Option (ℝ × ℝ)) (back : Option ℝ) : ℝ :=
  (match directions with
    | some d => f.turn * |Common.angleDiff d.1 d.2|
    | none => 0) +
  (match back with
    | some r => f.length * (r * 2)
    | none => 0)

end

end MM.Weights
