import Verif.Model.Pipeline
import Verif.Model.Decide

/-!
# From a track to its match by the decision process

As `Model/Pipeline.lean`, with the decision process (`Model/Decide.lean`) in place of the hidden Markov model.  State size 2, as by
default.  Candidates are those of consecutive points of the track (`adjacent`, single.hpp 312).  Paths are relative to
/repo/src/library/include/.
-/

set_option autoImplicit false

namespace MM.Pipe

open MM.Line MM.Route MM.Router MM.Decide

variable {V P : Type} [DecidableEq V] [DecidableEq P] [Inhabited P]

/-- `candidates[position].edges[action].distance` (environment/environments/single.hpp 281-282, 297-298).  The last case is an
access out of range. -/
noncomputable def Job.dist (j : Job V P ℝ ℝ) (e : Entry) : ℝ :=
  match j.entry e with
  | some c => c.2.dist
  | none => 0

/-- single.hpp 311-411: what the reward depends on, from candidate `g` of the point before `t` to candidate `h` of point `t`. -/
noncomputable def Job.stepOf (j : Job V P ℝ ℝ) (t g h : Nat) : Weights.Step :=
  ⟨j.dist (t, h), j.dist (t - 1, g), decide (j.cands.length ≤ t + 1), (j.legOf t h g).same, (j.legOf t h g).trackLength,
    (j.legOf t h g).routeLength, (j.legOf t h g).routeAzimuth, (j.legOf t h g).trackAzimuth, (j.legOf t h g).turn,
    (j.legOf t h g).routeDirections⟩

/-- single.hpp 522-530: lengths of the segments of the track. -/
def Job.lengths (j : Job V P ℝ ℝ) : List (Option ℝ) := (List.range (j.cands.length - 1)).map fun i => j.segment j.env.G.len (i + 1)

/-- single.hpp 300-412: the verdict on a leg. -/
noncomputable def Job.judge (j : Job V P ℝ ℝ) (f : Weights.Factors) (t g h : Nat) : Env.Judge ℝ :=
  if (j.legOf t h g).invalid then ⟨0 - Weights.failReward (t - 1) j.lengths, true, false, false, true⟩
  else ⟨Weights.stepReward f (j.stepOf t g h), false,
    !((j.legOf t h g).same && (j.legOf t h g).routeLength.isNone) &&
      Weights.detour ((j.legOf t h g).trackLength.getD 0) ((j.legOf t h g).routeLength.getD 0), false, true⟩

/-- single.hpp 97-120, 281-412: the decision process of a track; `skip` is `skip_errors`. -/
noncomputable def Job.task (j : Job V P ℝ ℝ) (f : Weights.Factors) (skip : Bool) : Decide.Task ℝ where
  n := j.cands.length
  edges t := (j.cands.getD t []).length
  skipErrors := skip
  first t g := Weights.firstReward f (decide (t = 0)) (j.dist (t, g))
  leg := j.judge f

/-- matching/matcher.hpp 137-149: the route for a policy, if there is one. -/
noncomputable def Job.routeFor (j : Job V P ℝ ℝ) (policy : Outcome (Option (List Entry))) : Outcome (Option (Route P)) :=
  policy.bind fun
    | none => .ok none
    | some pol => (MatchRoute.candidatesRoute j.setting pol).map some

/-- matching/matcher.hpp 137-149 with learning/algorithms/value_iteration.hpp: discount `γ`, threshold `th`, at most `k` rounds. -/
noncomputable def Job.byValues (j : Job V P ℝ ℝ) (f : Weights.Factors) (skip : Bool) (γ th : ℝ) (k : Nat) : Outcome (Option (Route P)) :=
  j.routeFor ((j.task f skip).byValues γ th k)

/-- matching/matcher.hpp 137-149 with learning/algorithms/policy_iteration.hpp. -/
noncomputable def Job.byPolicies (j : Job V P ℝ ℝ) (f : Weights.Factors) (skip : Bool) (γ th : ℝ) (k : Nat) : Outcome (Option (Route P)) :=
  j.routeFor ((j.task f skip).byPolicies γ th k)

end MM.Pipe
