import Verif.Model.QEnv
import Verif.Model.Tour

/-!
# From a track to its match by Q-learning

Q-learning (`Model/QEnv.lean`) on the decision process of a track (`Model/Tour.lean`), and the route for its policy.  State size 2, as
by default.  Paths are relative to /repo/src/library/include/.
-/

set_option autoImplicit false

namespace MM.Decide

open MM.QLearn (Draw)

variable {R : Type} [CommRing R] [LinearOrder R]

/-- single.hpp 186-217: what a step in the present state is judged by (environment/environments/single.hpp 274-490).  Without a present
state, which does not occur, the verdict does not matter. -/
def Task.verdict (x : Task R) (e : Env.Env R) (a : Nat) : Env.Judge R :=
  match e.states[e.cur]? with
  | some s => x.world s (Env.action2internal a)
  | none => ⟨0, false, false, false, true⟩

/-- learning/algorithms/q_learning.hpp 40-48, 81: the learner on such an environment; the steps of an episode are at most twice as many
as there are candidates. -/
def Task.setup (x : Task R) (sort : List (Nat × R) → List (Nat × R)) (lr γ : R) (episodes stop : Nat) : QEnv.Setup R where
  ec := x.cfg
  J := x.verdict
  sort := sort
  qc := ⟨lr, γ, episodes, stop, 2 * x.n, Env.special⟩

end MM.Decide

namespace MM.Pipe

open MM.Line MM.Route MM.Router
open MM.QLearn (Draw)

variable {V P : Type} [DecidableEq V] [DecidableEq P] [Inhabited P]

/-- matching/matcher.hpp 137-149 with learning/algorithms/q_learning.hpp 50-241: the policy of the learner, then the route for it. -/
noncomputable def Job.byLearning (j : Job V P ℝ ℝ) (f : Weights.Factors) (skip : Bool) (sort : List (Nat × ℝ) → List (Nat × ℝ))
    (lr γ : ℝ) (episodes stop : Nat) (rnd : Nat → Nat → Draw) (aborted : Bool) (abort : Nat → Bool) : Outcome (Route P) :=
  (QEnv.runE ((j.task f skip).setup sort lr γ episodes stop) rnd aborted abort).bind fun x =>
    MatchRoute.candidatesRoute j.setting x.1.1.policy

end MM.Pipe
