import Verif.Model.Recorded
import Verif.Model.QMatch

/-!
# From recorded parts of a track to one match, by the learners of the decision process

As `Model/Recorded.lean`, with `environment/environments/single.hpp` and `learning/algorithms/{value_iteration, policy_iteration,
q_learning}.hpp` (paths relative to /repo/src/library/include/).  Candidates are searched by the learner (`init`), not by `set`.
-/

set_option autoImplicit false

namespace MM.Pipe

open MM.Line MM.Route MM.Router MM.CandEdge MM.Matcher
open MM.QLearn (Draw)

/-- Candidates of all points of a track (matching/types/candidate.hpp, see `Job`). -/
abbrev Cands (P : Type) := List (List (Nat × CandEdge.Cand P ℝ))

/-- matching/matcher.hpp 203-232, matching/settings.hpp 58-74: the learner and its settings.  `pauses` is how often it asks whether the
time is up after the candidates were searched (value_iteration.hpp 84, 109, 118, 168, policy_iteration.hpp 85, 104, 114, 182, 229); it is
left open and may depend on the candidates.  `sort` is how rewards are sorted (single.hpp 267), `stop` the number of attempts
without improvement for a number of edges (q_learning.hpp 75). -/
inductive Method (P : Type) where
  /-- learning/algorithms/value_iteration.hpp -/
  | values (γ th : ℝ) (pauses : Cands P → Nat)
  /-- learning/algorithms/policy_iteration.hpp -/
  | policies (γ th : ℝ) (pauses : Cands P → Nat)
  /-- learning/algorithms/q_learning.hpp -/
  | learning (sort : List (Nat × ℝ) → List (Nat × ℝ)) (lr γ : ℝ) (episodes : Nat) (stop : Nat → Nat)

variable {V P : Type} [DecidableEq V] [DecidableEq P] [Inhabited P]

/-- single.hpp 97-121 `set`: it asks after the first two steps of the preparation (104, 112). -/
noncomputable def Rig.setBy (w : Rig V P ℝ ℝ) (t : List P) : Asks (Outcome (List P)) :=
  stage (w.prep.first t) fun a => waits (.ok a) (if w.prep.filter then 1 else 0) <|
    stage (w.prep.second a) fun b => waits (.ok b) (if w.prep.simplify then 1 else 0) <| .done (w.prep.third b)

/-- q_learning.hpp 77-238: the episodes, `k` left; it asks after each (168). -/
noncomputable def episodesAsk (u : QEnv.Setup ℝ) (rnd : Nat → Nat → Draw) :
    Nat → QLearn.St ℝ → Env.Env ℝ → Asks (Outcome ((QLearn.St ℝ × Bool) × Env.Env ℝ))
  | 0, st, e => .done (.ok ((st, false), e))
  | k + 1, st, e =>
    stage (QEnv.trainE u (rnd k) u.qc.maxSteps (Env.reset u.ec e).cur st.table 0 (Env.reset u.ec e)) fun r =>
      .ask fun b => stage (QEnv.judgeE u b (QLearn.scored st r.1.1 r.1.2) r.2) fun x =>
        if x.1.2 then .done (.ok ((x.1.1, true), x.2)) else episodesAsk u rnd k x.1.1 x.2

/-- A learner that is still running when its rounds are used up counts as undefined (value_iteration.hpp 131, policy_iteration.hpp 141). -/
def ended (o : Outcome (Option (List Entry))) : Outcome (List Entry) :=
  o.bind fun p => match p with
    | some pol => .ok pol
    | none => .ub

/-- single.hpp 137-143 `edges`. -/
def edgeCount (cs : Cands P) : Nat := (cs.map List.length).sum

/-- What an environment and its learner hold at the end (single.hpp 570-577, matcher.hpp 136): candidates and policy; or the exception
they left with. -/
abbrev Learned (P : Type) := Outcome (Cands P × List Entry)

/-- q_learning.hpp 240: the policy is returned. -/
def returned (cs : Cands P) : Asks (Outcome ((QLearn.St ℝ × Bool) × Env.Env ℝ)) → Asks (Learned P)
  | .done o => .done (o.map fun x => (cs, x.1.1.policy))
  | .ask next => .ask fun b => returned cs (next b)

/-- value_iteration.hpp 107-251, policy_iteration.hpp 102-278, q_learning.hpp 60-241: the learner once the candidates are there.  Value
iteration and policy iteration give up with an empty policy, Q-learning with the best policy so far. -/
noncomputable def Rig.train (w : Rig V P ℝ ℝ) (m : Method P) (skip : Bool) (rnd : Nat → Nat → Draw) (l : List P) (cs : Cands P) :
    Asks (Learned P) :=
  match m with
  | .values γ th pauses => waits (.ok (cs, [])) (pauses cs)
      (.done ((ended (((w.job l cs).task w.factors skip).byValues γ th w.fuel)).map fun p => (cs, p)))
  | .policies γ th pauses => waits (.ok (cs, [])) (pauses cs)
      (.done ((ended (((w.job l cs).task w.factors skip).byPolicies γ th w.fuel)).map fun p => (cs, p)))
  | .learning sort lr γ episodes stop =>
    returned cs (episodesAsk (((w.job l cs).task w.factors skip).setup sort lr γ episodes (stop (edgeCount cs))) rnd episodes
      QLearn.St.init Env.Env.init)

/-- single.hpp 147-156 `init` and the question after it (value_iteration.hpp 105-111, policy_iteration.hpp 100-106, q_learning.hpp 58-62),
then the learner.  The search for candidates asks for each point (candidate_search.hpp 67) and during adoption (`Rig.pauses`).  (The learner does not run after an exception.) -/
noncomputable def Rig.learnBy (w : Rig V P ℝ ℝ) (m : Method P) (skip : Bool) :
    (Nat → Nat → Draw) × Outcome (List P) → Asks (Learned P)
  | (rnd, .ok l) => waits (.ok ([], [])) l.length <|
      stage (w.sought l) fun cs => waits (.ok ([], [])) (w.pauses cs.length) <| waits (.ok (cs, [])) 1 (w.train m skip rnd l cs)
  | _ => .done (.ok ([], []))

/-- single.hpp 219-224 `result`.  (Exceptions leave the match; the other cases are not reached then.) -/
noncomputable def Rig.resultBy (w : Rig V P ℝ ℝ) (s : (Nat → Nat → Draw) × Outcome (List P)) (p : Learned P) : Route P :=
  match s.2, p with
  | .ok l, .ok (cs, pol) =>
    match MatchRoute.candidatesRoute (w.job l cs).setting pol with
    | .ok r => r
    | _ => Route.bad
  | _, _ => Route.bad

/-- A computation with a fixed companion (q_learning.hpp 39-44: the random numbers belong to the learner of the part). -/
def paired {α β : Type} (b : β) : Asks α → Asks (β × α)
  | .done a => .done (b, a)
  | .ask next => .ask fun x => paired b (next x)

/-- matcher.hpp 203-232, 103-162 with a learner of the decision process.  A part comes with the numbers that will be drawn for it
(q_learning.hpp 91, 111, 114). -/
noncomputable def Rig.engineBy (w : Rig V P ℝ ℝ) (m : Method P) (skip : Bool) :
    Engine (List P × (Nat → Nat → Draw)) ((Nat → Nat → Draw) × Outcome (List P)) (Learned P) P where
  set t := paired t.2 (w.setBy t.1)
  learn := w.learnBy m skip
  empty := .ok ([], [])
  result := w.resultBy

end MM.Pipe
