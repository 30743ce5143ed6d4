import Verif.Model.Env
import Verif.Model.QLearn

/-!
# Q-learning on the environment itself

`Model/QLearn.lean` has the learner on a fixed process.  Here it runs on the environment of `Model/Env.lean`, which numbers states and
remembers results as it goes, and orders the actions it offers by asking for their rewards first (`intelligent_action`, set at
q_learning.hpp 43).  `J` is the verdict of router and geometry, which may depend on everything that happened; `sort` is `std::sort`
(not stable, so the order of equal rewards is open).  Line numbers without a file are those of learning/algorithms/q_learning.hpp.
-/

set_option autoImplicit false

namespace MM.QEnv

open MM.Env (Judge Res action2internal internal2action noAction)
open MM.Learn (qUpdate)
open MM.QLearn (Draw Table best Extract above scored extracted)
open MM.Router (Entry record)

variable {R : Type} [CommRing R] [LinearOrder R]

/-- single.hpp 251-260: each action is tried, and the state restored. -/
def probe (ec : Env.Cfg) (J : Env.Env R → Nat → Judge R) : Env.Env R → List Nat → Outcome (List (Nat × R) × Env.Env R)
  | e, [] => .ok ([], e)
  | e, a :: as =>
    (Env.step ec e a (J e a)).bind fun x =>
      (probe ec J { x.2 with cur := e.cur } as).map fun y => ((a, x.1.reward) :: y.1, y.2)

/-- single.hpp 158-179 `actions` with 250-271 `_intelligent_actions`: sorted by decreasing reward. -/
def smart (ec : Env.Cfg) (J : Env.Env R → Nat → Judge R) (sort : List (Nat × R) → List (Nat × R)) (e : Env.Env R) :
    Outcome (List Nat × Env.Env R) :=
  match e.states[e.cur]? with
  | none => .ub
  | some s =>
    match s.getLast? with
    | none => .ok ([internal2action noAction], e)
    | some p =>
      if p < ec.n ∧ 0 < ec.edges p.toNat then
        (probe ec J e (List.range' Env.special (ec.edges p.toNat))).map fun x => ((sort x.1).map Prod.fst, x.2)
      else .ok ([internal2action noAction], e)

/-- What a step of the learner needs: the environment's configuration, its verdicts, the sorting (single.hpp 250-271), and the
settings of the learner (`Model/QLearn.lean`; 74, 81). -/
structure Setup (R : Type) where
  ec : Env.Cfg
  J : Env.Env R → Nat → Judge R
  sort : List (Nat × R) → List (Nat × R)
  qc : QLearn.Cfg R

/-- An action, the table and the environment (q_learning.hpp 89-116). -/
structure Pick (R : Type) where
  action : Nat
  table : Table R
  env : Env.Env R

/-- q_learning.hpp 100-116: a random action; an empty row is filled with minus infinity. -/
def randomE (u : Setup R) (q : Table R) (s : Nat) (d : Draw) (e : Env.Env R) : Outcome (Pick R) :=
  (smart u.ec u.J u.sort e).bind fun x =>
    match x.1[min (x.1.length - 1) d.number]? with
    | none => .ub
    | some a => .ok ⟨a, if q s = [] then fun t => if t = s then List.replicate (x.1.length + u.qc.special) none else q t else q, x.2⟩

/-- q_learning.hpp 89-116: the action of a step. -/
def chooseE (u : Setup R) (q : Table R) (s : Nat) (d : Draw) (e : Env.Env R) : Outcome (Pick R) :=
  if d.greedy then
    match best (q s) with
    | some a => .ok ⟨a, q, e⟩
    | none => randomE u q s d e
  else randomE u q s d e

/-- q_learning.hpp 84-154: the rest of an episode, with `k` steps left; the table, the score and the environment. -/
def trainE (u : Setup R) (rnd : Nat → Draw) : Nat → Nat → Table R → R → Env.Env R → Outcome ((Table R × R) × Env.Env R)
  | 0, _, q, score, e => .ok ((q, score), e)
  | k + 1, s, q, score, e =>
    (chooseE u q s (rnd k) e).bind fun r =>
      (Env.step u.ec r.env r.action (u.J r.env r.action)).bind fun x =>
        if x.1.done then
          .ok ((qUpdate u.qc.lr u.qc.discount r.table s r.action x.1.state x.1.reward, score + x.1.reward), x.2)
        else trainE u rnd k x.1.state (qUpdate u.qc.lr u.qc.discount r.table s r.action x.1.state x.1.reward) (score + x.1.reward) x.2

/-- q_learning.hpp 211-217: what is written to the policy for a step taken in the state with the number `s`; `none` without an edge. -/
def moveE (e : Env.Env R) (s : Nat) (r : Res R) : Outcome (Option Entry) :=
  match e.states[s]? with
  | none => .ub
  | some t =>
    match t.getLast? with
    | none => .ub
    | some b => .ok (if 0 ≤ action2internal r.action then some (b.toNat, (action2internal r.action).toNat) else none)

/-- q_learning.hpp 183-223: following the best estimates, with `k` steps left. -/
def extractE (u : Setup R) (q : Table R) : Nat → Nat → List Entry → R → Env.Env R → Outcome (Extract R × Env.Env R)
  | 0, _, pol, score, e => .ok (⟨pol, some score⟩, e)
  | k + 1, s, pol, score, e =>
    match best (q s) with
    | none => .ok (⟨pol, none⟩, e)
    | some a =>
      (Env.step u.ec e a (u.J e a)).bind fun x =>
        (moveE x.2 e.cur x.1).bind fun m =>
          if x.1.done then .ok (⟨record pol m, some (score + x.1.reward)⟩, x.2)
          else extractE u q k x.1.state (record pol m) (score + x.1.reward) x.2

/-- q_learning.hpp 225-234: what an extraction means for the training; the flag says that it breaks off. -/
def verdict (stop : Nat) (abort : Bool) (st : QLearn.St R) (x : Extract R) : QLearn.St R × Bool :=
  if above x.score st.best then
    ({ extracted st x with best := x.score, noImprovement := 0, scores := st.scores ++ x.score.toList }, false)
  else (extracted st x, decide (stop ≤ (extracted st x).noImprovement) || abort)

/-- q_learning.hpp 166-234: after an episode. -/
def judgeE (u : Setup R) (abort : Bool) (st : QLearn.St R) (e : Env.Env R) : Outcome ((QLearn.St R × Bool) × Env.Env R) :=
  if u.qc.stop ≤ st.noImprovement ∨ abort = true then
    (extractE u st.table u.qc.maxSteps (Env.reset u.ec e).cur [] 0 (Env.reset u.ec e)).map fun x =>
      (verdict u.qc.stop abort st x.1, x.2)
  else .ok ((st, false), e)

/-- q_learning.hpp 77-238: the episodes, `k` left; the flag says whether training was broken off before they ran out. -/
def episodesE (u : Setup R) (rnd : Nat → Nat → Draw) (abort : Nat → Bool) :
    Nat → QLearn.St R → Env.Env R → Outcome ((QLearn.St R × Bool) × Env.Env R)
  | 0, st, e => .ok ((st, false), e)
  | k + 1, st, e =>
    (trainE u (rnd k) u.qc.maxSteps (Env.reset u.ec e).cur st.table 0 (Env.reset u.ec e)).bind fun r =>
      (judgeE u (abort k) (scored st r.1.1 r.1.2) r.2).bind fun x =>
        if x.1.2 then .ok ((x.1.1, true), x.2) else episodesE u rnd abort k x.1.1 x.2

/-- q_learning.hpp 50-241; `aborted`: the time is up after `init` (58-62).  The code returns the policy. -/
def runE (u : Setup R) (rnd : Nat → Nat → Draw) (aborted : Bool) (abort : Nat → Bool) : Outcome ((QLearn.St R × Bool) × Env.Env R) :=
  if aborted then .ok ((QLearn.St.init, false), Env.Env.init)
  else episodesE u rnd abort u.qc.episodes QLearn.St.init Env.Env.init

end MM.QEnv
