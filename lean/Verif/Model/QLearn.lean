import Verif.Model.Learn
import Verif.Model.Router
import Verif.Model.Outcome

/-!
# Training and policy of Q-learning (learning/algorithms/q_learning.hpp)

The environment is a fixed process: every step is memoised by it (`MM.Env.step_reproducible`).  Random draws and the answers of the
clock are inputs.  A row beyond the table counts as empty, which is how the code treats it (85-87, 136, 184).  Scores and estimates are
exact numbers; `none` is minus infinity.
-/

set_option autoImplicit false

namespace MM.QLearn

open MM.Learn (qUpdate)
open MM.Router (Entry record)

variable {R : Type} [CommRing R] [LinearOrder R]

/-- What the learner sees (environment/environments/single.hpp 158-217): offered actions, result of a step, and what is written to the
policy for it (q_learning.hpp 211-217: candidate of the state and edge of the action returned, `none` without edge). -/
structure Proc (R : Type) where
  actions : Nat → List Nat
  next : Nat → Nat → Nat
  reward : Nat → Nat → R
  done : Nat → Nat → Bool
  move : Nat → Nat → Option Entry

/-- matching/settings.hpp 62, 72-73, `improvement_stop` (q_learning.hpp 74) and `max_steps` (81); `special` is `special_actions`. -/
structure Cfg (R : Type) where
  lr : R
  discount : R
  episodes : Nat
  stop : Nat
  maxSteps : Nat
  special : Nat

/-- Draws of a step (q_learning.hpp 91, 109-115): whether the best known action is asked for, and the number drawn. -/
structure Draw where
  greedy : Bool
  number : Nat

/-- The estimates (q_learning.hpp 64). -/
abbrev Table (R : Type) := Nat → List (Option R)

/-- `std::max_element` of a row (q_learning.hpp 94, 192) unless it is minus infinity: the first greatest. -/
def bestFrom : List (Option R) → Nat → Option (Nat × R) → Option (Nat × R)
  | [], _, acc => acc
  | none :: row, i, acc => bestFrom row (i + 1) acc
  | some x :: row, i, none => bestFrom row (i + 1) (some (i, x))
  | some x :: row, i, some (j, y) => bestFrom row (i + 1) (if y < x then some (i, x) else some (j, y))

/-- q_learning.hpp 93-98, 191-199. -/
def best (row : List (Option R)) : Option Nat := (bestFrom row 0 none).map Prod.fst

/-- q_learning.hpp 100-116: a random action (with `intelligent_action`, which the constructor sets at 43); an empty row is filled with minus infinity. -/
def randomAction (p : Proc R) (c : Cfg R) (q : Table R) (s : Nat) (d : Draw) : Outcome (Nat × Table R) :=
  match (p.actions s)[min ((p.actions s).length - 1) d.number]? with
  | none => .ub
  | some a => .ok (a, if q s = [] then fun t => if t = s then List.replicate ((p.actions s).length + c.special) none else q t else q)

/-- q_learning.hpp 89-116: the action of a step. -/
def choose (p : Proc R) (c : Cfg R) (q : Table R) (s : Nat) (d : Draw) : Outcome (Nat × Table R) :=
  if d.greedy then
    match best (q s) with
    | some a => .ok (a, q)
    | none => randomAction p c q s d
  else randomAction p c q s d

/-- q_learning.hpp 84-154: the rest of an episode, with `k` steps left; the table and the score. -/
def train (p : Proc R) (c : Cfg R) (rnd : Nat → Draw) : Nat → Nat → Table R → R → Outcome (Table R × R)
  | 0, _, q, score => .ok (q, score)
  | k + 1, s, q, score =>
    (choose p c q s (rnd k)).bind fun r =>
      if p.done s r.1 then .ok (qUpdate c.lr c.discount r.2 s r.1 (p.next s r.1) (p.reward s r.1), score + p.reward s r.1)
      else train p c rnd k (p.next s r.1) (qUpdate c.lr c.discount r.2 s r.1 (p.next s r.1) (p.reward s r.1)) (score + p.reward s r.1)

/-- What an extraction gives (q_learning.hpp 176-223): the policy, and the score, `none` if a point never visited was reached. -/
structure Extract (R : Type) where
  policy : List Entry
  score : Option R

/-- q_learning.hpp 183-223: following the best estimates, with `k` steps left. -/
def extract (p : Proc R) (q : Table R) : Nat → Nat → List Entry → R → Extract R
  | 0, _, pol, score => ⟨pol, some score⟩
  | k + 1, s, pol, score =>
    match best (q s) with
    | none => ⟨pol, none⟩
    | some a =>
      if p.done s a then ⟨record pol (p.move s a), some (score + p.reward s a)⟩
      else extract p q k (p.next s a) (record pol (p.move s a)) (score + p.reward s a)

/-- State between episodes (q_learning.hpp 53, 64-75); `scores`, the sums of the episodes and of better
policies so far, are only for statements. -/
structure St (R : Type) where
  table : Table R
  policy : List Entry
  best : Option R
  noImprovement : Nat
  scores : List R

/-- Comparison with minus infinity (q_learning.hpp 157, 227). -/
def above (x : Option R) (y : Option R) : Bool :=
  match x, y with
  | none, _ => false
  | some _, none => true
  | some a, some b => decide (b < a)

/-- q_learning.hpp 156-162: marking the best score. -/
def scored (st : St R) (q : Table R) (score : R) : St R :=
  if above (some score) st.best then { st with table := q, best := some score, noImprovement := 0, scores := st.scores ++ [score] }
  else { st with table := q, noImprovement := st.noImprovement + 1, scores := st.scores ++ [score] }

/-- q_learning.hpp 184-198: reaching a point never visited resets the counter. -/
def extracted (st : St R) (x : Extract R) : St R :=
  { st with policy := x.policy, noImprovement := if x.score = none then 0 else st.noImprovement }

/-- q_learning.hpp 166-234: after an episode; the flag says that training breaks off. -/
def judge (p : Proc R) (c : Cfg R) (start : Nat) (abort : Bool) (st : St R) : St R × Bool :=
  if c.stop ≤ st.noImprovement ∨ abort = true then
    if above (extract p st.table c.maxSteps start [] 0).score st.best then
      ({ extracted st (extract p st.table c.maxSteps start [] 0) with
        best := (extract p st.table c.maxSteps start [] 0).score, noImprovement := 0,
        scores := st.scores ++ (extract p st.table c.maxSteps start [] 0).score.toList }, false)
    else (extracted st (extract p st.table c.maxSteps start [] 0),
      decide (c.stop ≤ (extracted st (extract p st.table c.maxSteps start [] 0)).noImprovement) || abort)
  else (st, false)

/-- q_learning.hpp 77-238: the episodes, `k` left; the flag says whether training was broken off before they ran out. -/
def episodes (p : Proc R) (c : Cfg R) (start : Nat) (rnd : Nat → Nat → Draw) (abort : Nat → Bool) : Nat → St R → Outcome (St R × Bool)
  | 0, st => .ok (st, false)
  | k + 1, st =>
    (train p c (rnd k) c.maxSteps start st.table 0).bind fun r =>
      if (judge p c start (abort k) (scored st r.1 r.2)).2 then .ok ((judge p c start (abort k) (scored st r.1 r.2)).1, true)
      else episodes p c start rnd abort k (judge p c start (abort k) (scored st r.1 r.2)).1

/-- Before the first episode (q_learning.hpp 53, 64-75). -/
def St.init : St R := ⟨fun _ => [], [], none, 0, []⟩

/-- q_learning.hpp 50-241; `aborted`: the time is up after `init` (58-62).  The code returns the policy. -/
def run (p : Proc R) (c : Cfg R) (start : Nat) (rnd : Nat → Nat → Draw) (aborted : Bool) (abort : Nat → Bool) : Outcome (St R × Bool) :=
  if aborted then .ok (St.init, false) else episodes p c start rnd abort c.episodes St.init

end MM.QLearn
