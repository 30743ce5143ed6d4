import Verif.Model.Env
import Verif.Model.Learn
import Verif.Model.Router

/-!
# Learners at work on the environment

`Model/Learn.lean` models value iteration and policy iteration on a fixed process and `Model/Env.lean` the environment with its
tables.  Here the learners are programs that call the environment, which numbers states and remembers results as it is called,
and that keep values and policies in vectors; an access behind the end of a vector is undefined behaviour.  Paths are relative
to /repo/src/library/include/.  Not modelled: `abort` (time limits), `intelligent_action` (only q_learning.hpp switches it on),
`trained` (value_iteration.hpp 103: true after the first sweep, since `actions` is never empty).
-/

set_option autoImplicit false

namespace MM.Decide

open MM.Env MM.Learn MM.Router

/-- What router and geometry find out about an action in an internal state (environment/environments/single.hpp 274-490). -/
abbrev World (R : Type) := St → Int → Judge R

variable {R : Type} [CommRing R] [LinearOrder R]

/-- single.hpp 186-217 `step`, with the verdict that the world gives. -/
def act (c : Cfg) (w : World R) (e : Env R) (a : Nat) : Outcome (Res R × Env R) :=
  match e.states[e.cur]? with
  | none => .ub
  | some s => step c e a (w s (action2internal a))

/-- Assignment `_environment.state = state` (learning/algorithms/value_iteration.hpp 63, 83, 137, 160). -/
def at_ (e : Env R) (s : Nat) : Env R := { e with cur := s }

/-! ### Generating the states -/

/-- value_iteration.hpp 48-56: states, states to visit, highest state, environment. -/
structure Gen (R : Type) where
  states : List Nat
  queue : List Nat
  highest : Nat
  env : Env R

/-- value_iteration.hpp 72-83: what is done with the result of a step; `states_visited` has the members of `states`. -/
def seen (s : Nat) (g : Gen R) (r : Res R × Env R) : Gen R where
  states := if r.1.done = false ∧ r.1.state ∉ g.states then g.states ++ [r.1.state] else g.states
  queue := if r.1.done = false ∧ r.1.state ∉ g.states then g.queue ++ [r.1.state] else g.queue
  highest := if g.highest < r.1.state then r.1.state else g.highest
  env := at_ r.2 s

/-- value_iteration.hpp 67-88: the loop over the actions of a state. -/
def look (c : Cfg) (w : World R) (s : Nat) : List Nat → Gen R → Outcome (Gen R)
  | [], g => .ok g
  | a :: as, g => (act c w g.env a).bind fun r => look c w s as (seen s g r)

/-- value_iteration.hpp 59-97 (policy_iteration.hpp 59-91): the loop over the states to visit; `none` if the given number of
rounds does not suffice. -/
def explore (c : Cfg) (w : World R) : Nat → Gen R → Outcome (Option (Gen R))
  | 0, _ => .ok none
  | k + 1, g =>
    match g.queue with
    | [] => .ok (some g)
    | s :: q => (actions c (at_ g.env s)).bind fun as =>
        (look c w s as { g with queue := q, env := at_ g.env s }).bind (explore c w k)

/-- value_iteration.hpp 48-57: the first state. -/
def begin (c : Cfg) : Gen R :=
  ⟨[(reset c (Env.init : Env R)).cur], [(reset c (Env.init : Env R)).cur], (reset c (Env.init : Env R)).cur, reset c Env.init⟩

/-! ### Values -/

/-- value_iteration.hpp 150-153: value of a result. -/
def value (γ : R) (V : List R) (r : Res R) : Outcome R :=
  if r.done then .ok r.reward
  else match V[r.state]? with
    | some v => .ok (r.reward + γ * v)
    | none => .ub

/-- value_iteration.hpp 155-157, 206-209: the first best so far. -/
def better (acc : Option (Nat × R)) (a : Nat) (x : R) : Option (Nat × R) :=
  match acc with
  | none => some (a, x)
  | some (b, m) => if m < x then some (a, x) else some (b, m)

/-- value_iteration.hpp 144-160, 197-212: the best action of a state. -/
def choose (c : Cfg) (w : World R) (γ : R) (V : List R) (s : Nat) :
    List Nat → Option (Nat × R) → Env R → Outcome (Option (Nat × R) × Env R)
  | [], acc, e => .ok (acc, e)
  | a :: as, acc, e => (act c w e a).bind fun r => (value γ V r.1).bind fun x =>
      choose c w γ V s as (better acc a x) (at_ r.2 s)

/-- Values, their sum, and the environment (value_iteration.hpp 113, 128, 131-134). -/
abbrev Vals (R : Type) := List R × R × Env R

/-- value_iteration.hpp 135-171: one sweep. -/
def sweep (c : Cfg) (w : World R) (γ : R) : List Nat → Vals R → Outcome (Vals R)
  | [], x => .ok x
  | s :: ss, x => (actions c (at_ x.2.2 s)).bind fun as =>
      (choose c w γ x.1 s as none (at_ x.2.2 s)).bind fun b =>
        match b.1 with
        | none => sweep c w γ ss (x.1, x.2.1, b.2)
        | some m => if s < x.1.length then sweep c w γ ss (x.1.set s m.2, x.2.1 + m.2, b.2) else .ub

/-- value_iteration.hpp 131-181 (policy_iteration.hpp 146-185): sweeps until the smallest change of the sum is within the
threshold. -/
def iterate (f : Vals R → Outcome (Vals R)) (th : R) : Nat → List R → R → Option R → Env R → Outcome (Option (List R × Env R))
  | 0, _, _, _, _ => .ok none
  | k + 1, V, v, delta, e =>
    if settled th delta then .ok (some (V, e))
    else (f (V, 0, e)).bind fun x => iterate f th k x.1 x.2.1 (some (smaller |x.2.1 - v| delta)) x.2.2

/-! ### The policy -/

/-- value_iteration.hpp 225-232: what is noted for a step that was taken in the state `s`. -/
def noted (e : Env R) (s : Nat) (r : Res R) (pol : List Entry) : Outcome (List Entry) :=
  match e.states[s]?.bind List.getLast? with
  | some p => .ok (record pol (if 0 ≤ action2internal r.action then some (p.toNat, (action2internal r.action).toNat) else none))
  | none => .ub

/-- value_iteration.hpp 191-243: following the best actions. -/
def follow (c : Cfg) (w : World R) (γ : R) (V : List R) : Nat → List Entry → Env R → Outcome (Option (List Entry))
  | 0, _, _ => .ok none
  | k + 1, pol, e => (actions c e).bind fun as => (choose c w γ V e.cur as none e).bind fun b =>
      match b.1 with
      | none => .ok (some pol)
      | some m => (act c w b.2 m.1).bind fun r => (noted r.2 e.cur r.1 pol).bind fun pol' =>
          if r.1.done then .ok (some pol') else follow c w γ V k pol' r.2

/-- value_iteration.hpp 99-251 with `k` rounds allowed in each loop. -/
def valueIteration (c : Cfg) (w : World R) (γ th : R) (k : Nat) : Outcome (Option (List Entry)) :=
  (explore c w k (begin c)).bind fun
    | none => .ok none
    | some g => (iterate (sweep c w γ g.states.reverse) th k (List.replicate (g.highest + 1) 0) 0 none g.env).bind fun
      | none => .ok none
      | some x => follow c w γ x.1 k [] (reset c x.2)

/-! ### Policy iteration -/

/-- learning/algorithms/policy_iteration.hpp 128-137: the first policy. -/
def initial (c : Cfg) : List Nat → List Nat × Env R → Outcome (List Nat × Env R)
  | [], x => .ok x
  | s :: ss, x => (actions c (at_ x.2 s)).bind fun
      | [] => initial c ss (x.1, at_ x.2 s)
      | a :: _ => if s < x.1.length then initial c ss (x.1.set s a, at_ x.2 s) else .ub

/-- policy_iteration.hpp 150-171: one sweep of the evaluation. -/
def evaluate (c : Cfg) (w : World R) (γ : R) (pol : List Nat) : List Nat → Vals R → Outcome (Vals R)
  | [], x => .ok x
  | s :: ss, x =>
    match pol[s]? with
    | none => .ub
    | some a => (act c w (at_ x.2.2 s) a).bind fun r => (value γ x.1 r.1).bind fun v =>
        if s < x.1.length then evaluate c w γ pol ss (x.1.set s v, x.2.1 + v, at_ r.2 s) else .ub

/-- Policy, whether nothing changed, and the environment (policy_iteration.hpp 99, 114, 188). -/
abbrev Pols (R : Type) := List Nat × Bool × Env R

/-- policy_iteration.hpp 190-232: improvement of the policy. -/
def improve (c : Cfg) (w : World R) (γ : R) (V : List R) : List Nat → Pols R → Outcome (Pols R)
  | [], x => .ok x
  | s :: ss, x =>
    match x.1[s]? with
    | none => .ub
    | some old => (actions c (at_ x.2.2 s)).bind fun as => (choose c w γ V s as none (at_ x.2.2 s)).bind fun b =>
        match b.1 with
        | none => improve c w γ V ss (x.1, x.2.1, b.2)
        | some m => improve c w γ V ss (x.1.set s m.1, x.2.1 && decide (m.1 = old), b.2)

/-- policy_iteration.hpp 141-233: evaluation and improvement until nothing changes. -/
def rounds (c : Cfg) (w : World R) (γ th : R) (states : List Nat) (evals : Nat) :
    Nat → List R → List Nat → Env R → Outcome (Option (List Nat × Env R))
  | 0, _, _, _ => .ok none
  | k + 1, V, pol, e => (iterate (evaluate c w γ pol states.reverse) th evals V 0 none e).bind fun
      | none => .ok none
      | some x => (improve c w γ x.1 states.reverse (pol, true, x.2)).bind fun y =>
          if y.2.1 then .ok (some (y.1, y.2.2)) else rounds c w γ th states evals k x.1 y.1 y.2.2

/-- policy_iteration.hpp 242-273: following the policy. -/
def obey (c : Cfg) (w : World R) (policy : List Nat) : Nat → List Entry → Env R → Outcome (Option (List Entry))
  | 0, _, _ => .ok none
  | k + 1, pol, e => (actions c e).bind fun as =>
      if as.isEmpty then .ok (some pol)
      else match policy[e.cur]? with
        | none => .ub
        | some a => (act c w e a).bind fun r => (noted r.2 e.cur r.1 pol).bind fun pol' =>
            if r.1.done then .ok (some pol') else obey c w policy k pol' r.2

/-- policy_iteration.hpp 93-278 with `k` rounds allowed in each loop. -/
def policyIteration (c : Cfg) (w : World R) (γ th : R) (k : Nat) : Outcome (Option (List Entry)) :=
  (explore c w k (begin c)).bind fun
    | none => .ok none
    | some g => (initial c g.states.reverse (List.replicate (g.highest + 1) 0, g.env)).bind fun x =>
        (rounds c w γ th g.states k k (List.replicate (g.highest + 1) 0) x.1 x.2).bind fun
          | none => .ok none
          | some y => obey c w y.1 k [] (reset c y.2)

/-! ### States of the default size -/

/-- What an environment works with that remembers one point besides the next one (`state_size` 2, matching/settings.hpp 63-74):
number of points, of candidates of each point, `skip_errors`, the reward of the first choice (single.hpp 281-291) and the verdict
on the leg from a candidate of the point before to a candidate of a point (293-410). -/
structure Task (R : Type) where
  n : Nat
  edges : Nat → Nat
  skipErrors : Bool
  first : Nat → Nat → R
  leg : Nat → Nat → Nat → Judge R

variable {R : Type} [CommRing R] [LinearOrder R]

/-- single.hpp 97-120, 152-170. -/
def Task.cfg (x : Task R) : Cfg := ⟨x.n, x.edges, 2, x.skipErrors⟩

/-- single.hpp 281-298: the first point, or the point with the previous candidate. -/
def Task.world (x : Task R) : World R
  | [t], a => ⟨x.first t.toNat a.toNat, false, false, false, true⟩
  | [_, g, t], a => x.leg t.toNat g.toNat a.toNat
  | _, _ => ⟨0, false, false, false, true⟩

/-- value_iteration.hpp 99-251 on such an environment. -/
def Task.byValues (x : Task R) (γ th : R) (k : Nat) : Outcome (Option (List Entry)) := valueIteration x.cfg x.world γ th k

/-- policy_iteration.hpp 93-278 on such an environment. -/
def Task.byPolicies (x : Task R) (γ th : R) (k : Nat) : Outcome (Option (List Entry)) := policyIteration x.cfg x.world γ th k

end MM.Decide
