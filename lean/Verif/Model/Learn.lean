import Mathlib.Algebra.Order.Ring.Defs
import Mathlib.Algebra.Order.Group.Abs

/-!
# Value iteration, policy iteration and the Q-learning update

Model of `src/library/include/learning/algorithms/{value_iteration,policy_iteration,q_learning}.hpp`.  After
`generate_states` every offered step of every listed state is memoised by the environment (`MM.Env.step_reproducible`),
so the learners work on a fixed deterministic process (`Proc`).  Numbers are exact (an ordered commutative ring).
Aborts by the time limit are not modelled here.
-/

set_option autoImplicit false

namespace MM.Learn

/-- The decision process as learners see it (`actions`, `step` of environment/environments/single.hpp 158-217). -/
structure Proc (R : Type) where
  actions : Nat → List Nat
  next : Nat → Nat → Nat
  reward : Nat → Nat → R
  done : Nat → Nat → Bool

variable {R : Type} [CommRing R] [LinearOrder R]

/-! ### Generating the states -/

/-- value_iteration.hpp 67-87 (policy_iteration.hpp 67-83): the successors of a state.  The set of visited states and
the list of states always have the same members. -/
def visit (p : Proc R) (s : Nat) : List Nat → List Nat × List Nat → List Nat × List Nat
  | [], acc => acc
  | a :: as, (states, queue) =>
    if p.done s a = false ∧ p.next s a ∉ states then
      visit p s as (states ++ [p.next s a], queue ++ [p.next s a])
    else visit p s as (states, queue)

/-- value_iteration.hpp 59-93: the loop; `none` if the given number of rounds does not suffice. -/
def genLoop (p : Proc R) : Nat → List Nat → List Nat → Option (List Nat)
  | 0, _, _ => none
  | _ + 1, states, [] => some states
  | k + 1, states, s :: queue =>
    genLoop p k (visit p s (p.actions s) (states, queue)).1 (visit p s (p.actions s) (states, queue)).2

/-- value_iteration.hpp 48-97 `generate_states`. -/
def generate (p : Proc R) (k start : Nat) : Option (List Nat) := genLoop p k [start] [start]

/-! ### Values -/

/-- value_iteration.hpp 150-153: value of an action. -/
def qval (p : Proc R) (γ : R) (V : Nat → R) (s a : Nat) : R :=
  if p.done s a then p.reward s a else p.reward s a + γ * V (p.next s a)

/-- value_iteration.hpp 142-160, 195-215: first action with the largest value (`lowest()` as nothing yet). -/
def pickFrom (f : Nat → R) (acc : Option (Nat × R)) : List Nat → Option (Nat × R)
  | [] => acc
  | a :: as =>
    pickFrom f (match acc with
      | none => some (a, f a)
      | some (b, m) => if m < f a then some (a, f a) else some (b, m)) as

/-- value_iteration.hpp 142-160. -/
def pick (f : Nat → R) (as : List Nat) : Option (Nat × R) := pickFrom f none as

/-- Assignment `V[state] = x` (value_iteration.hpp 162). -/
def upd (V : Nat → R) (s : Nat) (x : R) : Nat → R := fun t => if t = s then x else V t

/-- value_iteration.hpp 135-171: one sweep over the states in the given (reversed) order, with the sum of the values. -/
def viSweep (p : Proc R) (γ : R) : List Nat → (Nat → R) × R → (Nat → R) × R
  | [], acc => acc
  | s :: ss, (V, sum) =>
    match pick (qval p γ V s) (p.actions s) with
    | none => viSweep p γ ss (V, sum)
    | some (_, m) => viSweep p γ ss (upd V s m, sum + m)

/-- value_iteration.hpp 131: the loop ends when delta is not above the threshold (`none` is infinity). -/
def settled (th : R) : Option R → Bool
  | none => false
  | some d => !decide (th < d)

/-- value_iteration.hpp 173-176: the smallest change seen. -/
def smaller (x : R) : Option R → R
  | none => x
  | some d => if x < d then x else d

/-- value_iteration.hpp 131-181 (policy_iteration.hpp 146-185): sweep until the smallest change of the sum seen is
within the threshold; `none` if the given number of sweeps does not suffice. -/
def untilSmall (sweep : (Nat → R) → (Nat → R) × R) (th : R) : Nat → (Nat → R) → R → Option R → Option (Nat → R)
  | 0, _, _, _ => none
  | k + 1, V, value, delta =>
    if settled th delta then some V
    else untilSmall sweep th k (sweep V).1 (sweep V).2 (some (smaller |(sweep V).2 - value| delta))

/-- value_iteration.hpp 183-243: following the best actions from the start; the states with the actions taken. -/
def viExtract (p : Proc R) (γ : R) (V : Nat → R) : Nat → Nat → Option (List (Nat × Nat))
  | 0, _ => none
  | k + 1, s =>
    match pick (qval p γ V s) (p.actions s) with
    | none => some []
    | some (a, _) => if p.done s a then some [(s, a)] else (viExtract p γ V k (p.next s a)).map ((s, a) :: ·)

/-- value_iteration.hpp 99-251 with `k` rounds allowed in each loop. -/
def valueIteration (p : Proc R) (γ th : R) (k start : Nat) : Option (List (Nat × Nat)) :=
  (generate p k start).bind fun states =>
  (untilSmall (fun V => viSweep p γ states.reverse (V, 0)) th k (fun _ => 0) 0 none).bind fun V =>
  viExtract p γ V k start

/-! ### Policy iteration -/

/-- policy_iteration.hpp 150-171: one sweep of the evaluation. -/
def piSweep (p : Proc R) (γ : R) (pol : Nat → Nat) : List Nat → (Nat → R) × R → (Nat → R) × R
  | [], acc => acc
  | s :: ss, (V, sum) =>
    piSweep p γ pol ss (upd V s (qval p γ V s (pol s)), sum + qval p γ V s (pol s))

/-- policy_iteration.hpp 190-232: improvement at one state. -/
def improved (p : Proc R) (γ : R) (V : Nat → R) (s old : Nat) : Nat :=
  match pick (qval p γ V s) (p.actions s) with
  | none => old
  | some (a, _) => a

/-- policy_iteration.hpp 188-232: the new policy and whether nothing changed. -/
def improve (p : Proc R) (γ : R) (V : Nat → R) (states : List Nat) (pol : Nat → Nat) : (Nat → Nat) × Bool :=
  (fun s => if s ∈ states then improved p γ V s (pol s) else pol s,
   decide (∀ s ∈ states, improved p γ V s (pol s) = pol s))

/-- policy_iteration.hpp 141-233. -/
def piLoop (p : Proc R) (γ th : R) (states : List Nat) (evals : Nat) :
    Nat → (Nat → R) → (Nat → Nat) → Option ((Nat → R) × (Nat → Nat))
  | 0, _, _ => none
  | k + 1, V, pol =>
    (untilSmall (fun V => piSweep p γ pol states.reverse (V, 0)) th evals V 0 none).bind fun V' =>
    if (improve p γ V' states pol).2 then some (V', (improve p γ V' states pol).1)
    else piLoop p γ th states evals k V' (improve p γ V' states pol).1

/-- policy_iteration.hpp 128-137: the first policy. -/
def firstPolicy (p : Proc R) (states : List Nat) : Nat → Nat :=
  fun s => if s ∈ states then ((p.actions s).head?).getD 0 else 0

/-- policy_iteration.hpp 235-273: following the policy. -/
def piExtract (p : Proc R) (pol : Nat → Nat) : Nat → Nat → Option (List (Nat × Nat))
  | 0, _ => none
  | k + 1, s =>
    if p.actions s = [] then some []
    else if p.done s (pol s) then some [(s, pol s)]
    else (piExtract p pol k (p.next s (pol s))).map ((s, pol s) :: ·)

/-- policy_iteration.hpp 93-278 with `k` rounds allowed in each loop. -/
def policyIteration (p : Proc R) (γ th : R) (k start : Nat) : Option (List (Nat × Nat)) :=
  (generate p k start).bind fun states =>
  (piLoop p γ th states k k (fun _ => 0) (firstPolicy p states)).bind fun r =>
  piExtract p r.2 k start

/-! ### Q-learning -/

/-- q_learning.hpp 135-143: largest estimate of the next state, 0 if there is none (`none` entries are -infinity). -/
def maxNext (row : List (Option R)) : R :=
  match (row.filterMap id) with
  | [] => 0
  | x :: xs => xs.foldl max x

/-- q_learning.hpp 126-128: the row is padded with -infinity. -/
def padRow (row : List (Option R)) (a : Nat) : List (Option R) := row ++ List.replicate (a + 1 - row.length) none

/-- q_learning.hpp 131-134, 145-147: the value assigned. -/
def newQ (lr γ reward maxQ : R) (current : Option R) : R :=
  current.getD 0 + lr * (reward + γ * maxQ) - current.getD 0

/-- q_learning.hpp 126-147: the update of the table after a step from `s` with `a` to `s'`; rows beyond the table count as
empty (line 136; the table was grown to contain `s` at 85-87). -/
def qUpdate (lr γ : R) (Q : Nat → List (Option R)) (s a s' : Nat) (reward : R) : Nat → List (Option R) :=
  fun t => if t = s then
      (padRow (Q s) a).set a (some (newQ lr γ reward (maxNext (if s' = s then padRow (Q s) a else Q s'))
        ((padRow (Q s) a)[a]?.join)))
    else Q t

end MM.Learn
