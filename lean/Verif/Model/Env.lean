import Verif.Model.Outcome
import Mathlib.Data.List.Basic

/-!
# The decision process environment

Model of `src/library/include/environment/environments/single.hpp`.  What the geometry and the router say about a
move is an input of each evaluation (`Judge`), so a router that answers differently at different times (C22) is
covered.
-/

set_option autoImplicit false

namespace MM.Env

/-- Internal state (single.hpp 46): positions and actions alternating, the last element is the next position. -/
abbrev St := List Int

/-- single.hpp 71-73: `special_actions`, `no_action`, `skip`. -/
def special : Nat := 2

/-- single.hpp 72. -/
def noAction : Int := -1

/-- single.hpp 73. -/
def skipAction : Int := -2

/-- single.hpp 230-238 `action2internal`. -/
def action2internal (a : Nat) : Int :=
  if a = 0 then noAction else if a = 1 then skipAction else (a : Int) - 2

/-- single.hpp 554-562 `_internal2action` (conversion of a non-negative number, others do not occur). -/
def internal2action (a : Int) : Nat :=
  if a = noAction then 0 else if a = skipAction then 1 else (a + 2).toNat

/-- What an environment is set up with (single.hpp 97-120, 152-170): number of candidates, edges per candidate, `state_size` of the settings
(points) and `skip_errors`. -/
structure Cfg where
  n : Nat
  edges : Nat → Nat
  points : Nat
  skipErrors : Bool

/-- single.hpp 152-153: the size of internal states, points and the actions between them. -/
def Cfg.stateSize (c : Cfg) : Nat := c.points + (c.points - 1)

/-- What an evaluation of `_reward` (single.hpp 275-494) finds out: the reward of the branch taken, whether the route is invalid, whether
it is more than ten times too long, whether the previous route is invalid and whether the routes attach. -/
structure Judge (R : Type) where
  reward : R
  invalid : Bool
  detour : Bool
  prevInvalid : Bool
  attaches : Bool

/-- single.hpp 496-504 `_new_state`: undefined behaviour if two elements are to be dropped but there is only one. -/
def newState (c : Cfg) (s : St) (a : Int) : Outcome St :=
  match s.getLast? with
  | none => .ub
  | some b =>
    if c.stateSize ≤ s.length then
      if s.length < 2 then .ub else .ok (s.drop 2 ++ [a, b + 1])
    else .ok (s ++ [a, b + 1])

/-- single.hpp 506-513 `_skip_state`. -/
def skipState (s : St) : St :=
  if 3 ≤ s.length then s.drop 2
  else match s.getLast? with
    | none => s
    | some b => s.dropLast ++ [b + 1]

/-- single.hpp 515-520 `_done_state`. -/
def doneState (c : Cfg) (s : St) : St :=
  if s = [] then s else s.dropLast ++ [(c.n : Int)]

/-- Access to `_candidates[pos].edges[act]` (single.hpp 281-298, 420-421): inside both vectors. -/
def Cfg.hasEdge (c : Cfg) (pos act : Int) : Bool :=
  decide (0 ≤ pos) && decide (pos < c.n) && decide (0 ≤ act) && decide (act < c.edges pos.toNat)

/-- Element counted from the back (`state[state.size() - k]`, single.hpp 293-294, 416-417). -/
def fromBack (s : St) (k : Nat) : Int := s.getD (s.length - k) 0

variable {R : Type} [Zero R]

/-- Result of `_reward` (single.hpp 275-494): the reward, and the possibly replaced new state and action. -/
structure Move (R : Type) where
  reward : R
  state : St
  action : Int
  deriving DecidableEq, Repr

/-- single.hpp 411-485: additional checks when the state remembers two moves.  Line 421 reads an edge of the current
candidate by the action taken at the previous one. -/
def prevCheck (c : Cfg) (s : St) (j : Judge R) (m : Move R) : Outcome (Move R) :=
  if 3 < s.length then
    if 0 ≤ fromBack s 4 then
      if c.hasEdge (fromBack s 3) (fromBack s 4) then
        if j.prevInvalid then .ok m
        else if j.attaches then .ok m
        else .ok { m with state := doneState c s }
      else .ub
    else .ok m
  else .ok m

/-- single.hpp 274-490 `_reward`; `ns` is the state computed by `_new_state`. -/
def rewardOf (c : Cfg) (s ns : St) (a : Int) (j : Judge R) : Outcome (Move R) :=
  if s ≠ [] ∧ 0 ≤ a then
    if c.hasEdge (fromBack s 1) a then
      if s.length < 3 then .ok ⟨j.reward, ns, a⟩
      else if 0 ≤ fromBack s 2 then
        if c.hasEdge (fromBack s 3) (fromBack s 2) then
          if j.invalid then
            if c.skipErrors then .ok ⟨j.reward, skipState s, skipAction⟩ else .ok ⟨j.reward, ns, a⟩
          else if c.skipErrors && j.detour then prevCheck c s j ⟨j.reward, skipState s, skipAction⟩
          else prevCheck c s j ⟨j.reward, ns, a⟩
        else .ub
      else .ok ⟨0, ns, a⟩
    else .ub
  else .ok ⟨0, ns, a⟩

/-- single.hpp 492-494 `_done`. -/
def done (c : Cfg) (s : St) : Bool := decide ((c.n : Int) ≤ s.getLastD 0)

/-- single.hpp 62: `reward_tuple`. -/
structure Res (R : Type) where
  state : Nat
  action : Nat
  reward : R
  done : Bool
  deriving DecidableEq, Repr

/-- single.hpp 570-574: `_states`, `_state_map`, `_state_cache`, and the public `state`. -/
structure Env (R : Type) where
  states : List St
  smap : List (St × Nat)
  cache : List (List (Option (Res R)))
  cur : Nat

/-- single.hpp 147-156 `init` (and construction). -/
def Env.init : Env R := ⟨[], [], [], 0⟩

/-- single.hpp 541-548: number of cache entries reserved for a state. -/
def actionSize (c : Cfg) (s : St) : Nat :=
  match s.getLast? with
  | none => 1
  | some p => if p < c.n then c.edges p.toNat + special else 1

/-- single.hpp 532-552 `_internal2state`. -/
def intern (c : Cfg) (e : Env R) (s : St) : Nat × Env R :=
  match e.smap.lookup s with
  | some i => (i, e)
  | none => (e.states.length,
      { e with states := e.states ++ [s], smap := e.smap ++ [(s, e.states.length)],
               cache := e.cache ++ [List.replicate (actionSize c s) none] })

/-- single.hpp 181-184 `reset`. -/
def reset (c : Cfg) (e : Env R) : Env R := { (intern c e [0]).2 with cur := (intern c e [0]).1 }

/-- single.hpp 187-197: lookup in the cache. -/
def cached (e : Env R) (a : Nat) : Option (Res R) := (e.cache[e.cur]?.bind (fun row => row[a]?)).join

/-- single.hpp 210-214: storing a result, padding the row if needed. -/
def store (e : Env R) (st a : Nat) (r : Res R) : Env R :=
  { e with cache := e.cache.modify st (fun row => (row ++ List.replicate (a + 1 - row.length) none).set a (some r)) }

/-- single.hpp 186-217 `step`. -/
def step (c : Cfg) (e : Env R) (a : Nat) (j : Judge R) : Outcome (Res R × Env R) :=
  match cached e a with
  | some r => .ok (r, { e with cur := r.state })
  | none =>
    match e.states[e.cur]? with
    | none => .ub
    | some s =>
      (newState c s (action2internal a)).bind fun ns =>
      (rewardOf c s ns (action2internal a) j).bind fun m =>
        .ok (⟨(intern c e m.state).1, internal2action m.action, m.reward, done c m.state⟩,
          { store (intern c e m.state).2 e.cur a
              ⟨(intern c e m.state).1, internal2action m.action, m.reward, done c m.state⟩ with
            cur := (intern c e m.state).1 })

/-- single.hpp 158-179 `actions` (without `intelligent_action`, which only reorders them). -/
def actions (c : Cfg) (e : Env R) : Outcome (List Nat) :=
  match e.states[e.cur]? with
  | none => .ub
  | some s =>
    match s.getLast? with
    | none => .ok [internal2action noAction]
    | some p =>
      if p < c.n ∧ 0 < c.edges p.toNat then .ok (List.range' special (c.edges p.toNat))
      else .ok [internal2action noAction]

end MM.Env
