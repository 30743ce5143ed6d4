import Verif.Model.TimeLimit
import Verif.Model.Route

/-!
# Matching of a track part by part (matching/matcher.hpp)

Preparation of a part, the learner and the assembly of the route are arguments; they are models of their own (`Detect`,
`Candidates`, `Learn`, `Viterbi`, `Router`).  What matters here is that the first two ask the time helper from time to time
and may do something else once the limit is reached.
-/

set_option autoImplicit false

namespace MM.Matcher

open MM.TimeLimit MM.Route

/-- A computation that asks the time helper from time to time and goes on depending on the answer
(candidate_search.hpp 67, 414, 434, 441, 483, 513, 575, hmm.hpp 338, single.hpp 241). -/
inductive Asks (α : Type) where
  /-- candidate_search.hpp 63-73: it ends. -/
  | done (a : α)
  /-- candidate_search.hpp 67: it asks. -/
  | ask (next : Bool → Asks α)

variable {R : Type} [LinearOrder R] [Sub R] [Zero R]

/-- The time helper and the readings of the clock still to come (time_helper.cpp 32-44). -/
structure Clock (R : Type) where
  helper : Helper R
  reading : Nat → R
  used : Nat

/-- time_helper.cpp 39-44 `update_and_has_reached`. -/
def Clock.ask (c : Clock R) : Bool × Clock R :=
  ((updateAndReached c.helper (c.reading c.used)).1,
    ⟨(updateAndReached c.helper (c.reading c.used)).2, c.reading, c.used + 1⟩)

/-- time_helper.hpp 66-71 `reached_max_duration`. -/
def Clock.reached (c : Clock R) : Bool × Clock R := ((reachedMax c.helper).1, ⟨(reachedMax c.helper).2, c.reading, c.used⟩)

/-- A computation that asks (time_helper.cpp 39-44). -/
def exec {α : Type} : Asks α → Clock R → α × Clock R
  | .done a, c => (a, c)
  | .ask next, c => exec (next c.ask.1) c.ask.2

/-- The environments and learners as seen by the matcher (environment/environments/single.hpp, hmm.hpp, learning/algorithms/):
`set`, the learner, the empty policy, `result`. -/
structure Engine (T S Pol P : Type) where
  set : T → Asks S
  learn : S → Asks Pol
  empty : Pol
  result : S → Pol → Route P

variable {T S Pol P : Type}

/-- matcher.hpp 137-144: a part is prepared and, unless the time is over, matched. -/
def matchPart (E : Engine T S Pol P) (t : T) (c : Clock R) : (S × Pol) × Clock R :=
  if (exec (E.set t) c).2.ask.1 then (((exec (E.set t) c).1, E.empty), (exec (E.set t) c).2.ask.2)
  else
    (((exec (E.set t) c).1, (exec (E.learn (exec (E.set t) c).1) (exec (E.set t) c).2.ask.2).1),
      (exec (E.learn (exec (E.set t) c).1) (exec (E.set t) c).2.ask.2).2)

/-- settings.hpp `export_edges`, `export_edge_ids`, and route.hpp 305-365: the list of edges of a route. -/
structure Export (P : Type) where
  edges : Bool
  ids : Bool
  list : Route P → List Nat
  route : List Nat → Route P
  idsOf : List Nat → List Nat

/-- matcher.hpp 150-155: the route, or the route of whole edges. -/
def Export.final (x : Export P) (r : Route P) : Route P := if x.edges then x.route (x.list r) else r

/-- matcher.hpp 156-159. -/
def Export.named (x : Export P) (r : Route P) : List Nat := if x.ids then x.idsOf (x.list r) else []

/-- matcher.hpp 113-127, match_result.hpp 36-44: what is collected. -/
structure Collected (S Pol P : Type) where
  prepared : List S
  policies : List Pol
  matched : List (Route P)
  ids : List Nat
  aborted : Bool

/-- matcher.hpp 113-126. -/
def Collected.none : Collected S Pol P := ⟨[], [], [], [], false⟩

/-- matcher.hpp 146-162: the results of one part are appended. -/
def Collected.add (E : Engine T S Pol P) (x : Export P) (k : Collected S Pol P) (s : S) (p : Pol) : Collected S Pol P :=
  ⟨k.prepared ++ [s], k.policies ++ [p], k.matched ++ [x.final (E.result s p)], k.ids ++ x.named (E.result s p), k.aborted⟩

/-- matcher.hpp 129-168: the loop over the parts. -/
def matchLoop (E : Engine T S Pol P) (x : Export P) : List T → Collected S Pol P → Clock R → Collected S Pol P
  | [], k, _ => k
  | t :: ts, k, c =>
    if (matchPart E t c).2.reached.1 then { k.add E x (matchPart E t c).1.1 (matchPart E t c).1.2 with aborted := true }
    else matchLoop E x ts (k.add E x (matchPart E t c).1.1 (matchPart E t c).1.2) (matchPart E t c).2.reached.2

/-- matcher.hpp 103-187 `_match_impl`: `max` is the time limit, `reading 0` the time at its start. -/
def matchTrack (E : Engine T S Pol P) (x : Export P) (max : R) (reading : Nat → R) (ts : List T) : Collected S Pol P :=
  matchLoop E x ts Collected.none ⟨make max (reading 0), reading, 1⟩

variable [DecidableEq P]

/-- matcher.hpp 175: the routes of the parts are merged; simplification: the copies (160, 175) have the addresses of the
originals; `next` is the next free address. -/
def whole (next : Nat) (k : Collected S Pol P) : Outcome (Route P) := merge false false next k.matched

end MM.Matcher
