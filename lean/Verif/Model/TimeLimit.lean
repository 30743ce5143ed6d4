import Mathlib.Order.Defs.LinearOrder

/-!
# Time limits (util/time_helper.hpp, util/time_helper.cpp)

Times and durations are elements of an ordered type with subtraction and zero (`double` seconds in the code).
-/

set_option autoImplicit false

namespace MM.TimeLimit

variable {R : Type} [LinearOrder R] [Sub R] [Zero R]

/-- time_helper.hpp 76-79. -/
structure Helper (R : Type) where
  start : R
  current : R
  max : R
  reached : Bool
deriving DecidableEq

/-- time_helper.cpp 21-30, the constructors; `now` is the reading of the clock. -/
def make (max now : R) : Helper R := ⟨now, now, max, false⟩

/-- time_helper.hpp 54-56 `elapsed`. -/
def elapsed (h : Helper R) : R := h.current - h.start

/-- time_helper.hpp 62-64 `has_max_duration`. -/
def hasMax (h : Helper R) : Bool := decide (0 < h.max)

/-- time_helper.hpp 66-71 `reached_max_duration`. -/
def reachedMax (h : Helper R) : Bool × Helper R :=
  if h.reached then (true, h)
  else (hasMax h && decide (h.max ≤ elapsed h), { h with reached := hasMax h && decide (h.max ≤ elapsed h) })

/-- time_helper.cpp 32-37 `update`. -/
def update (h : Helper R) (now : R) : Helper R := if h.reached then h else { h with current := now }

/-- time_helper.cpp 39-44 `update_and_has_reached`. -/
def updateAndReached (h : Helper R) (now : R) : Bool × Helper R := if h.reached then reachedMax h else reachedMax (update h now)

/-- time_helper.hpp 48-50 `set_max_duration`. -/
def setMax (h : Helper R) (max : R) : Helper R := { h with max := max }

/-- A call (time_helper.hpp 48-71, time_helper.cpp 32-44). -/
inductive Call (R : Type) where
  /-- time_helper.cpp 32-37 -/
  | update (now : R)
  /-- time_helper.hpp 66-71 -/
  | reached
  /-- time_helper.cpp 39-44 -/
  | updateAndReached (now : R)
  /-- time_helper.hpp 48-50 -/
  | setMax (max : R)

/-- The call and its answer, if it is a question (time_helper.hpp 48-50, 66-71, time_helper.cpp 32-44). -/
def call (h : Helper R) : Call R → Option Bool × Helper R
  | .update now => (none, update h now)
  | .reached => (some (reachedMax h).1, (reachedMax h).2)
  | .updateAndReached now => (some (updateAndReached h now).1, (updateAndReached h now).2)
  | .setMax max => (none, setMax h max)

/-- All calls in turn (time_helper.hpp 48-71, time_helper.cpp 32-44). -/
def run (h : Helper R) : List (Call R) → Helper R
  | [] => h
  | c :: cs => run (call h c).2 cs

end MM.TimeLimit
