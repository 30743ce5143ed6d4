import Verif.Model.Outcome
import Mathlib.Data.Rat.Floor

/-!
# The size from which on candidate search asks the index

Models src/library/include/matching/algorithm/candidate_search.hpp 77-79, 229-244, 262-269, 293: after each edge the time taken is
remembered, and the number of points from which on the index is used is adapted to the times measured.  Times are any
non-negative numbers; arithmetic of `double` is exact except that it has infinities and no number.
-/

set_option autoImplicit false

namespace MM.EdgeSwitch

/-- Values of type `double` as far as they occur (candidate_search.hpp 229-244). -/
inductive Fl where
  | fin (q : Rat)
  | inf
  | nan
deriving DecidableEq, Repr

/-- Division of non-negative numbers as in candidate_search.hpp 232, 235. -/
def quot (a b : Rat) : Fl := if b = 0 then (if a = 0 then .nan else .inf) else .fin (a / b)

/-- candidate_search.hpp 233: a positive whole number times a factor. -/
def times (n : Nat) : Fl → Fl
  | .fin q => .fin (n * q)
  | .inf => .inf
  | .nan => .nan

/-- candidate_search.hpp 236: a whole number divided by a factor that is at least one. -/
def over (n : Nat) : Fl → Fl
  | .fin q => .fin (n / q)
  | .inf => .fin 0
  | .nan => .nan

/-- `static_cast<std::size_t>` in candidate_search.hpp 233, 236: undefined for values that do not fit. -/
def toSize : Fl → Outcome Nat
  | .fin q => if q < 2 ^ 64 then .ok q.floor.toNat else .ub
  | .inf => .ub
  | .nan => .ub

/-- candidate_search.hpp 77-79: the size and both times; `none` is the number that is none. -/
structure State where
  switch : Nat
  edge : Option Rat
  index : Option Rat
deriving DecidableEq, Repr

/-- candidate_search.hpp 77-79: at first. -/
def State.start : State := ⟨16, none, none⟩

/-- candidate_search.hpp 229-240. -/
def adapt (s : State) : Outcome Nat :=
  match s.edge, s.index with
  | some e, some i =>
    (if e < i then toSize (times s.switch (quot i e)) else toSize (over s.switch (quot e i))).map (max 2)
  | _, _ => .ok s.switch

/-- candidate_search.hpp 229-293 for an edge of `size` points: whether the index is asked, and the state afterwards; `t` is the
time measured. -/
def step (s : State) (size : Nat) (t : Rat) : Outcome (Bool × State) :=
  (adapt s).bind fun n =>
    if size ≤ n then .ok (false, ⟨n, some (t * (n / size)), s.index⟩) else .ok (true, ⟨n, s.edge, some t⟩)

/-- candidate_search.hpp 217-365: the edges one after the other, for all points of all tracks of a matcher. -/
def run : State → List (Nat × Rat) → Outcome (List Bool × State)
  | s, [] => .ok ([], s)
  | s, x :: xs => (step s x.1 x.2).bind fun a => (run a.2 xs).bind fun b => .ok (a.1 :: b.1, b.2)

end MM.EdgeSwitch
