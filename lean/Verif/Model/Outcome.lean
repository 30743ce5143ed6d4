/-!
# Outcomes of a C++ call

A call either returns a value, throws an exception, or runs into undefined behaviour.  The three are kept apart in
the model; nothing is totalised away.
-/

namespace MM

/-- Result of a C++ call: a value, an exception, or undefined behaviour.  Of no file of its own: every function modelled in the
other files (/repo/src, lines given there) returns one. -/
inductive Outcome (α : Type u) where
  | ok (a : α)
  | throws
  | ub
  deriving Repr, DecidableEq

namespace Outcome

/-- Calls in sequence (all of /repo/src): an exception or undefined behaviour ends it. -/
def bind {α : Type u} {β : Type v} (x : Outcome α) (f : α → Outcome β) : Outcome β :=
  match x with
  | ok a => f a
  | throws => throws
  | ub => ub

/-- A call followed by a computation that always returns (all of /repo/src). -/
def map {α : Type u} {β : Type v} (f : α → β) (x : Outcome α) : Outcome β :=
  x.bind (fun a => ok (f a))

instance : Monad Outcome where
  pure := ok
  bind := bind

@[simp] theorem bind_ok {α β} (a : α) (f : α → Outcome β) : (ok a).bind f = f a := rfl
@[simp] theorem bind_throws {α β} (f : α → Outcome β) : (throws : Outcome α).bind f = throws := rfl
@[simp] theorem bind_ub {α β} (f : α → Outcome β) : (ub : Outcome α).bind f = ub := rfl
@[simp] theorem map_ok {α β} (a : α) (f : α → β) : (ok a).map f = ok (f a) := rfl
@[simp] theorem map_throws {α β} (f : α → β) : (throws : Outcome α).map f = throws := rfl
@[simp] theorem map_ub {α β} (f : α → β) : (ub : Outcome α).map f = ub := rfl

end Outcome
end MM
