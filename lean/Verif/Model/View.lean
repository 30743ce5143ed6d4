import Verif.Model.Outcome

/-!
# Access through container views

Model of `src/library/include/graph/container_view.hpp` and `container_subview.hpp`; a container is a list.
-/

set_option autoImplicit false

namespace MM.View

variable {γ : Type}

/-- Dereferencing a position: out of the container it is undefined behaviour (container_view.hpp 51-69). -/
def deref (l : List γ) (i : Nat) : Outcome γ :=
  match l[i]? with
  | some x => .ok x
  | none => .ub

/-- container_view.hpp 71-87 `at`. -/
def viewAt (l : List γ) (pos : Int) : Outcome γ :=
  if 0 < pos then
    if pos.natAbs ≥ l.length then .throws else deref l pos.natAbs
  else if pos < 0 then
    if pos.natAbs ≥ l.length then .throws else deref l (l.length - pos.natAbs)
  else deref l 0

/-- container_subview.hpp 41-42: the container with the range given to the constructor. -/
structure Sub (γ : Type) where
  ref : List γ
  start : Nat
  stop : Nat
  deriving DecidableEq, Repr

/-- container_subview.hpp 41-48: constructor. -/
def mkSub (l : List γ) (start stop : Nat) : Outcome (Sub γ) :=
  if l.length < start ∨ l.length < stop ∨ stop < start then .throws else .ok ⟨l, start, stop⟩

/-- container_subview.hpp 60-66 `at`. -/
def Sub.at (s : Sub γ) (pos : Int) : Outcome γ :=
  if 0 < pos then deref s.ref (s.start + pos.natAbs) else deref s.ref s.start

/-- container_subview.hpp 126-128 `empty`. -/
def Sub.isEmpty (s : Sub γ) : Bool := s.ref.isEmpty || s.stop == s.start

/-- container_subview.hpp 72-77 `front`. -/
def Sub.front (s : Sub γ) : Outcome γ := if s.isEmpty then .throws else deref s.ref s.start

/-- container_subview.hpp 83-88 `back`. -/
def Sub.back (s : Sub γ) : Outcome γ :=
  if s.isEmpty || s.stop == 0 then .throws else deref s.ref (s.stop - 1)

/-- container_subview.hpp 118-120 `size`. -/
def Sub.size (s : Sub γ) : Nat := s.stop - s.start

/-- The elements a sub view stands for (container_subview.hpp 94-116 `begin`, `end`). -/
def Sub.elems (s : Sub γ) : List γ := (s.ref.take s.stop).drop s.start

end MM.View
