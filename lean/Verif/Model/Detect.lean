import Verif.Model.RichLine

/-!
# Detection and removal of defects (matching/algorithm/detect.hpp)

Points are of any type with an equality (`equals_points`); whether the azimuths of two steps differ by at least four fifths of a half turn
is any function of the three points.
-/

set_option autoImplicit false

namespace MM.Detect

open MM.Line

variable {P : Type} [DecidableEq P]

/-- matching/defect.hpp 25-29 and detect.hpp 37: a set of defects. -/
structure Defects where
  none : Bool
  equal : Bool
  forwardBackward : Bool
deriving DecidableEq

/-- detect.hpp 47. -/
def Defects.addEqual (d : Defects) : Defects := { d with equal := true }

/-- detect.hpp 60. -/
def Defects.addForwardBackward (d : Defects) : Defects := { d with forwardBackward := true }

/-- detect.hpp 70-72. -/
def Defects.eraseNone (d : Defects) : Defects :=
  if d.none || d.equal || d.forwardBackward then { d with none := false } else d

/-- detect.hpp 55-56. -/
def Defects.skipped (d : Defects) : Bool := d.forwardBackward || d.equal

/-- detect.hpp 115-121 `_equal`. -/
def equalAt (l : List P) (i j : Nat) : Bool :=
  match l[i]?, l[j]? with
  | some a, some b => decide (a = b)
  | _, _ => false

/-- detect.hpp 123-150 `_forward_backward`; `turn` is the comparison of lines 134-149. -/
def forwardBackward (turn : P → P → P → Bool) (l : List P) (i j : Nat) : Bool :=
  match i with
  | 0 => false
  | p + 1 =>
    match l[p]?, l[p + 1]?, l[j]? with
    | some a, some b, some c => turn a b c
    | _, _, _ => false

/-- detect.hpp 45-49, `fuel` steps. -/
def equalLoop (l : List P) : Nat → Nat → List Defects → List Defects
  | 0, _, ds => ds
  | fuel + 1, from_, ds =>
    if from_ + 1 < l.length then
      equalLoop l fuel (from_ + 1) (if equalAt l from_ (from_ + 1) then ds.modify (from_ + 1) Defects.addEqual else ds)
    else ds

/-- detect.hpp 54-58, `fuel` steps: the next position without defect. -/
def skip (ds : List Defects) : Nat → Nat → Nat
  | 0, to_ => to_
  | fuel + 1, to_ =>
    match ds[to_]? with
    | some d => if d.skipped then skip ds fuel (to_ + 1) else to_
    | none => to_

/-- detect.hpp 63-65 and the increment of line 53. -/
def nextFrom (from_ to_ : Nat) : Nat := (if from_ + 1 ≠ to_ then to_ - 1 else from_) + 1

/-- detect.hpp 53-66; undefined if `fuel` does not suffice. -/
def turnLoop (turn : P → P → P → Bool) (l : List P) : Nat → Nat → Nat → List Defects → Outcome (List Defects)
  | 0, _, to_, ds => if to_ < l.length then .ub else .ok ds
  | fuel + 1, from_, to_, ds =>
    if to_ < l.length then
      if forwardBackward turn l from_ (skip ds l.length to_) then
        turnLoop turn l fuel from_ (skip ds l.length to_) (ds.modify (skip ds l.length to_) Defects.addForwardBackward)
      else turnLoop turn l fuel (nextFrom from_ (skip ds l.length to_)) (skip ds l.length to_ + 1) ds
    else .ok ds

/-- detect.hpp 39-73 `detect`. -/
def detect (turn : P → P → P → Bool) (l : List P) (duplicates turns : Bool) : Outcome (List Defects) :=
  (if turns then turnLoop turn l (2 * l.length) 0 1
      (if duplicates then equalLoop l l.length 0 (List.replicate l.length ⟨true, false, false⟩) else List.replicate l.length ⟨true, false, false⟩)
    else .ok (if duplicates then equalLoop l l.length 0 (List.replicate l.length ⟨true, false, false⟩) else List.replicate l.length ⟨true, false, false⟩)).map
  (·.map Defects.eraseNone)

/-- detect.hpp 103-109. -/
def toRemove : Nat → List Defects → List Nat
  | _, [] => []
  | i, d :: ds => if d.none then toRemove (i + 1) ds else i :: toRemove (i + 1) ds

/-- detect.hpp 102-112 `remove_defects`. -/
def removeDefects (l : List P) (ds : List Defects) : List P := eraseAll l (toRemove 0 ds)

/-- environment/environments/hmm.hpp 78-82, single.hpp 98-102: the track of the environment and the parameter `track` after it was moved
(an empty line). -/
def setTrack (turn : P → P → P → Bool) (filter : Bool) (track : List P) : Outcome (List P × List P) :=
  if filter then (detect turn ([] : List P) filter false).map fun ds => (track, removeDefects [] ds) else .ok (track, [])

end MM.Detect
