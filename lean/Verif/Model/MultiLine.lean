import Verif.Model.RichLine

/-!
# Values of lines in several parts

`INC/geometry/rich_type/{multi_rich_line,multi_rich_line_data,lazy_multi_rich_line,eager_multi_rich_line}.hpp`.  A line in
several parts is the list of the points of its parts; a part answers like a plain line with its points (C27, C70).
-/

set_option autoImplicit false

namespace MM.MultiLine

open MM.Line

variable {P : Type} [DecidableEq P] {R A : Type}

/-- multi_rich_line.hpp 354-365 `empty`: no part has points. -/
def noPoints (ls : List (List P)) : Bool := ls.all List.isEmpty

/-- multi_rich_line.hpp 371-377 `sizes`. -/
def sizes (ls : List (List P)) : Nat := ls.foldl (fun n l => n + l.length) 0

/-- multi_rich_line.hpp 343-352 `multi_line`: parts without points are left out. -/
def withPoints (ls : List (List P)) : List (List P) := ls.filter fun l => !l.isEmpty

/-- multi_rich_line.hpp 146-160, 229-257: sum of what is there, nothing if there is nothing. -/
def total {α : Type} (zero : α) (add : α → α → α) (xs : List (Option α)) : Option α :=
  if (xs.filterMap id).isEmpty then none else some ((xs.filterMap id).foldl add zero)

/-- multi_rich_line.hpp 135-161 `has_length` and `length`; `none`: `length` throws. -/
def length (G : Geo P R A) (ls : List (List P)) : Option R := total G.zeroR G.addR (ls.map (plainLength G))

/-- multi_rich_line.hpp 170-172, 187-190, multi_rich_line_data.hpp 180-184: from the first point of the first part to the last
point of the last one; `front`, `back` of a part without points is undefined. -/
def ends (G : Geo P R A) (ls : List (List P)) : Outcome (Option A) :=
  match ls.head?.bind List.head?, ls.getLast?.bind List.getLast? with
  | some p, some q => .ok (if p = q then none else some (G.az p q))
  | _, _ => .ub

/-- multi_rich_line.hpp 163-195 `has_azimuth` and `azimuth`; `ok none`: `azimuth` throws. -/
def azimuth (G : Geo P R A) (ls : List (List P)) : Outcome (Option A) :=
  if noPoints ls then .ok none
  else
    match ls with
    | [l] => .ok (plainAzimuth G l)
    | _ => ends G ls

/-- multi_rich_line.hpp 208-213, 238-247, 277-286, multi_rich_line_data.hpp 196-207: change of direction from one part to the
next; `back`, `front` of a part without points is undefined. -/
def joint (G : Geo P R A) (a b : List P) : Outcome (Option A) :=
  match a.getLast?, b.head? with
  | some p, some q =>
    if p = q then
      match (segs a).getLast?.bind (plainAzimuthAt G), (segs b).head?.bind (plainAzimuthAt G) with
      | some x, some y => .ok (some (G.dir x y))
      | _, _ => .ok none
    else .ok none
  | _, _ => .ub

/-- multi_rich_line.hpp 232-249, 271-288: what the parts and the places between them contribute, in turn. -/
def contributions (G : Geo P R A) (f : A → A) : List (List P) → Outcome (List (Option A))
  | [] => .ok []
  | [a] => .ok [plainDirections G f a]
  | a :: b :: ls =>
    (joint G a b).bind fun j => (contributions G f (b :: ls)).map fun r => plainDirections G f a :: j.map f :: r

/-- multi_rich_line.hpp 223-301 `directions` (`f` the identity) and `absolute_directions` (`f` the absolute value); `ok none`:
they throw. -/
def directions (G : Geo P R A) (f : A → A) (ls : List (List P)) : Outcome (Option A) :=
  if noPoints ls then .ok none
  else
    match ls with
    | [l] => .ok (plainDirections G f l)
    | _ => (contributions G f ls).map (total G.zeroA G.addA)

/-- multi_rich_line.hpp 202-216: the loop returns at the first change of direction. -/
def anyTurn (G : Geo P R A) : List (List P) → Outcome Bool
  | [] => .ok false
  | [a] => .ok (plainDirections G id a).isSome
  | a :: b :: ls =>
    if (plainDirections G id a).isSome then .ok true
    else (joint G a b).bind fun j => if j.isSome then .ok true else anyTurn G (b :: ls)

/-- multi_rich_line.hpp 197-221 `has_directions`. -/
def hasDirections (G : Geo P R A) (ls : List (List P)) : Outcome Bool :=
  if noPoints ls then .ok false
  else
    match ls with
    | [l] => .ok (plainDirections G id l).isSome
    | _ => anyTurn G ls

/-! ### Cached values -/

/-- lazy_multi_rich_line.hpp 34-39, eager_multi_rich_line.hpp 34-39: the parts and the cached values; `lengths` are those of
the parts, `azimuths` the changes of direction between them. -/
structure Multi (P R A : Type) where
  lines : List (List P)
  data : Data R A
  deriving DecidableEq, Repr

/-- lazy_multi_rich_line.hpp 58-100: constructors. -/
def Multi.new (ls : List (List P)) : Multi P R A := ⟨ls, Data.new⟩

/-- rich_line_data.hpp 247-260, common.hpp 27-28: a value, or not valid. -/
def cell {α : Type} : Option α → Cell α
  | some a => .val a
  | none => .invalid

/-- multi_rich_line_data.hpp 152-167 `_compute_lengths`. -/
def computeLengths (G : Geo P R A) (m : Multi P R A) : List (Cell R) :=
  if m.data.lengths.isEmpty && !noPoints m.lines then m.lines.map (cell ∘ plainLength G) else m.data.lengths

/-- multi_rich_line_data.hpp 130-150 `_compute_length`. -/
def computeLength (G : Geo P R A) (m : Multi P R A) : Multi P R A :=
  if m.data.length.isUninit then
    { m with data := { m.data with
        length := sumCells G.zeroR G.addR (computeLengths G m)
        lengths := computeLengths G m } }
  else m

/-- multi_rich_line_data.hpp 169-188 `_compute_azimuth`. -/
def computeAzimuth (G : Geo P R A) (m : Multi P R A) : Outcome (Multi P R A) :=
  if m.data.azimuth.isUninit then
    (azimuth G m.lines).map fun a => { m with data := { m.data with azimuth := cell a } }
  else .ok m

/-- multi_rich_line_data.hpp 192-208: the changes of direction between the parts. -/
def joints (G : Geo P R A) : List (List P) → Outcome (List (Cell A))
  | [] => .ok []
  | [_] => .ok []
  | a :: b :: ls => (joint G a b).bind fun j => (joints G (b :: ls)).map fun r => cell j :: r

/-- multi_rich_line_data.hpp 190-213 `_compute_azimuths`: there is no question for points. -/
def computeJoints (G : Geo P R A) (m : Multi P R A) : Outcome (List (Cell A)) :=
  if m.data.azimuths.isEmpty then joints G m.lines else .ok m.data.azimuths

/-- multi_rich_line_data.hpp 229-243: directions of the parts and between them, in turn. -/
def weave (G : Geo P R A) (f : A → A) : List (List P) → List (Cell A) → List (Option A)
  | [], _ => []
  | l :: ls, [] => plainDirections G f l :: weave G f ls []
  | l :: ls, c :: cs => plainDirections G f l :: c.get?.map f :: weave G f ls cs

/-- multi_rich_line_data.hpp 215-251 `_compute_directions`. -/
def computeDirections (G : Geo P R A) (m : Multi P R A) : Outcome (Multi P R A) :=
  if !m.data.directions.isUninit && !m.data.absolute.isUninit then .ok m
  else (computeJoints G m).map fun cs =>
    { m with data := { m.data with
        directions := if noPoints m.lines then .invalid else cell (total G.zeroA G.addA (weave G id m.lines cs))
        absolute := if noPoints m.lines then .invalid else cell (total G.zeroA G.addA (weave G G.abs m.lines cs))
        azimuths := cs } }

/-- lazy_multi_rich_line.hpp 139-172: the questions. -/
inductive Ask where
  | length | azimuth | directions | absolute
  deriving DecidableEq, Repr

/-- lazy_multi_rich_line.hpp 139-172: what is missing is computed, then read. -/
def Multi.ask (G : Geo P R A) (m : Multi P R A) : Ask → Outcome (Answer R A × Multi P R A)
  | .length => .ok (.len (computeLength G m).data.length, computeLength G m)
  | .azimuth => (computeAzimuth G m).map fun m' => (.angle m'.data.azimuth, m')
  | .directions => (computeDirections G m).map fun m' => (.angle m'.data.directions, m')
  | .absolute => (computeDirections G m).map fun m' => (.angle m'.data.absolute, m')

/-- eager_multi_rich_line.hpp 62-104, multi_rich_line_data.hpp 253-257: everything is computed when it is built. -/
def Multi.eager (G : Geo P R A) (ls : List (List P)) : Outcome (Multi P R A) :=
  (computeAzimuth G (computeLength G (Multi.new ls))).bind (computeDirections G)

/-- eager_multi_rich_line.hpp 130-135: assignment of plain parts; what is there already is not computed again. -/
def Multi.assignEager (G : Geo P R A) (m : Multi P R A) (ls : List (List P)) : Outcome (Multi P R A) :=
  (computeAzimuth G (computeLength G { m with lines := ls })).bind (computeDirections G)

/-- eager_multi_rich_line.hpp 164-190: the cached values are read. -/
def Multi.read (m : Multi P R A) : Ask → Answer R A
  | .length => .len m.data.length
  | .azimuth => .angle m.data.azimuth
  | .directions => .angle m.data.directions
  | .absolute => .angle m.data.absolute

/-- lazy_multi_rich_line.hpp 113-117: assignment of plain parts; the values are kept. -/
def Multi.assignPlain (m : Multi P R A) (ls : List (List P)) : Multi P R A := { m with lines := ls }

/-- multi_rich_line.hpp 393-420 `merge`, inherited by lazy and eager lines as it is: the values are kept. -/
def Multi.merge (m : Multi P R A) (lines : List (List P)) : Outcome (Multi P R A) :=
  (multiMerge m.lines lines).map fun ls => { m with lines := ls }

end MM.MultiLine
