import Verif.Model.RichLine

/-!
# Evaluated lines and segments with cached values

`INC/geometry/rich_type/{eager_rich_line,rich_line_data,rich_segment,rich_segment_data,eager_rich_segment,
lazy_rich_segment}.hpp`.  An evaluated line has the members of a lazily evaluated one (`Lazy`), but computes all values when
it is built or changed and only reads them when asked.
-/

set_option autoImplicit false

namespace MM.Line

variable {P : Type} [DecidableEq P] {R A : Type}

/-! ### Lines -/

/-- rich_line_data.hpp 447-451 `_compute`. -/
def Lazy.compute (G : Geo P R A) (l : Lazy P R A) : Outcome (Lazy P R A) :=
  (computeLength G l).bind fun l' => computeDirections G (computeAzimuth G l')

/-- rich_line_data.hpp 453-468 `_rebuild(true, azimuth, true)`. -/
def Lazy.rebuild (G : Geo P R A) (azimuth : Bool) (l : Lazy P R A) : Outcome (Lazy P R A) :=
  (computeLength G { l with data := l.data.invalidate true azimuth true false false }).bind fun l' =>
    computeDirections G (if azimuth then computeAzimuth G l' else l')

/-- eager_rich_line.hpp 65-67: default constructor; nothing is computed. -/
def Eager.blank : Lazy P R A := ⟨[], Data.new⟩

/-- eager_rich_line.hpp 69-78, 93-107, 127-141: constructors from points and from plain lines. -/
def Eager.new (G : Geo P R A) (pts : List P) : Outcome (Lazy P R A) := Lazy.compute G ⟨pts, Data.new⟩

/-- eager_rich_line.hpp 143-167: constructor from a lazily evaluated line; the calls compute its values first, then its
entries are copied. -/
def Eager.ofLazy (G : Geo P R A) (l : Lazy P R A) : Outcome (Lazy P R A) := Lazy.compute G l

/-- eager_rich_line.hpp 298-313 `sub_rich_line`, 80-91: the constructor computes what is missing. -/
def Eager.sub (G : Geo P R A) (l : Lazy P R A) (from_ to_ : Nat) : Outcome (Lazy P R A) :=
  (l.sub from_ to_).bind (Lazy.compute G)

/-- eager_rich_line.hpp 315-322 `erase(index, true)`; the size at 319 is the size after the erasure. -/
def Eager.eraseOne (G : Geo P R A) (l : Lazy P R A) (i : Nat) : Outcome (Lazy P R A) :=
  Lazy.rebuild G (decide (i = 0) || decide (i + 1 = (l.eraseQuiet G i).pts.length)) (l.eraseQuiet G i)

/-- eager_rich_line.hpp 324-332 `erase(indices)`. -/
def Eager.eraseMany (G : Geo P R A) (l : Lazy P R A) (is : List Nat) : Outcome (Lazy P R A) :=
  if is = [] then .ok l else Lazy.rebuild G (touchesEnds l is) (is.reverse.foldl (Lazy.eraseQuiet G) l)

/-- eager_rich_line.hpp 334-353 `merge`: the resulting object, and whether the call returned. -/
def Eager.merge (G : Geo P R A) (l : Lazy P R A) (ns : List (Lazy P R A)) : Outcome (Lazy P R A × Bool) :=
  if (mergePts l.pts (ns.map Lazy.pts)).2 then
    (Lazy.rebuild G true ⟨(mergePts l.pts (ns.map Lazy.pts)).1, mergeData l ns⟩).map fun l' => (l', true)
  else .ok (⟨(mergePts l.pts (ns.map Lazy.pts)).1, mergeData l ns⟩, false)

/-- eager_rich_line.hpp 184-190: assignment of points. -/
def Eager.assignPoints (G : Geo P R A) (l : Lazy P R A) (pts : List P) : Outcome (Lazy P R A) :=
  Lazy.compute G ⟨pts, l.data.invalidate true true true true true⟩

/-- eager_rich_line.hpp 192-198: assignment of a plain line; nothing is invalidated. -/
def Eager.assignPlain (G : Geo P R A) (l : Lazy P R A) (pts : List P) : Outcome (Lazy P R A) :=
  Lazy.compute G { l with pts := pts }

/-- eager_rich_line.hpp 200-213: assignment of a lazily evaluated line; its entries are appended. -/
def Eager.assignLazy (G : Geo P R A) (l other : Lazy P R A) : Outcome (Lazy P R A) :=
  (Lazy.compute G other).map fun o =>
    ⟨o.pts, { o.data with lengths := l.data.lengths ++ o.data.lengths, azimuths := l.data.azimuths ++ o.data.azimuths }⟩

/-- eager_rich_line.hpp 225-279, rich_line_data.hpp 139-219: the cached values are read.  Simplification (208-215): the
number returned where there is no direction is not modelled, only that there is none. -/
def Eager.query (G : Geo P R A) (l : Lazy P R A) : Query → Outcome (Answer R A)
  | .length => .ok (.len l.data.length)
  | .azimuth => .ok (.angle l.data.azimuth)
  | .directions => .ok (.angle l.data.directions)
  | .absolute => .ok (.angle l.data.absolute)
  | .lengthAt pos =>
    match l.data.lengths[pos]? with
    | some c => .ok (.len c)
    | none => .throws
  | .azimuthAt pos =>
    match l.data.azimuths[pos]? with
    | some c => .ok (.angle c)
    | none => .throws
  | .directionAt pos =>
    match (l.data.azimuths.zip l.data.azimuths.tail)[pos]? with
    | some c => .ok (.angle (dirCell G c))
    | none => .throws

/-! ### Segments -/

/-- lazy_rich_segment.hpp 27-32, eager_rich_segment.hpp 27-32, rich_segment_data.hpp 86-87: the members. -/
structure Seg (P R A : Type) where
  first : P
  second : P
  length : Cell R
  azimuth : Cell A
  deriving DecidableEq, Repr

/-- rich_segment_data.hpp 86-89: a segment without values. -/
def Seg.plain (p q : P) : Seg P R A := ⟨p, q, .uninit, .uninit⟩

/-- rich_segment_data.hpp 98-105 `_compute_length`. -/
def Seg.computeLength (G : Geo P R A) (s : Seg P R A) : Seg P R A :=
  if s.length.isUninit then { s with length := segLen G (s.first, s.second) } else s

/-- rich_segment_data.hpp 107-114 `_compute_azimuth`. -/
def Seg.computeAzimuth (G : Geo P R A) (s : Seg P R A) : Seg P R A :=
  if s.azimuth.isUninit then { s with azimuth := segAz G (s.first, s.second) } else s

/-- rich_segment_data.hpp 116-119 `_compute`. -/
def Seg.compute (G : Geo P R A) (s : Seg P R A) : Seg P R A := (s.computeLength G).computeAzimuth G

/-- eager_rich_segment.hpp 47-62, 79-83: constructors from points and plain segments. -/
def Seg.eager (G : Geo P R A) (p q : P) : Seg P R A := (Seg.plain p q).compute G

/-- eager_rich_line.hpp 281-296 `rich_segment(pos)`, `rich_referring_segment(pos)`: the values of the line at a position are
taken over; `throws`: out of range. -/
def Eager.segment (l : Lazy P R A) (pos : Nat) : Outcome (Seg P R A) :=
  match (segs l.pts)[pos]?, l.data.lengths[pos]?, l.data.azimuths[pos]? with
  | some s, some a, some b => .ok ⟨s.1, s.2, a, b⟩
  | _, _, _ => .throws

/-- lazy_rich_segment.hpp 107-111: assignment of a plain segment to a lazily evaluated one; the values are kept. -/
def Seg.assignPlain (s : Seg P R A) (p q : P) : Seg P R A := { s with first := p, second := q }

/-- eager_rich_segment.hpp 115-120: assignment of a plain segment to an evaluated one; only what is missing is computed. -/
def Seg.assignPlainEager (G : Geo P R A) (s : Seg P R A) (p q : P) : Seg P R A := (s.assignPlain p q).compute G

/-- Queries of a lazily evaluated segment and what is left of it (lazy_rich_segment.hpp 137-145). -/
def Seg.askLength (G : Geo P R A) (s : Seg P R A) : Cell R × Seg P R A := ((s.computeLength G).length, s.computeLength G)

/-- lazy_rich_segment.hpp 147-155. -/
def Seg.askAzimuth (G : Geo P R A) (s : Seg P R A) : Cell A × Seg P R A := ((s.computeAzimuth G).azimuth, s.computeAzimuth G)

end MM.Line
