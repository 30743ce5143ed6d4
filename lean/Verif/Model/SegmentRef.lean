import Verif.Model.EagerLine

/-!
# Segments that own their points, refer to them, or point to them

`INC/geometry/rich_type/{rich_segment,lazy_rich_segment,eager_rich_segment,rich_segment_data}.hpp` over the three segment types
of `INC/geometry/types.hpp` 37-39: `segment` holds two points, `referring_segment` two references, `pointing_segment` two
pointers.  Points are kept in cells with an address; address 0 is the null pointer.  An address is not used a second time, so
that reading a point that is gone is always seen as undefined behaviour.

Simplifications: copying and moving are the same, because moving a point copies its coordinates (`point.hpp`); the points of a
line stay where they are as long as the line lives (no reallocation); lines are not `const` objects, so that writing to a point
through `const_cast` (rich_segment.hpp 160-162, 175-177) is defined; variables are named by numbers that are not used again, and
using one that is gone is undefined behaviour.
-/

set_option autoImplicit false

namespace MM.SegRef

open Line (Cell Geo segLen segAz)

variable {P : Type} [DecidableEq P] {R A : Type}

/-- types.hpp 37-39 `segment_type`, `referring_segment_type`, `pointing_segment_type`; concepts.hpp 26-35. -/
inductive Kind
  | own
  | refer
  | point
  deriving DecidableEq, Repr

/-- rich_segment.hpp 37, lazy_rich_segment.hpp 28, eager_rich_segment.hpp 28: values computed whenever they are asked for, at the
first time, or when the segment is built. -/
inductive Style
  | plain
  | lazy
  | eager
  deriving DecidableEq, Repr

/-- rich_segment.hpp 227 `_segment` and rich_segment_data.hpp 86-87 `_length`, `_azimuth`: the addresses of both points and the
values kept.  A plain segment keeps none. -/
structure Seg (R A : Type) where
  kind : Kind
  style : Style
  first : Nat
  second : Nat
  length : Cell R
  azimuth : Cell A
  deriving DecidableEq, Repr

/-- Points in memory, lines as addresses of their points (rich_line.hpp 558 `_line`), and variables of segment types. -/
structure World (P R A : Type) where
  mem : Nat → Option P
  next : Nat
  lines : List (List Nat)
  segs : List (Option (Seg R A))

/-- Nothing in memory (address 0 is null) (types.hpp 37-39). -/
def World.empty : World P R A := ⟨fun _ => none, 1, [], []⟩

/-- rich_segment.hpp 149-158, 164-173: the point a segment is asked for is read. -/
def World.read (w : World P R A) (a : Nat) : Outcome P :=
  match w.mem a with
  | some p => .ok p
  | none => .ub

/-- rich_segment.hpp 149-173 `first()`, `second()`. -/
def World.points (w : World P R A) (s : Seg R A) : Outcome (P × P) :=
  (w.read s.first).bind fun p => (w.read s.second).map fun q => (p, q)

/-- rich_segment.hpp 90-91, 106-107: assignment to the point referred to. -/
def World.write (w : World P R A) (a : Nat) (p : P) : Outcome (World P R A) :=
  match w.mem a with
  | some _ => .ok { w with mem := fun b => if b = a then some p else w.mem b }
  | none => .ub

/-- Points of a line or of an owning segment come to be (rich_line.hpp 558, rich_segment.hpp 227). -/
def World.alloc (w : World P R A) (ps : List P) : World P R A :=
  { w with
    mem := fun b => if w.next ≤ b ∧ b < w.next + ps.length then ps[b - w.next]? else w.mem b
    next := w.next + ps.length }

/-- Points cease to be (rich_line.hpp 130 `~rich_line`, rich_segment.hpp 111 `~rich_segment`). -/
def World.free (w : World P R A) (as : List Nat) : World P R A :=
  { w with mem := fun b => if b ∈ as then none else w.mem b }

/-- rich_segment_data.hpp 98-105 `_compute_length`. -/
def World.computeLength (G : Geo P R A) (w : World P R A) (s : Seg R A) : Outcome (Seg R A) :=
  if s.length.isUninit then (w.points s).map fun pq => { s with length := segLen G pq } else .ok s

/-- rich_segment_data.hpp 107-114 `_compute_azimuth`. -/
def World.computeAzimuth (G : Geo P R A) (w : World P R A) (s : Seg R A) : Outcome (Seg R A) :=
  if s.azimuth.isUninit then (w.points s).map fun pq => { s with azimuth := segAz G pq } else .ok s

/-- rich_segment_data.hpp 116-119 `_compute`. -/
def World.compute (G : Geo P R A) (w : World P R A) (s : Seg R A) : Outcome (Seg R A) :=
  (w.computeLength G s).bind (w.computeAzimuth G)

/-- What a segment answers for length and azimuth, and what is left of it: rich_segment.hpp 121-139 (computed each time),
lazy_rich_segment.hpp 137-155 (computed at the first time), eager_rich_segment.hpp 147-161 (read). -/
def World.ask (G : Geo P R A) (w : World P R A) (s : Seg R A) : Outcome ((Cell R × Cell A) × Seg R A) :=
  match s.style with
  | .plain => (w.points s).map fun pq => ((segLen G pq, segAz G pq), s)
  | .lazy => (w.compute G s).map fun s' => ((s'.length, s'.azimuth), s')
  | .eager => .ok ((s.length, s.azimuth), s)

/-- rich_segment.hpp 50-56, lazy_rich_segment.hpp 47-53, eager_rich_segment.hpp 47-57: a segment of two points.  An owning one
copies them, the others take their addresses. -/
def World.ofPoints (G : Geo P R A) (w : World P R A) (k : Kind) (st : Style) (a b : Nat) :
    Outcome (World P R A × Seg R A) :=
  (w.read a).bind fun p => (w.read b).bind fun q =>
    match k with
    | .own => (finish (w.alloc [p, q]) ⟨.own, st, w.next, w.next + 1, .uninit, .uninit⟩)
    | .refer => finish w ⟨.refer, st, a, b, .uninit, .uninit⟩
    | .point => finish w ⟨.point, st, a, b, .uninit, .uninit⟩
where
  /-- eager_rich_segment.hpp 50, 56: `_compute`. -/
  finish (w : World P R A) (s : Seg R A) : Outcome (World P R A × Seg R A) :=
    match st with
    | .eager => (w.compute G s).map fun s' => (w, s')
    | _ => .ok (w, s)

/-- rich_segment.hpp 61-77: the segment of a new rich segment.  The same kind is copied (61-63, 70-72), which for references and
pointers does not touch the points; another kind is made of the points of the source (65-68, 74-77). -/
def World.convert (w : World P R A) (k : Kind) (s : Seg R A) : Outcome (World P R A × (Nat × Nat)) :=
  match k with
  | .own => (w.points s).map fun pq => (w.alloc [pq.1, pq.2], (w.next, w.next + 1))
  | .refer => if s.kind = .refer then .ok (w, (s.first, s.second)) else (w.points s).map fun _ => (w, (s.first, s.second))
  | .point => if s.kind = .point then .ok (w, (s.first, s.second)) else (w.points s).map fun _ => (w, (s.first, s.second))

/-- Construction from another segment; also what is left of the source.
lazy_rich_segment.hpp 64-88 (values taken over from lazily and eagerly evaluated ones, none from plain ones),
eager_rich_segment.hpp 70-96 (taken over from evaluated ones, asked from lazily evaluated ones 85-87, computed for plain ones
79-83). -/
def World.construct (G : Geo P R A) (w : World P R A) (k : Kind) (st : Style) (s : Seg R A) :
    Outcome (World P R A × Seg R A × Seg R A) :=
  match st, s.style with
  | .plain, _ => (w.convert k s).map fun r => (r.1, ⟨k, .plain, r.2.1, r.2.2, .uninit, .uninit⟩, s)
  | .lazy, .plain => (w.convert k s).map fun r => (r.1, ⟨k, .lazy, r.2.1, r.2.2, .uninit, .uninit⟩, s)
  | .lazy, _ => (w.convert k s).map fun r => (r.1, ⟨k, .lazy, r.2.1, r.2.2, s.length, s.azimuth⟩, s)
  | .eager, .plain => (w.convert k s).bind fun r =>
      (r.1.compute G ⟨k, .eager, r.2.1, r.2.2, .uninit, .uninit⟩).map fun t => (r.1, t, s)
  | .eager, .lazy => (w.compute G s).bind fun s' =>
      (w.convert k s').map fun r => (r.1, ⟨k, .eager, r.2.1, r.2.2, s'.length, s'.azimuth⟩, s')
  | .eager, .eager => (w.convert k s).map fun r => (r.1, ⟨k, .eager, r.2.1, r.2.2, s.length, s.azimuth⟩, s)

/-- Pointers are set anew: rich_segment.hpp 79-85, 95-101 with `std::copyable` pointing segments. -/
def rebinds (t s : Seg R A) : Bool := t.kind = .point ∧ s.kind = .point

/-- rich_segment.hpp 79-109 `operator=`: pointers are set anew if both segments are pointing ones; otherwise both points are
written to, one after the other (for owning segments 82 `_segment = other._segment`, pair by pair; for references, which are not
`std::copyable`, and for other kinds 90-91, 106-107). -/
def World.assignPoints (w : World P R A) (t s : Seg R A) : Outcome (World P R A × Seg R A) :=
  if rebinds t s then .ok (w, { t with first := s.first, second := s.second })
  else
    (w.read s.first).bind fun p => (w.write t.first p).bind fun w1 =>
      (w1.read s.second).bind fun q => (w1.write t.second q).map fun w2 => (w2, t)

/-- The values of the source taken over (rich_segment_data.hpp 44-58 `operator=`). -/
def takeData (t s : Seg R A) : Seg R A := { t with length := s.length, azimuth := s.azimuth }

/-- Assignment; also what is left of the source.  lazy_rich_segment.hpp 90-135: values first, then points; from plain segments
only the points (106-110).  eager_rich_segment.hpp 98-145: values first, then points; from plain segments the points, then
`_compute`, which computes only what is missing (115-120); from lazily evaluated ones the points, then the values (122-128).
rich_segment.hpp 79-109 for plain ones. -/
def World.assign (G : Geo P R A) (w : World P R A) (t s : Seg R A) :
    Outcome (World P R A × Seg R A × Seg R A) :=
  match t.style, s.style with
  | .plain, _ => (w.assignPoints t s).map fun r => (r.1, r.2, s)
  | .lazy, .plain => (w.assignPoints t s).map fun r => (r.1, r.2, s)
  | .lazy, _ => (w.assignPoints (takeData t s) s).map fun r => (r.1, r.2, s)
  | .eager, .plain => (w.assignPoints t s).bind fun r => (r.1.compute G r.2).map fun t' => (r.1, t', s)
  | .eager, .lazy => (w.assignPoints t s).bind fun r =>
      (r.1.compute G s).map fun s' => (r.1, takeData r.2 s', s')
  | .eager, .eager => (w.assignPoints (takeData t s) s).map fun r => (r.1, r.2, s)

/-- What a program does with lines and segments (rich_segment.hpp 37-177, rich_line.hpp 315-364). -/
inductive Op (P : Type)
  /-- a line is built -/
  | line (ps : List P)
  /-- `line[i] = p` (rich_line.hpp 358-364) -/
  | set (l i : Nat) (p : P)
  /-- the end of a line -/
  | dropLine (l : Nat)
  /-- a segment of a line (rich_line.hpp 315-356) -/
  | take (k : Kind) (st : Style) (l i : Nat)
  /-- `rich_segment{}` of a pointing segment (rich_segment.hpp 46-48) -/
  | null (st : Style)
  /-- construction from a segment -/
  | make (k : Kind) (st : Style) (j : Nat)
  /-- `j = k` -/
  | assign (j k : Nat)
  /-- length and azimuth are asked for -/
  | ask (j : Nat)
  /-- the end of a segment -/
  | drop (j : Nat)

/-- A variable (rich_segment.hpp 37-177). -/
def World.seg (w : World P R A) (j : Nat) : Option (Seg R A) := (w.segs[j]?).join

/-- A line (rich_line.hpp 315-364). -/
def World.line (w : World P R A) (l : Nat) : List Nat := (w.lines[l]?).getD []

/-- What a variable holds afterwards (rich_segment.hpp 37-177). -/
def World.put (w : World P R A) (j : Nat) (s : Seg R A) : World P R A := { w with segs := w.segs.set j (some s) }

/-- A new variable (rich_segment.hpp 37-177). -/
def World.push (w : World P R A) (s : Seg R A) : World P R A := { w with segs := w.segs ++ [some s] }

/-- The cells a segment owns (types.hpp 37-39). -/
def Seg.cells (s : Seg R A) : List Nat := if s.kind = .own then [s.first, s.second] else []

/-- One step of a program; rich_line.hpp 336-343: `throws` beyond the last segment; rich_segment.hpp 79-85, 95-101 and
rich_segment_data.hpp 45, 53: assigning a segment to itself has no effect (references are written to themselves). -/
def World.step (G : Geo P R A) (w : World P R A) : Op P → Outcome (World P R A)
  | .line ps => .ok { w.alloc ps with lines := w.lines ++ [(List.range ps.length).map (w.next + ·)] }
  | .set l i p => match (w.line l)[i]? with
    | some a => w.write a p
    | none => .ub
  | .dropLine l => .ok { w.free (w.line l) with lines := w.lines.set l [] }
  | .take k st l i => match (w.line l)[i]?, (w.line l)[i + 1]? with
    | some a, some b => (w.ofPoints G k st a b).map fun r => r.1.push r.2
    | _, _ => .throws
  | .null st => .ok (w.push ⟨.point, st, 0, 0, .uninit, .uninit⟩)
  | .make k st j => match w.seg j with
    | some s => (w.construct G k st s).map fun r => (r.1.put j r.2.2).push r.2.1
    | none => .ub
  | .assign j k => match w.seg j, w.seg k with
    | some t, some s => if j = k ∧ t.kind ≠ .refer then .ok w else (w.assign G t s).map fun r => (r.1.put k r.2.2).put j r.2.1
    | _, _ => .ub
  | .ask j => match w.seg j with
    | some s => (w.ask G s).map fun r => w.put j r.2
    | none => .ub
  | .drop j => match w.seg j with
    | some s => .ok { w.free s.cells with segs := w.segs.set j none }
    | none => .ub

/-- A program (rich_segment.hpp 37-177, rich_line.hpp 315-364). -/
def World.run (G : Geo P R A) : World P R A → List (Op P) → Outcome (World P R A)
  | w, [] => .ok w
  | w, op :: ops => (w.step G op).bind fun w' => w'.run G ops

end MM.SegRef
