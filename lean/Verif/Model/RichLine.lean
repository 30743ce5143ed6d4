import Verif.Model.Outcome

/-!
# Lines with cached lengths, azimuths and directions

`INC/geometry/rich_type/{rich_line,rich_line_data,lazy_rich_line,multi_rich_line,common}.hpp`.  Points are compared
coordinate by coordinate (`INC/geometry/algorithm/equals.hpp` 32-47), here by decidable equality.  Lengths and angles are
abstract; a value is never NaN or infinite itself.  Allocators and container types are left out.
-/

set_option autoImplicit false

namespace MM.Line

variable {P : Type} [DecidableEq P]

/-! ### rich_line.hpp: points -/

/-- rich_line.hpp 571-587 `_merge_single`. -/
def mergeSingle (l next : List P) : Outcome (List P) :=
  match next with
  | [] => .ok l
  | q :: rest =>
    match l.getLast? with
    | none => .ok (q :: rest)
    | some p => if p = q then .ok (l ++ rest) else .throws

/-- rich_line.hpp 492-514 `merge`, both variants: one line after the other. -/
def merge : List P → List (List P) → Outcome (List P)
  | l, [] => .ok l
  | l, n :: ns => (mergeSingle l n).bind (fun l' => merge l' ns)

/-- rich_line.hpp 561-569 `_add_size`. -/
def addSize (size : Nat) (next : List P) : Nat :=
  if 1 ≤ next.length then (if size = 0 then 1 else size) + (next.length - 1) else size

/-- rich_line.hpp 474-490 `calculate_new_size`. -/
def newSize (l : List P) (ns : List (List P)) : Nat := ns.foldl addSize l.length

/-- rich_line.hpp 398-403 `attaches`. -/
def attaches (a b : List P) : Bool :=
  match a.getLast?, b.head? with
  | some p, some q => decide (p = q)
  | _, _ => false

/-- rich_line.hpp 405-423 `sub_line`. -/
def subLine (l : List P) (a b : Nat) : Outcome (List P) :=
  if a ≤ b ∧ a < l.length ∧ b ≤ l.length then .ok ((l.drop a).take (b - a)) else .throws

/-- rich_line.hpp 435-439 `erase(index)`. -/
def eraseAt (l : List P) (i : Nat) : List P := if i < l.length then l.eraseIdx i else l

/-- rich_line.hpp 441-447 `erase(indices)`: from the last to the first. -/
def eraseAll (l : List P) (is : List Nat) : List P := is.reverse.foldl eraseAt l

/-! ### multi_rich_line.hpp: merge -/

/-- multi_rich_line.hpp 403-407: a gap between two neighbours. -/
def gap (a b : List P) : Bool :=
  match a.getLast?, b.head? with
  | some p, some q => decide (p ≠ q)
  | _, _ => false

/-- multi_rich_line.hpp 398-414: `start_it .. it` is `group` (in order), `prev` is its last line. -/
def splitGroups : List (List P) → List P → List (List P) → List (List (List P))
  | group, _, [] => [group]
  | group, prev, n :: ns =>
    if gap prev n then group :: splitGroups [n] n ns else splitGroups (group ++ [n]) n ns

/-- multi_rich_line.hpp 398-419: all ranges that are merged, in order. -/
def groupsOf : List (List P) → List (List (List P))
  | [] => [[]]
  | n :: ns => splitGroups [n] n ns

/-- multi_rich_line.hpp 408, 416: every range is merged into an empty line and appended. -/
def mergeGroups : List (List P) → List (List (List P)) → Outcome (List (List P))
  | acc, [] => .ok acc
  | acc, g :: gs => (merge [] g).bind (fun l => mergeGroups (acc ++ [l]) gs)

/-- multi_rich_line.hpp 393-420 `merge`. -/
def multiMerge (acc lines : List (List P)) : Outcome (List (List P)) := mergeGroups acc (groupsOf lines)

/-! ### Values of plain lines -/

/-- Geometry: length and azimuth of a segment, direction change of two azimuths, its absolute value, sums
(INC/geometry/algorithm/{length,azimuth,direction}.hpp, used in rich_line.hpp 132-305). -/
structure Geo (P R A : Type) where
  len : P → P → R
  az : P → P → A
  dir : A → A → A
  abs : A → A
  zeroR : R
  addR : R → R → R
  zeroA : A
  addA : A → A → A

variable {R A : Type}

/-- rich_line.hpp 335-342 `referring_segment`: all segments. -/
def segs (l : List P) : List (P × P) := l.zip l.tail

/-- rich_line.hpp 132-164 `has_length` and `length`; `none`: no length, `length` throws. -/
def plainLength (G : Geo P R A) (l : List P) : Option R :=
  if ((segs l).filter (fun s => decide (s.1 ≠ s.2))).isEmpty then none
  else some (((segs l).filter (fun s => decide (s.1 ≠ s.2))).foldl (fun acc s => G.addR acc (G.len s.1 s.2)) G.zeroR)

/-- rich_line.hpp 166-185 `has_azimuth` and `azimuth`. -/
def plainAzimuth (G : Geo P R A) (l : List P) : Option A :=
  match l.head?, l.getLast? with
  | some p, some q => if p = q then none else some (G.az p q)
  | _, _ => none

/-- rich_line.hpp 242-305: length of the segment at a position. -/
def plainLengthAt (G : Geo P R A) (s : P × P) : Option R := if s.1 = s.2 then none else some (G.len s.1 s.2)

/-- rich_line.hpp 255-268: azimuth of the segment at a position. -/
def plainAzimuthAt (G : Geo P R A) (s : P × P) : Option A := if s.1 = s.2 then none else some (G.az s.1 s.2)

/-- rich_line.hpp 284-305 `direction` of two neighbouring segments. -/
def plainDirectionAt (G : Geo P R A) (s : (P × P) × (P × P)) : Option A :=
  if s.1.1 = s.1.2 ∨ s.2.1 = s.2.2 then none else some (G.dir (G.az s.1.1 s.1.2) (G.az s.2.1 s.2.2))

/-- rich_line.hpp 187-240 `directions` (`f` the identity) and `absolute_directions` (`f` the absolute value). -/
def plainDirections (G : Geo P R A) (f : A → A) (l : List P) : Option A :=
  if (((segs l).zip (segs l).tail).filterMap (plainDirectionAt G)).isEmpty then none
  else some ((((segs l).zip (segs l).tail).filterMap (plainDirectionAt G)).foldl (fun acc d => G.addA acc (f d)) G.zeroA)

/-! ### Cached values -/

/-- common.hpp 24-38: a cached number: signaling NaN, infinity, or a value. -/
inductive Cell (α : Type) where
  | uninit
  | invalid
  | val (a : α)
  deriving DecidableEq, Repr

/-- common.hpp 35-38 `valid`. -/
def Cell.get? {α : Type} : Cell α → Option α
  | .val a => some a
  | _ => none

/-- common.hpp 30-33 `initialized`, negated. -/
def Cell.isUninit {α : Type} : Cell α → Bool
  | .uninit => true
  | _ => false

/-- rich_line_data.hpp 235-240: the members. -/
structure Data (R A : Type) where
  length : Cell R
  azimuth : Cell A
  directions : Cell A
  absolute : Cell A
  lengths : List (Cell R)
  azimuths : List (Cell A)
  deriving DecidableEq, Repr

/-- rich_line_data.hpp 242-247: default constructor. -/
def Data.new : Data R A := ⟨.uninit, .uninit, .uninit, .uninit, [], []⟩

/-- lazy_rich_line.hpp 36-60: a lazily evaluated line. -/
structure Lazy (P R A : Type) where
  pts : List P
  data : Data R A
  deriving DecidableEq, Repr

/-- lazy_rich_line.hpp 70-72: constructor from points. -/
def Lazy.new (pts : List P) : Lazy P R A := ⟨pts, Data.new⟩

/-- rich_line_data.hpp 281-299 `_invalidate`. -/
def Data.invalidate (d : Data R A) (length azimuth directions lengths azimuths : Bool) : Data R A :=
  { length := if length then .uninit else d.length
    azimuth := if azimuth then .uninit else d.azimuth
    directions := if directions then .uninit else d.directions
    absolute := if directions then .uninit else d.absolute
    lengths := if lengths then [] else d.lengths
    azimuths := if azimuths then [] else d.azimuths }

/-- rich_line_data.hpp 327-335 `_compute_segment_length`. -/
def segLen (G : Geo P R A) (s : P × P) : Cell R := if s.1 = s.2 then .invalid else .val (G.len s.1 s.2)

/-- rich_line_data.hpp 370-378 `_compute_segment_azimuth`. -/
def segAz (G : Geo P R A) (s : P × P) : Cell A := if s.1 = s.2 then .invalid else .val (G.az s.1 s.2)

/-- rich_line_data.hpp 337-348, 380-391 `_compute_lengths`, `_compute_azimuths`. -/
def computeCells {α : Type} (f : P × P → Cell α) (pts : List P) (cells : List (Cell α)) : List (Cell α) :=
  if cells.isEmpty then (segs pts).map f else cells

/-- rich_line_data.hpp 311-316, 410-416: entries not yet initialized are computed; the segment must exist. -/
def fill {α : Type} (f : P × P → Cell α) : List (Cell α) → List (P × P) → Outcome (List (Cell α))
  | [], _ => .ok []
  | .uninit :: _, [] => .throws
  | .uninit :: cs, s :: ss => (fill f cs ss).map (fun r => f s :: r)
  | c :: cs, ss => (fill f cs ss.tail).map (fun r => c :: r)

/-- rich_line_data.hpp 308-324: sum of the valid entries, not valid if there is none. -/
def sumCells {α : Type} (zero : α) (add : α → α → α) (cells : List (Cell α)) : Cell α :=
  if (cells.filterMap Cell.get?).isEmpty then .invalid else .val ((cells.filterMap Cell.get?).foldl add zero)

/-- rich_line_data.hpp 301-325 `_compute_length`. -/
def computeLength (G : Geo P R A) (l : Lazy P R A) : Outcome (Lazy P R A) :=
  match l.data.length with
  | .uninit => (fill (segLen G) (computeCells (segLen G) l.pts l.data.lengths) (segs l.pts)).map
      (fun cells => { l with data := { l.data with length := sumCells G.zeroR G.addR cells, lengths := cells } })
  | _ => .ok l

/-- rich_line_data.hpp 356-368 `_compute_azimuth`. -/
def azimuthCell (G : Geo P R A) (pts : List P) : Cell A :=
  match pts.head?, pts.getLast? with
  | some p, some q => if 2 ≤ pts.length ∧ p ≠ q then .val (G.az p q) else .invalid
  | _, _ => .invalid

/-- rich_line_data.hpp 356-368. -/
def computeAzimuth (G : Geo P R A) (l : Lazy P R A) : Lazy P R A :=
  match l.data.azimuth with
  | .uninit => { l with data := { l.data with azimuth := azimuthCell G l.pts } }
  | _ => l

/-- rich_line_data.hpp 417-422: direction of two azimuths, if both are valid. -/
def dirCell (G : Geo P R A) (p : Cell A × Cell A) : Cell A :=
  match p with
  | (.val a, .val b) => .val (G.dir a b)
  | _ => .invalid

/-- rich_line_data.hpp 406-432: the entries are initialized only if there are at least two. -/
def fillAzimuths (G : Geo P R A) (cells : List (Cell A)) (pts : List P) : Outcome (List (Cell A)) :=
  if 2 ≤ cells.length then fill (segAz G) cells (segs pts) else .ok cells

/-- rich_line_data.hpp 399-434 `_compute_directions`. -/
def computeDirections (G : Geo P R A) (l : Lazy P R A) : Outcome (Lazy P R A) :=
  if !l.data.directions.isUninit && !l.data.absolute.isUninit then .ok l
  else (fillAzimuths G (computeCells (segAz G) l.pts l.data.azimuths) l.pts).map (fun cells =>
    { l with data := { l.data with
        directions := sumCells G.zeroA G.addA ((cells.zip cells.tail).map (dirCell G))
        absolute := sumCells G.zeroA (fun acc d => G.addA acc (G.abs d)) ((cells.zip cells.tail).map (dirCell G))
        azimuths := cells } })

/-- rich_line_data.hpp 350-354, 393-397 `_initialize_length`, `_initialize_azimuth`, and the access with `at`. -/
def initCell {α : Type} (f : P × P → Cell α) (pts : List P) (cells : List (Cell α)) (pos : Nat) :
    Outcome (List (Cell α) × Cell α) :=
  match cells[pos]? with
  | none => .throws
  | some .uninit =>
    match (segs pts)[pos]? with
    | none => .throws
    | some s => .ok (cells.set pos (f s), f s)
  | some c => .ok (cells, c)

/-- Queries of lazy_rich_line.hpp 186-244. -/
inductive Query where
  | length | azimuth | directions | absolute
  | lengthAt (pos : Nat) | azimuthAt (pos : Nat) | directionAt (pos : Nat)
  deriving DecidableEq, Repr

/-- Answers of the queries (lazy_rich_line.hpp 186-244). -/
inductive Answer (R A : Type) where
  | len (c : Cell R)
  | angle (c : Cell A)
  deriving DecidableEq, Repr

/-- rich_line_data.hpp 436-445 `_initialize_direction`: throws in every case. -/
def initDirection : Outcome (Answer R A) := .throws

/-- lazy_rich_line.hpp 186-244: a query computes what is missing and answers. -/
def query (G : Geo P R A) (l : Lazy P R A) : Query → Outcome (Answer R A × Lazy P R A)
  | .length => (computeLength G l).map (fun l' => (.len l'.data.length, l'))
  | .azimuth => .ok (.angle (computeAzimuth G l).data.azimuth, computeAzimuth G l)
  | .directions => (computeDirections G l).map (fun l' => (.angle l'.data.directions, l'))
  | .absolute => (computeDirections G l).map (fun l' => (.angle l'.data.absolute, l'))
  | .lengthAt pos => (initCell (segLen G) l.pts (computeCells (segLen G) l.pts l.data.lengths) pos).map
      (fun r => (.len r.2, { l with data := { l.data with lengths := r.1 } }))
  | .azimuthAt pos => (initCell (segAz G) l.pts (computeCells (segAz G) l.pts l.data.azimuths) pos).map
      (fun r => (.angle r.2, { l with data := { l.data with azimuths := r.1 } }))
  | .directionAt _ => initDirection.map (fun a => (a, l))

/-! ### Modifications of lazy lines -/

/-- rich_line_data.hpp 480-486 (`to` is already lowered): the total values are taken over. -/
def takeOver {α β : Type} (c : Cell α) (from_ to_ : Nat) (cells : List (Cell β)) : Cell α :=
  if from_ = 0 ∧ to_ + 1 = cells.length then c else .uninit

/-- rich_line_data.hpp 487-492: the part of the entries. -/
def slice {α : Type} (from_ to_ : Nat) (cells : List (Cell α)) : List (Cell α) :=
  if cells ≠ [] ∧ from_ ≤ to_ ∧ from_ < cells.length ∧ to_ ≤ cells.length then (cells.drop from_).take (to_ - from_) else []

/-- rich_line_data.hpp 470-513 `sub_data`. -/
def subData (d : Data R A) (from_ to_ : Nat) : Data R A :=
  if to_ - 1 ≤ from_ then Data.new
  else
    { length := takeOver d.length from_ (to_ - 1) d.lengths
      azimuth := takeOver d.azimuth from_ (to_ - 1) d.lengths
      directions := takeOver d.directions from_ (to_ - 1) d.azimuths
      absolute := takeOver d.absolute from_ (to_ - 1) d.azimuths
      lengths := slice from_ (to_ - 1) d.lengths
      azimuths := slice from_ (to_ - 1) d.azimuths }

/-- lazy_rich_line.hpp 288-303 `sub_rich_line`. -/
def Lazy.sub (l : Lazy P R A) (from_ to_ : Nat) : Outcome (Lazy P R A) :=
  (subLine l.pts from_ to_).map (fun pts => ⟨pts, subData l.data from_ to_⟩)

/-- rich_line_data.hpp 575-591: one entry is erased, the one before is computed anew from the remaining points. -/
def eraseCell {α : Type} (f : P × P → Cell α) (pts : List P) (cells : List (Cell α)) (i : Nat) : List (Cell α) :=
  if cells ≠ [] ∧ i ≤ cells.length then
    if cells.eraseIdx (if i < cells.length then i else i - 1) ≠ [] ∧ 0 < i ∧ i < pts.length then
      match (segs pts)[i - 1]? with
      | none => cells.eraseIdx (if i < cells.length then i else i - 1)
      | some s => (cells.eraseIdx (if i < cells.length then i else i - 1)).set (i - 1) (f s)
    else cells.eraseIdx (if i < cells.length then i else i - 1)
  else cells

/-- rich_line_data.hpp 593-596 `_erase_and_replace` after rich_line.hpp 435-439: lazy_rich_line.hpp 306-307. -/
def Lazy.eraseQuiet (G : Geo P R A) (l : Lazy P R A) (i : Nat) : Lazy P R A :=
  ⟨eraseAt l.pts i, { l.data with
    lengths := eraseCell (segLen G) (eraseAt l.pts i) l.data.lengths i
    azimuths := eraseCell (segAz G) (eraseAt l.pts i) l.data.azimuths i }⟩

/-- lazy_rich_line.hpp 305-312 `erase(index, true)`; the size at 309 is the size after the erasure. -/
def Lazy.eraseOne (G : Geo P R A) (l : Lazy P R A) (i : Nat) : Lazy P R A :=
  ⟨(l.eraseQuiet G i).pts, (l.eraseQuiet G i).data.invalidate true
    (decide (i = 0) || decide (i + 1 = (l.eraseQuiet G i).pts.length)) true false false⟩

/-- lazy_rich_line.hpp 316: is the first or the last point concerned? -/
def touchesEnds (l : Lazy P R A) (is : List Nat) : Bool :=
  decide (is.head? = some 0) || decide (is.getLast?.map (· + 1) = some l.pts.length)

/-- lazy_rich_line.hpp 314-322 `erase(indices)`. -/
def Lazy.eraseMany (G : Geo P R A) (l : Lazy P R A) (is : List Nat) : Lazy P R A :=
  if is = [] then l
  else ⟨(is.reverse.foldl (Lazy.eraseQuiet G) l).pts,
    (is.reverse.foldl (Lazy.eraseQuiet G) l).data.invalidate true (touchesEnds l is) true false false⟩

/-- rich_line_data.hpp 521-528, 543-551: entries are padded up to the number of segments. -/
def pad {α : Type} (pts : List P) (cells : List (Cell α)) : List (Cell α) :=
  if pts = [] then cells else cells ++ List.replicate (pts.length - 1 - cells.length) .uninit

/-- rich_line_data.hpp 515-573 `_reserve`, `_merge_single`, `_merge`. -/
def mergeData (l : Lazy P R A) (ns : List (Lazy P R A)) : Data R A :=
  { l.data with
    lengths := ns.foldl (fun acc n => acc ++ pad n.pts n.data.lengths) (pad l.pts l.data.lengths)
    azimuths := ns.foldl (fun acc n => acc ++ pad n.pts n.data.azimuths) (pad l.pts l.data.azimuths) }

/-- rich_line.hpp 492-514: points after `merge`, whether it returned or threw on the way. -/
def mergePts : List P → List (List P) → List P × Bool
  | l, [] => (l, true)
  | l, n :: ns =>
    match mergeSingle l n with
    | .ok l' => mergePts l' ns
    | _ => (l, false)

/-- lazy_rich_line.hpp 324-343 `merge`: the resulting object, and whether the call returned. -/
def Lazy.merge (l : Lazy P R A) (ns : List (Lazy P R A)) : Lazy P R A × Bool :=
  if (mergePts l.pts (ns.map Lazy.pts)).2 then
    (⟨(mergePts l.pts (ns.map Lazy.pts)).1, (mergeData l ns).invalidate true true true false false⟩, true)
  else (⟨(mergePts l.pts (ns.map Lazy.pts)).1, mergeData l ns⟩, false)

/-- lazy_rich_line.hpp 154-159: assignment of points. -/
def Lazy.assignPoints (_l : Lazy P R A) (pts : List P) : Lazy P R A :=
  ⟨pts, (_l.data).invalidate true true true true true⟩

/-- lazy_rich_line.hpp 161-166: assignment of a plain line. -/
def Lazy.assignPlain (l : Lazy P R A) (pts : List P) : Lazy P R A := { l with pts := pts }

/-- lazy_rich_line.hpp 168-174 with rich_line_data.hpp 112-123: assignment of an evaluated line (another container
type): entries are appended. -/
def Lazy.assignEager (l other : Lazy P R A) : Lazy P R A :=
  ⟨other.pts, { other.data with
    lengths := l.data.lengths ++ other.data.lengths, azimuths := l.data.azimuths ++ other.data.azimuths }⟩

end MM.Line
