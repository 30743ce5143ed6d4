import Verif.Model.Outcome
import Mathlib.Order.Defs.LinearOrder
import Mathlib.Data.List.Sort

/-!
# Comparison of points, measurements and tracks (geometry/point.hpp, geometry/track/measurement.hpp, track.hpp, multi_track.hpp)

A coordinate is a floating point number: not a number, or a value; two representations of the same value (positive and negative zero)
compare equal.  `boost::hash_combine` and the hash of a value are parameters; the library hashes both zeros alike.
-/

set_option autoImplicit false

namespace MM.Ordering

variable {L : Type} [LinearOrder L]

/-- A floating point number (coordinate type of point.hpp 52); `sign` distinguishes representations of the same value. -/
inductive Num (L : Type) where
  | nan
  | val (v : L) (sign : Bool)
deriving DecidableEq

/-- `==` of floating point numbers (point.hpp 39, 64). -/
def Num.eq : Num L → Num L → Bool
  | .val a _, .val b _ => decide (a = b)
  | _, _ => false

/-- `<` of floating point numbers (point.hpp 63). -/
def Num.lt : Num L → Num L → Bool
  | .val a _, .val b _ => decide (a < b)
  | _, _ => false

/-- point.hpp 38-40 `equals_impl`, 48-51 `==`; points of the same dimension. -/
def pointEq : List (Num L) → List (Num L) → Bool
  | a :: p, b :: q => a.eq b && pointEq p q
  | _, _ => true

/-- point.hpp 59-68 `less_impl`, 71-74 `<`. -/
def pointLt : List (Num L) → List (Num L) → Bool
  | a :: p, b :: q => a.lt b || (a.eq b && pointLt p q)
  | _, _ => false

/-- point.hpp 77-80 `<=`. -/
def pointLe (p q : List (Num L)) : Bool := !pointLt q p

/-- point.hpp 83-86 `>`. -/
def pointGt (p q : List (Num L)) : Bool := pointLt q p

/-- point.hpp 89-92 `>=`. -/
def pointGe (p q : List (Num L)) : Bool := !pointLt p q

/-- Hash of a number (`boost::hash` adds a zero before, library of point.hpp 33). -/
def numHash {W : Type} (h : L → W) (hn : W) : Num L → W
  | .nan => hn
  | .val v _ => h v

/-- point.hpp 30-35 `hash_value_impl`, 42-45, 96-105. -/
def pointHash {W : Type} (h : L → W) (hn : W) (mix : W → W → W) (zero : W) (p : List (Num L)) : W :=
  p.foldl (fun seed a => mix seed (numHash h hn a)) zero

/-- measurement.hpp 31-32. -/
structure Measurement (P : Type) where
  time : Nat
  point : P
deriving DecidableEq

/-- measurement.hpp 87-89 `==`. -/
def Measurement.eq {P : Type} (a b : Measurement P) : Bool := decide (a.time = b.time)

/-- measurement.hpp 95-97 `<`. -/
def Measurement.lt {P : Type} (a b : Measurement P) : Bool := decide (a.time < b.time)

/-- measurement.hpp 99-101 `<=`. -/
def Measurement.le {P : Type} (a b : Measurement P) : Bool := !(b.lt a)

/-- multi_rich_line.hpp 371-377 `sizes`: points of all lines of a track (multi_track.hpp 142). -/
def sizes {P : Type} (t : List (List P)) : Nat := (t.map List.length).sum

/-- The comparison of multi_track.hpp 141-150; track.hpp 117-123 is the case of one line. -/
def before {P : Type} (ascending : Bool) (a b : List (List P)) : Bool :=
  if ascending then decide (sizes a < sizes b) else decide (sizes b < sizes a)

/-- `std::sort` by a comparison (multi_track.hpp 141, 146; track.hpp 117, 121): insertion sort. -/
def sortBy {A : Type} (less : A → A → Bool) (l : List A) : List A := l.insertionSort (fun a b => less b a = false)

/-- multi_track.hpp 139-151 `sort_tracks`; the identifier goes with the lines. -/
def sortTracks {P : Type} (ascending : Bool) (ts : List (String × List (List P))) : List (String × List (List P)) :=
  sortBy (fun a b => before ascending a.2 b.2) ts

/-- track.hpp 103-113 `create_track`; for an odd number of coordinates the iterator runs past the end. -/
def createTrack {A : Type} : List A → Outcome (List (A × A))
  | [] => .ok []
  | [_] => .ub
  | x :: y :: l => (createTrack l).map fun ps => (x, y) :: ps

end MM.Ordering
