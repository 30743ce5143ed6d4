import Verif.Model.Outcome
import Verif.Model.Common
import Mathlib.Algebra.Order.Group.Unbundled.Abs

/-!
# Lengths, azimuths and directions of plain lines and segments (geometry/algorithm/length.hpp, azimuth.hpp, direction.hpp)

Points are of any type `P`, numbers of an ordered field `R`.  `az` is `azimuth_deg` (azimuth.hpp 56-61, for the cache see C35), `ang` the angle
between two points at the centre of the earth.
-/

set_option autoImplicit false

namespace MM.Measures

variable {P R : Type} [Field R] [LinearOrder R] [IsStrictOrderedRing R]

/-- direction.hpp 34-39 `direction_deg`. -/
def direction (az : P → P → R) (a b c : P) : R := Common.angleDiff (az a b) (az b c)

/-- direction.hpp 46-48 and 57-59: the loop from index `i`, `fuel` steps; reading past the end is undefined. -/
def sumLoop (f : P → P → P → R) (line : List P) : Nat → Nat → R → Outcome R
  | 0, _, acc => .ok acc
  | fuel + 1, i, acc =>
    match line[i]?, line[i + 1]?, line[i + 2]? with
    | some a, some b, some c => sumLoop f line fuel (i + 1) (acc + f a b c)
    | _, _, _ => .ub

/-- direction.hpp 41-50 `directions_deg`. -/
def directions (az : P → P → R) (line : List P) : Outcome R := sumLoop (direction az) line (line.length - 2) 0 0

/-- direction.hpp 52-61 `absolute_directions_deg`. -/
def absolute (az : P → P → R) (line : List P) : Outcome R := sumLoop (fun a b c => |direction az a b c|) line (line.length - 2) 0 0

/-- direction.hpp 69-73: the loop over both sums. -/
def bothLoop (az : P → P → R) (line : List P) : Nat → Nat → R × R → Outcome (R × R)
  | 0, _, acc => .ok acc
  | fuel + 1, i, acc =>
    match line[i]?, line[i + 1]?, line[i + 2]? with
    | some a, some b, some c => bothLoop az line fuel (i + 1) (acc.1 + direction az a b c, acc.2 + |direction az a b c|)
    | _, _, _ => .ub

/-- direction.hpp 63-75 `combined_directions_deg`. -/
def combined (az : P → P → R) (line : List P) : Outcome (R × R) := bothLoop az line (line.length - 2) 0 (0, 0)

/-- azimuth.hpp 63-71 `azimuth_line_deg`. -/
def azimuthLine (az : P → P → R) (line : List P) : R :=
  match line.head?, line.getLast? with
  | some a, some b => if line.length ≥ 2 then az a b else 0
  | _, _ => 0

/-- azimuth.hpp 86-105 `segments_azimuths_deg`, 73-84 `azimuth_segment_deg`. -/
def segmentsAzimuths (az : P → P → R) (segments : List (P × P)) : List R := segments.map fun s => az s.1 s.2

/-- direction.hpp 96-101, 129-134: the loop over segments from index `i`, `fuel` steps. -/
def segLoop (f : P → P → P → R) (segments : List (P × P)) : Nat → Nat → Outcome (List R)
  | 0, _ => .ok []
  | fuel + 1, i =>
    match segments[i]?, segments[i + 1]? with
    | some a, some b => (segLoop f segments fuel (i + 1)).map (f a.1 a.2 b.2 :: ·)
    | _, _ => .ub

/-- direction.hpp 103-105, 136-138: the loop over azimuths. -/
def azLoop (f : R → R → R) (azimuths : List R) : Nat → Nat → Outcome (List R)
  | 0, _ => .ok []
  | fuel + 1, i =>
    match azimuths[i]?, azimuths[i + 1]? with
    | some a, some b => (azLoop f azimuths fuel (i + 1)).map (f a b :: ·)
    | _, _ => .ub

/-- direction.hpp 77-108 `segments_directions_deg`; `size_type(0) - 1` elements cannot be reserved (line 93). -/
def segmentsDirections (az : P → P → R) (segments : List (P × P)) (azimuths : List R) : Outcome (List R) :=
  if segments = [] then .throws
  else if azimuths = [] then segLoop (direction az) segments (segments.length - 1) 0
  else azLoop Common.angleDiff azimuths (azimuths.length - 1) 0

/-- direction.hpp 110-141 `segments_absolute_directions_deg`. -/
def segmentsAbsolute (az : P → P → R) (segments : List (P × P)) (azimuths : List R) : Outcome (List R) :=
  if segments = [] then .throws
  else if azimuths = [] then segLoop (fun a b c => |direction az a b c|) segments (segments.length - 1) 0
  else azLoop (fun a b => |Common.angleDiff a b|) azimuths (azimuths.length - 1) 0

/-- direction.hpp 166-173: the loop over segments, both lists. -/
def segBothLoop (az : P → P → R) (segments : List (P × P)) : Nat → Nat → List R × List R → Outcome (List R × List R)
  | 0, _, acc => .ok acc
  | fuel + 1, i, acc =>
    match segments[i]?, segments[i + 1]? with
    | some a, some b =>
      segBothLoop az segments fuel (i + 1) (acc.1 ++ [direction az a.1 a.2 b.2], acc.2 ++ [|direction az a.1 a.2 b.2|])
    | _, _ => .ub

/-- direction.hpp 175-179: the loop over azimuths, both lists. -/
def azBothLoop (azimuths : List R) : Nat → Nat → List R × List R → Outcome (List R × List R)
  | 0, _, acc => .ok acc
  | fuel + 1, i, acc =>
    match azimuths[i]?, azimuths[i + 1]? with
    | some a, some b => azBothLoop azimuths fuel (i + 1) (acc.1 ++ [Common.angleDiff a b], acc.2 ++ [|Common.angleDiff a b|])
    | _, _ => .ub

/-- direction.hpp 143-182 `segments_combined_directions_deg`. -/
def segmentsCombined (az : P → P → R) (segments : List (P × P)) (azimuths : List R) : Outcome (List R × List R) :=
  if segments = [] then .throws
  else if azimuths = [] then segBothLoop az segments (segments.length - 1) 0 ([], [])
  else azBothLoop azimuths (azimuths.length - 1) 0 ([], [])

/-- length.hpp 37-47 `length_segment`, 49-69 `segments_lengths`, distance.hpp 24-36: spherical, with the radius in metres. -/
def segmentsLengths (ang : P → P → R) (segments : List (P × P)) : List R := segments.map fun s => 6371 * 1000 * ang s.1 s.2

/-- length.hpp 26-31 `length`, spherical. -/
def length (ang : P → P → R) (line : List P) : R := ((line.zip line.tail).map fun s => 6371 * ang s.1 s.2).sum

end MM.Measures
