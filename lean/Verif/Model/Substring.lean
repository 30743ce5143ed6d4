import Verif.Model.RichLine
import Verif.Model.Outcome
import Mathlib.Order.Defs.LinearOrder

/-!
# Parts of a line (geometry/algorithm/substring.hpp)

For lazily evaluated lines, which the edges of networks are: the length of a segment with two equal points is
`not_valid`, that is infinity (rich_segment_data.hpp 90-97, rich_type/common.hpp 27-28); `none` is infinity here.
-/

set_option autoImplicit false

namespace MM.Substring

open MM.Line

variable {P R A : Type} [DecidableEq P] [LinearOrder R]

/-- lazy_rich_segment.hpp 142-145 `length`. -/
def segLen (G : Geo P R A) (s : P × P) : Option R := if s.1 = s.2 then none else some (G.len s.1 s.2)

/-- Sum with infinity (substring.hpp 76, 240, 257). -/
def plus (G : Geo P R A) : Option R → Option R → Option R
  | some a, some b => some (G.addR a b)
  | _, _ => none

/-- substring.hpp 78 `current_distance > from_distance`. -/
def beyond (c : Option R) (d : R) : Bool :=
  match c with
  | none => true
  | some c => decide (d < c)

/-- substring.hpp 83 `current_distance >= to_distance`. -/
def reached (c : Option R) (d : R) : Bool :=
  match c with
  | none => true
  | some c => decide (d ≤ c)

/-- substring.hpp 78-81: the index is set once. -/
def setOnce (found : Option Nat) (now : Bool) (i : Nat) : Option Nat :=
  match found with
  | some j => some j
  | none => if now then some i else none

/-- substring.hpp 72-87: the loop over the segments; results are the two indices as far as they were set. -/
def findIndices (G : Geo P R A) (a b : R) : List (P × P) → Nat → Option R → Option Nat → Option Nat × Option Nat
  | [], _, _, found => (found, none)
  | s :: ss, i, c, found =>
    if reached (plus G c (segLen G s)) b then
      (setOnce found (beyond (plus G c (segLen G s)) a) (i + 1), some (i + 1))
    else findIndices G a b ss (i + 1) (plus G c (segLen G s)) (setOnce found (beyond (plus G c (segLen G s)) a) (i + 1))

/-- substring.hpp 89-101: attach the end points to the middle. -/
def attach (p q : P) (middle : List P) : Outcome (List P) :=
  match middle.head?, middle.getLast? with
  | some x, some y =>
    merge (if p ≠ x then [p, x] else []) [middle, if y ≠ q then [y, q] else []]
  | _, _ => merge [p, q] [middle, []]

/-- substring.hpp 28-108 `substring`; `interp` is `line_interpolate`, `p` and `q` are points to use instead. -/
def substring (G : Geo P R A) (interp : List P → R → P) (line : List P) (a b : R) (p q : Option P) : Outcome (List P) :=
  if line = [] then .ok []
  else if p.isSome ∧ p = q then .ok []
  else if line.length = 1 then .ok line
  else
    match plainLength G line with
    | none => .ok []
    | some len =>
      if a = G.zeroR ∧ b = len then .ok line
      else if a < b then
        (subLine line ((findIndices G a b (segs line) 0 (some G.zeroR) none).1.getD 0)
          ((findIndices G a b (segs line) 0 (some G.zeroR) none).2.getD line.length)).bind fun middle =>
            attach (p.getD (interp line a)) (q.getD (interp line b)) middle
      else .ok []

/-- substring.hpp 110-118 `substring_from`; `length` of a lazy line without length is infinity, then the range is not used. -/
def substringFrom (G : Geo P R A) (interp : List P → R → P) (line : List P) (a : R) (p : Option P) : Outcome (List P) :=
  match line.getLast? with
  | none => .ub
  | some q => substring G interp line a ((plainLength G line).getD a) p (some q)

/-- substring.hpp 120-131 `substring_to`. -/
def substringTo (G : Geo P R A) (interp : List P → R → P) (line : List P) (b : R) (q : Option P) : Outcome (List P) :=
  match line.head? with
  | none => .ub
  | some p => substring G interp line G.zeroR b (some p) q

/-! ### distances -/

/-- substring.hpp 158-161: nearest segment and projection so far; `none`: not set, the distance is infinity. -/
structure Nearest (P R : Type) where
  seg : Nat
  proj : P
  dist : R

/-- substring.hpp 180-185 and 214-219: keep the nearer one. -/
def nearer (best : Option (Nearest P R)) (n : Nearest P R) : Option (Nearest P R) :=
  match best with
  | none => some n
  | some m => if n.dist < m.dist then some n else some m

/-- substring.hpp 165-188: search from the start; `proj p s` is the closest point of the segment (`closest_points`). -/
def searchFrom (G : Geo P R A) (proj : P → P × P → P) (use : Bool) (p : P) :
    List (P × P) → Nat → Option (Nearest P R) → Option (Nearest P R)
  | [], _, best => best
  | s :: ss, i, best =>
    if p = s.1 then some ⟨i, p, G.zeroR⟩
    else
      searchFrom G proj use p ss (i + 1) (nearer best ⟨i, if use then p else proj p s, G.len p (proj p s)⟩)

/-- Is the distance greater than the length of the segment (substring.hpp 192 and 226)? -/
def longer (d : R) (len : Option R) : Bool :=
  match len with
  | none => false
  | some l => decide (l < d)

/-- substring.hpp 190-194: the next segment, if the point is farther from the start of the segment than its end. -/
def adjustFrom (G : Geo P R A) (line : List P) (p : P) (k : Nat) : Nat :=
  match (segs line)[k]? with
  | none => k
  | some s => if longer (G.len s.1 p) (segLen G s) && decide (k + 1 < line.length - 1) then k + 1 else k

/-- substring.hpp 232-269, for one of the two distances: whole segments before the nearest one, then the part. -/
def along (G : Geo P R A) (k : Nat) (proj : P) : List (P × P) → Nat → Option R → Option R
  | [], _, d => d
  | s :: ss, i, d =>
    if i < k then along G k proj ss (i + 1) (plus G d (segLen G s))
    else if i = k then plus G d (if s.2 = proj then segLen G s else some (G.len s.1 proj))
    else d

/-- substring.hpp 276-283 `distance_from`, that is 133-274 with `calculate_from` only. -/
def distanceFrom (G : Geo P R A) (proj : P → P × P → P) (use : Bool) (line : List P) (p : P) : Option R :=
  if line.length ≤ 1 then some G.zeroR
  else
    match searchFrom G proj use p (segs line) 0 none with
    | none => some G.zeroR
    | some n => along G (adjustFrom G line p n.seg) n.proj (segs line) 0 (some G.zeroR)

/-- substring.hpp 197-222: search from the end, over the segments in reverse order with their numbers. -/
def searchTo (G : Geo P R A) (proj : P → P × P → P) (use : Bool) (p : P) :
    List (Nat × (P × P)) → Option (Nearest P R) → Option (Nearest P R)
  | [], best => best
  | s :: ss, best =>
    if p = s.2.2 then some ⟨s.1, p, G.zeroR⟩
    else
      searchTo G proj use p ss (nearer best ⟨s.1, if use then p else proj p s.2, G.len p (proj p s.2)⟩)

/-- substring.hpp 224-228: the segment before, if the point is farther from the end of the segment than its start. -/
def adjustTo (G : Geo P R A) (line : List P) (p : P) (k : Nat) : Nat :=
  match (segs line)[k]? with
  | none => k
  | some s => if longer (G.len s.2 p) (segLen G s) && decide (0 < k) then k - 1 else k

/-- substring.hpp 198: the segments with their numbers. -/
def numbered {α : Type} : Nat → List α → List (Nat × α)
  | _, [] => []
  | i, s :: ss => (i, s) :: numbered (i + 1) ss

/-- substring.hpp 285-292 `distance_to`, that is 133-274 with `calculate_to` only. -/
def distanceTo (G : Geo P R A) (proj : P → P × P → P) (use : Bool) (line : List P) (p : P) : Option R :=
  if line.length ≤ 1 then some G.zeroR
  else
    match searchTo G proj use p (numbered 0 (segs line)).reverse none with
    | none => some G.zeroR
    | some n => along G (adjustTo G line p n.seg) n.proj (segs line) 0 (some G.zeroR)

end MM.Substring
