import Verif.Model.RichLine
import Verif.Model.Outcome
import Mathlib.Order.Defs.LinearOrder

/-!
# Simplification of lines and of segments (geometry/algorithm/simplify.hpp)

The distance of a point to a segment is a parameter `dist p a b`; distances are from a linear order (no NaN).  Recursion that
does not come to an end runs out of `fuel` and gives `ub`, as it exhausts the stack.
-/

set_option autoImplicit false

namespace MM.Simplify

open MM.Line

variable {P R A : Type} [LinearOrder R] [Zero R]

/-- simplify.hpp 49-59: the last point that is farther than all before, among points numbered from `i`. -/
def scan (dist : P → P → P → R) (a b : P) : List P → Nat → Nat × R → Nat × R
  | [], _, best => best
  | p :: ps, i, best => scan dist a b ps (i + 1) (if best.2 < dist p a b then (i, dist p a b) else best)

/-- simplify.hpp 46-59: the points strictly between `from` and `to - 1` are compared with the segment. -/
def farthest (dist : P → P → P → R) (line : List P) (lo hi : Nat) (a b : P) : Nat × R :=
  scan dist a b ((line.drop (lo + 1)).take (hi - lo - 2)) (lo + 1) (0, 0)

/-- simplify.hpp 30-74 `simplify_indices(line, from, to, tolerance)`. -/
def simplifyIndices (dist : P → P → P → R) (tol : R) (line : List P) : Nat → Nat → Nat → Outcome (List Nat)
  | 0, _, _ => .ub
  | fuel + 1, lo, hi =>
    if hi ≤ lo ∨ hi - lo < 2 ∨ line.length ≤ lo ∨ line.length < hi then .ok []
    else
      match line[lo]?, line[hi - 1]? with
      | some a, some b =>
        if tol < (farthest dist line lo hi a b).2 then
          (simplifyIndices dist tol line fuel lo ((farthest dist line lo hi a b).1 + 1)).bind fun l =>
            (simplifyIndices dist tol line fuel (farthest dist line lo hi a b).1 hi).bind fun r => .ok (l ++ r)
        else .ok (List.range' (lo + 1) (hi - lo - 2))
      | _, _ => .ub

/-- simplify.hpp 76-87 `simplify(line, from, to, tolerance)`; the erasure is that of rich_line.hpp 441-447. -/
def simplify (dist : P → P → P → R) (tol : R) (fuel : Nat) (line : List P) (lo hi : Nat) : Outcome (List P) :=
  (simplifyIndices dist tol line fuel lo hi).map (eraseAll line)

/-- simplify.hpp 104-108 and 189-192: both segments have a direction and the second turns back.  `turn` is the comparison
of the absolute change of direction with 180 degrees minus the tolerance. -/
def reverses [DecidableEq P] (G : Geo P R A) (turn : A → Bool) (s t : P × P) : Bool :=
  decide (s.1 ≠ s.2) && decide (t.1 ≠ t.2) && turn (G.dir (G.az s.1 s.2) (G.az t.1 t.2))

/-- simplify.hpp 101-109: is point `i + 1` a reversal? -/
def reversalAt [DecidableEq P] (G : Geo P R A) (turn : A → Bool) (line : List P) (i : Nat) : Bool :=
  match (segs line)[i]?, (segs line)[i + 1]? with
  | some s, some t => reverses G turn s t
  | _, _ => false

/-- simplify.hpp 98-119: the loop over the segments `is`; `index` is where the current part begins. -/
def splitLoop [DecidableEq P] (dist : P → P → P → R) (tol : R) (G : Geo P R A) (turn : A → Bool) (line : List P) (fuel : Nat) :
    List Nat → Nat → Outcome (List Nat)
  | [], index => simplifyIndices dist tol line fuel index line.length
  | i :: is, index =>
    if reversalAt G turn line i then
      (simplifyIndices dist tol line fuel index (i + 2)).bind fun l =>
        (splitLoop dist tol G turn line fuel is (i + 1)).bind fun r => .ok (l ++ r)
    else splitLoop dist tol G turn line fuel is index

/-- simplify.hpp 89-123 `simplify_rich_line_indices`. -/
def richLineIndices [DecidableEq P] (dist : P → P → P → R) (tol : R) (G : Geo P R A) (turn : A → Bool) (fuel : Nat) (retain : Bool)
    (line : List P) : Outcome (List Nat) :=
  if retain then splitLoop dist tol G turn line fuel (List.range (line.length - 2)) 0
  else simplifyIndices dist tol line fuel 0 line.length

/-- simplify.hpp 125-130 `simplify_rich_line`. -/
def simplifyRichLine [DecidableEq P] (dist : P → P → P → R) (tol : R) (G : Geo P R A) (turn : A → Bool) (fuel : Nat) (retain : Bool)
    (line : List P) : Outcome (List P) :=
  (richLineIndices dist tol G turn fuel retain line).map (eraseAll line)

/-- simplify.hpp 132-168 `_simplify_rich_segments` on the part `begin .. end` of the list; the segments after the first are
numbered from 1.  A position that was never set (a default iterator) is used if the tolerance is negative: `ub`. -/
def simplifySegments (dist : P → P → P → R) (tol : R) : Nat → List (P × P) → Outcome (List (P × P))
  | 0, _ => .ub
  | fuel + 1, ss =>
    if ss.length < 2 then .ok ss
    else
      match ss.head?, ss.getLast? with
      | some s, some t =>
        if tol < (scan dist s.1 t.2 (ss.tail.map Prod.fst) 1 (0, 0)).2 then
          if (scan dist s.1 t.2 (ss.tail.map Prod.fst) 1 (0, 0)).1 = 0 then .ub
          else
            (simplifySegments dist tol fuel (ss.take (scan dist s.1 t.2 (ss.tail.map Prod.fst) 1 (0, 0)).1)).bind fun l =>
              (simplifySegments dist tol fuel (ss.drop (scan dist s.1 t.2 (ss.tail.map Prod.fst) 1 (0, 0)).1)).bind fun r =>
                .ok (l ++ r)
        else .ok [(s.1, t.2)]
      | _, _ => .ub

/-- simplify.hpp 179-206: `part` are the segments from `index` to `it`.  Simplified: the positions after an erasure are those
of the list. -/
def segmentsLoop [DecidableEq P] (dist : P → P → P → R) (tol : R) (G : Geo P R A) (turn : A → Bool) (fuel : Nat) :
    List (P × P) → P × P → List (P × P) → Outcome (List (P × P))
  | part, s, [] => simplifySegments dist tol fuel (part ++ [s])
  | part, s, t :: rest =>
    if reverses G turn s t then
      (simplifySegments dist tol fuel (part ++ [s])).bind fun l =>
        (segmentsLoop dist tol G turn fuel [] t rest).bind fun r => .ok (l ++ r)
    else segmentsLoop dist tol G turn fuel (part ++ [s]) t rest

/-- simplify.hpp 170-208 `simplify_rich_segments`. -/
def simplifyRichSegments [DecidableEq P] (dist : P → P → P → R) (tol : R) (G : Geo P R A) (turn : A → Bool) (fuel : Nat)
    (retain : Bool) (ss : List (P × P)) : Outcome (List (P × P)) :=
  if retain then
    match ss with
    | [] => simplifySegments dist tol fuel []
    | s :: rest => segmentsLoop dist tol G turn fuel [] s rest
  else simplifySegments dist tol fuel ss

end MM.Simplify
