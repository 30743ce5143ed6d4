import Verif.Model.Route

/-!
# Routes: trimming the part that is travelled forth and back

Models route.hpp 426-445 `attaches`, 562-660 `find_return_line` and 684-707 `trim_merge`
(/repo/src/library/include/geometry/network/route/), and common.hpp 26-60.

The counters `(i, j)` and `(k, l)` of the code run over the points of the non-empty lines of a route; the model lists these
positions with their points first and walks through the lists.
-/

set_option autoImplicit false

namespace MM.Route

open MM.Line

variable {P : Type} [DecidableEq P] {R A : Type}

/-- common.hpp 28-30: line and point. -/
abbrev Pos := Nat × Nat

/-- route.hpp 426-445 `attaches`. -/
def Route.attachesTo (a b : Route P) : Bool :=
  if a.invalid || b.invalid then false
  else
    match (a.refs.getLast?).bind (fun r => r.line.getLast?), (b.refs.head?).bind (fun r => r.line.head?) with
    | some p, some q => decide (p = q)
    | _, _ => true

/-- route.hpp 575-588, 612-628, 639-651: the positions of a line. -/
def positionsIn (i : Nat) : Nat → List P → List (Pos × P)
  | _, [] => []
  | j, p :: ps => ((i, j), p) :: positionsIn i (j + 1) ps

/-- route.hpp 575-588, 612-628, 639-651: the positions of all lines; empty lines have none. -/
def positions : Nat → List (List P) → List (Pos × P)
  | _, [] => []
  | i, l :: ls => positionsIn i 0 l ++ positions (i + 1) ls

/-- route.hpp 607-632 and 634-655: the last position with the same point, and the positions behind it. -/
def skipSame (p : P) : Pos → List (Pos × P) → Pos × List (Pos × P)
  | cur, [] => (cur, [])
  | cur, x :: xs => if x.2 = p then skipSame p x.1 xs else (cur, x :: xs)

/-- route.hpp 596-657: the walk along both routes; `self.start` and `other.end`.  `none`: not entered, both stay unset. -/
def walk : Nat → List (Pos × P) → List (Pos × P) → Option (Pos × Pos)
  | fuel + 1, a :: as, b :: bs =>
    if a.2 = b.2 then
      if (skipSame a.2 a.1 as).2.isEmpty then some ((skipSame a.2 a.1 as).1, b.1)
      else if (skipSame b.2 b.1 bs).2.isEmpty then some ((skipSame a.2 a.1 as).1, (skipSame b.2 b.1 bs).1)
      else some ((walk fuel (skipSame a.2 a.1 as).2 (skipSame b.2 b.1 bs).2).getD
        ((skipSame a.2 a.1 as).1, (skipSame b.2 b.1 bs).1))
    else none
  | _, _, _ => none

/-- common.hpp 24-60: nothing found; ends found but `self.start` and `other.end` unset; both found. -/
inductive Search where
  | nothing
  | unset
  | parts (selfStart otherEnd : Pos)
deriving DecidableEq, Repr

/-- route.hpp 562-660 `find_return_line` (of the parts only those that `trim_merge` reads). -/
def findReturn (a b : Route P) : Search :=
  if a.refs.isEmpty || b.refs.isEmpty || !a.attachesTo b then .nothing
  else if (positions 0 a.lines).isEmpty || (positions 0 b.lines).isEmpty then .nothing
  else
    match walk (positions 0 a.lines).length (positions 0 a.lines).reverse (positions 0 b.lines) with
    | some (s, e) => .parts s e
    | none => .unset

/-- The next free address; simplification: allocation of new lines (route.hpp 484-497, 796-820) by a counter. -/
def Route.top (r : Route P) : Nat := r.refs.foldr (fun x n => max (x.addr + 1) n) 0

/-- route.hpp 697-701: the front line `a` and the back line `b` are joined if they turn back. -/
def trimTurn (G : Geo P R A) (turn : A → Bool) (next : Nat) (a b : Route P) : Route P × Route P :=
  match a.refs.getLast?, b.refs.head? with
  | some ra, some rb => if reverseAttaches G turn ra.line rb.line then join G turn false next a b else (a, b)
  | _, _ => (a, b)

/-- route.hpp 703: both parts are merged. -/
def mergeTwo (next : Nat) (ab : Route P × Route P) : Outcome (Route P) :=
  merge false false (max next (max ab.1.top ab.2.top)) [ab.1, ab.2]

/-- route.hpp 684-707 `trim_merge`.  With unset positions 692 wraps to zero and 693-695 throws. -/
def trimMerge (G : Geo P R A) (turn : A → Bool) (next : Nat) (a b : Route P) : Outcome (Route P) :=
  match findReturn a b with
  | .nothing => .ok Route.bad
  | .unset => .throws
  | .parts s e =>
    (subRouteAt a 0 0 (s.1 + 1) (s.2 + 1) next).bind fun a' =>
      (subRouteAt b e.1 e.2 b.refs.length (((b.refs.getLast?).map (fun r => r.line.length)).getD 0) (max next a'.top)).bind
        fun b' =>
          mergeTwo (max next (max a'.top b'.top)) (trimTurn G turn (max next (max a'.top b'.top)) a' b')

end MM.Route
