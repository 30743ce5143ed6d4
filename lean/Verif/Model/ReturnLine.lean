import Verif.Model.TrimMerge

/-!
# Routes: the part that is travelled forth and back

Models route.hpp 562-660 (the remaining parts of the result of `find_return_line`) and 662-681 `extract_return_line`
(/repo/src/library/include/geometry/network/route/), whose length the decision process charges
(environment/environments/single.hpp 471-479).
-/

set_option autoImplicit false

namespace MM.Route

open MM.Line

variable {P : Type} [DecidableEq P]

/-- route.hpp 575-581, 590-591: `self.end`, the last point of the last line with points. -/
def selfEnd (a : Route P) : Option Pos := ((positions 0 a.lines).getLast?).map Prod.fst

/-- route.hpp 583-588, 592-593: `other.start`, the first point of the first line with points. -/
def otherStart (b : Route P) : Option Pos := ((positions 0 b.lines).head?).map Prod.fst

/-- route.hpp 669-672: the part of the first route. -/
def returnOfSelf (next : Nat) (a : Route P) (s : Pos) : Outcome (List P) :=
  match selfEnd a with
  | some q => (subRouteAt a s.1 s.2 (q.1 + 1) (q.2 + 1) next).bind Route.richLine
  | none => .throws

/-- route.hpp 674-677: the part of the second route; `to`, `toPos` are the exclusive end. -/
def returnOfOther (next : Nat) (b : Route P) (to_ toPos : Nat) : Outcome (List P) :=
  match otherStart b with
  | some q => (subRouteAt b q.1 q.2 to_ toPos next).bind Route.richLine
  | none => .throws

/-- route.hpp 662-681 `extract_return_line`.  Unset positions are the largest numbers: 669-672 then begins behind its end and
throws, in 674-677 the end wraps to zero. -/
def extractReturn (fromSelf : Bool) (next : Nat) (a b : Route P) : Outcome (List P) :=
  match findReturn a b with
  | .nothing => .ok []
  | .unset => if fromSelf then .throws else returnOfOther next b 0 0
  | .parts s e => if fromSelf then returnOfSelf next a s else returnOfOther next b (e.1 + 1) (e.2 + 1)

/-- environment/environments/single.hpp 471-479: the length charged, twice that of the line if it has one. -/
def zigzag {R A : Type} (G : Geo P R A) (double : R → R) (next : Nat) (a b : Route P) : Outcome (Option R) :=
  (extractReturn true next a b).map fun l => (plainLength G l).map double

end MM.Route
