import Verif.Model.RichLine

/-!
# Routes: merging, joining, cutting, cached values

Models /repo/src/library/include/geometry/network/route/route.hpp, lazy_route.hpp and route_data.hpp.

A route keeps references to lines in the order of travel.  Some of the referenced lines are owned by the route itself (in the
same order), the others live elsewhere (in the network or in another route).  A reference is modelled by the address of the
line and the points found there; lines are not changed while they are referenced.  New lines get addresses from a counter.
Length, azimuth and directions of a single line are those of `Model/RichLine.lean`.
-/

set_option autoImplicit false

namespace MM.Route

open MM.Line

variable {P : Type} [DecidableEq P]

/-- route.hpp 42-43 `rich_line_reference_variant_type`: a reference to a line. -/
structure Ref (P : Type) where
  addr : Nat
  line : List P
deriving DecidableEq, Repr

/-- route.hpp 953-955: `_own_rich_lines`, `_rich_lines`, `_is_invalid`. -/
structure Route (P : Type) where
  own : List (Ref P)
  refs : List (Ref P)
  invalid : Bool
deriving DecidableEq, Repr

/-- route.hpp 953-955: the points of all referenced lines. -/
def Route.lines (r : Route P) : List (List P) := r.refs.map Ref.line

/-- route.hpp 62-63 `route{true}`. -/
def Route.bad : Route P := ⟨[], [], true⟩

/-- route.hpp 80-81: a route of references. -/
def Route.ofRefs (refs : List (Ref P)) : Route P := ⟨[], refs, false⟩

/-- route.hpp 70-73, 989-996: a route that owns all its lines. -/
def Route.ofOwn (own : List (Ref P)) : Route P := ⟨own, own, false⟩

/-- route.hpp 1004-1010: the references behind the one to an owned line. -/
def after (o : Ref P) : List (Ref P) → Option (List (Ref P))
  | [] => none
  | r :: rs => if o.addr = r.addr then some rs else after o rs

/-- route.hpp 998-1011 `_check_references`: owned lines found in order. -/
def found : List (Ref P) → List (Ref P) → Nat
  | [], _ => 0
  | o :: os, rs =>
    match after o rs with
    | some rest => found os rest + 1
    | none => found os []

/-- route.hpp 83-88, 1013-1015: constructor with owned lines and references. -/
def build (own refs : List (Ref P)) : Outcome (Route P) :=
  if found own refs = own.length then .ok ⟨own, refs, false⟩ else .throws

/-! ### Plain values -/

/-- route.hpp 139-148 (also route_data.hpp 239-257): neighbouring lines that have points attach. -/
def linesConnected : List (List P) → Bool
  | a :: b :: rest => (a.isEmpty || b.isEmpty || attaches a b) && linesConnected (b :: rest)
  | _ => true

/-- route.hpp 130-152 `is_connected`. -/
def Route.isConnected (r : Route P) : Bool := linesConnected r.lines

variable {R A : Type}

/-- route.hpp 154-213 `has_length` and `length`, also route_data.hpp 141-170; `none`: no length. -/
def routeLength (G : Geo P R A) : List (List P) → Option R
  | [] => none
  | [l] => plainLength G l
  | ls =>
    if (ls.filterMap (plainLength G)).isEmpty then none else some ((ls.filterMap (plainLength G)).foldl G.addR G.zeroR)

/-- route.hpp 253-275, route_data.hpp 187-208: from the first point of the first to the last point of the last line that has
points. -/
def endsAzimuth (G : Geo P R A) (ls : List (List P)) : Option A :=
  match (ls.find? (fun l => !l.isEmpty)).bind List.head?, (ls.reverse.find? (fun l => !l.isEmpty)).bind List.getLast? with
  | some p, some q => if p = q then none else some (G.az p q)
  | _, _ => none

/-- route.hpp 215-279 `has_azimuth` and `azimuth`, also route_data.hpp 173-211. -/
def routeAzimuth (G : Geo P R A) : List (List P) → Option A
  | [] => none
  | [l] => plainAzimuth G l
  | ls => endsAzimuth G ls

/-- route.hpp 332-344, route_data.hpp 239-254: the direction between two attached lines.  Asking a line with a single point
for its first azimuth throws. -/
def jointDirection (G : Geo P R A) (a b : List P) : Outcome (Option A) :=
  match (segs a).getLast? with
  | some s =>
    if attaches a b && decide (s.1 ≠ s.2) then
      match (segs b).head? with
      | some t => .ok (if t.1 = t.2 then none else some (G.dir (G.az s.1 s.2) (G.az t.1 t.2)))
      | none => .throws
    else .ok none
  | none => .ok none

/-- route.hpp 328-358 and 379-409, route_data.hpp 235-271: all summands, joint before the line. -/
def directionTerms (G : Geo P R A) (f : A → A) : List (List P) → Outcome (List A)
  | a :: b :: rest =>
    (jointDirection G a b).bind fun j =>
      (directionTerms G f (b :: rest)).map fun ts => (j.map f).toList ++ ((plainDirections G f a).toList ++ ts)
  | [a] => .ok (plainDirections G f a).toList
  | [] => .ok []

/-- route.hpp 359-362, route_data.hpp 273-276. -/
def sumTerms (G : Geo P R A) (ts : List A) : Option A := if ts.isEmpty then none else some (ts.foldl G.addA G.zeroA)

/-- route.hpp 316-365 `directions` (`f` the identity) and 367-416 `absolute_directions` (`f` the absolute value). -/
def routeDirections (G : Geo P R A) (f : A → A) : List (List P) → Outcome (Option A)
  | [] => .ok none
  | [l] => .ok (plainDirections G f l)
  | ls => (directionTerms G f ls).map (sumTerms G)

/-! ### Cached values -/

/-- route_data.hpp 107-111. -/
structure Data (R A : Type) where
  length : Cell R
  azimuth : Cell A
  directions : Cell A
  absolute : Cell A
  connected : Bool
deriving DecidableEq

/-- route_data.hpp 113-116. -/
def Data.new {R A : Type} : Data R A := ⟨.uninit, .uninit, .uninit, .uninit, false⟩

/-- lazy_route.hpp 25-30: a route with cached values. -/
structure Lazy (P R A : Type) where
  route : Route P
  data : Data R A

/-- not_valid for a missing value (rich_type/common.hpp 28). -/
def cellOf {α : Type} : Option α → Cell α
  | some a => .val a
  | none => .invalid

/-- route_data.hpp 141-170 `_compute_length`. -/
def computeLength (G : Geo P R A) (l : Lazy P R A) : Lazy P R A :=
  if l.data.length.isUninit then ⟨l.route, { l.data with length := cellOf (routeLength G l.route.lines) }⟩ else l

/-- route_data.hpp 173-211 `_compute_azimuth`. -/
def computeAzimuth (G : Geo P R A) (l : Lazy P R A) : Lazy P R A :=
  if l.data.azimuth.isUninit then ⟨l.route, { l.data with azimuth := cellOf (routeAzimuth G l.route.lines) }⟩ else l

/-- route_data.hpp 235-257: `_is_connected` when the loop is left by an exception at a line with a single point. -/
def connectedUntil [DecidableEq A] (G : Geo P R A) : List (List P) → Bool
  | a :: b :: rest =>
    (a.isEmpty || b.isEmpty || attaches a b) &&
      (if jointDirection G a b = .throws then true else connectedUntil G (b :: rest))
  | _ => true

/-- route_data.hpp 214-279 `_compute_directions`; the flag tells whether the call returned.  Left by an exception the values
stay set to not valid (217-219). -/
def computeDirections [DecidableEq A] (G : Geo P R A) (l : Lazy P R A) : Lazy P R A × Bool :=
  if l.data.directions.isUninit || l.data.absolute.isUninit then
    match routeDirections G id l.route.lines, routeDirections G G.abs l.route.lines with
    | .ok d, .ok a =>
      (⟨l.route, { l.data with directions := cellOf d, absolute := cellOf a, connected := linesConnected l.route.lines }⟩, true)
    | _, _ =>
      (⟨l.route, { l.data with directions := .invalid, absolute := .invalid, connected := connectedUntil G l.route.lines }⟩,
        false)
  else (l, true)

/-- lazy_route.hpp 102-140: the queries. -/
inductive Query where
  | connected | length | azimuth | directions | absolute
deriving DecidableEq

/-- lazy_route.hpp 102-140: the values the queries return. -/
inductive Answer (R A : Type) where
  | yes (b : Bool)
  | len (c : Cell R)
  | angle (c : Cell A)
deriving DecidableEq

/-- lazy_route.hpp 102-140: answer and changed object; also the object after an exception. -/
def query [DecidableEq A] (G : Geo P R A) (l : Lazy P R A) : Query → Outcome (Answer R A) × Lazy P R A
  | .length => (.ok (.len (computeLength G l).data.length), computeLength G l)
  | .azimuth => (.ok (.angle (computeAzimuth G l).data.azimuth), computeAzimuth G l)
  | .connected =>
    (if (computeDirections G l).2 then .ok (.yes (computeDirections G l).1.data.connected) else .throws,
      (computeDirections G l).1)
  | .directions =>
    (if (computeDirections G l).2 then .ok (.angle (computeDirections G l).1.data.directions) else .throws,
      (computeDirections G l).1)
  | .absolute =>
    (if (computeDirections G l).2 then .ok (.angle (computeDirections G l).1.data.absolute) else .throws,
      (computeDirections G l).1)

/-! ### Merging -/

/-- route.hpp 447-469 `mergeable`. -/
def Route.mergeable (r : Route P) : Bool :=
  if r.invalid || r.refs.isEmpty then false
  else if r.lines.all (fun l => decide (l.length < 2)) then false
  else r.lines.any (fun l => (segs l).any (fun s => decide (s.1 ≠ s.2)))

/-- route.hpp 764-766: storages of the new route, and the next free address. -/
structure Acc (P : Type) where
  own : List (Ref P)
  refs : List (Ref P)
  next : Nat

/-- route.hpp 796-820: owned lines are moved to new addresses, other references are copied. -/
def moveRefs : List (Ref P) → List (Ref P) → Acc P → Acc P
  | _, [], acc => acc
  | [], r :: rs, acc => moveRefs [] rs ⟨acc.own, acc.refs ++ [r], acc.next⟩
  | o :: os, r :: rs, acc =>
    if o.addr = r.addr then
      moveRefs os rs ⟨acc.own ++ [⟨acc.next, o.line⟩], acc.refs ++ [⟨acc.next, o.line⟩], acc.next + 1⟩
    else moveRefs (o :: os) rs ⟨acc.own, acc.refs ++ [r], acc.next⟩

/-- route.hpp 773-780: the points of a gap between the route so far and the next one. -/
def gapOf (prev next : Option (Ref P)) : Option (P × P) :=
  match prev.bind (fun r => r.line.getLast?), next.bind (fun r => r.line.head?) with
  | some p, some q => if p = q then none else some (p, q)
  | _, _ => none

/-- route.hpp 772-794: a gap is bridged, reported or left. -/
def bridge (connect except : Bool) (acc : Acc P) (r : Route P) : Outcome (Acc P) :=
  match gapOf acc.refs.getLast? r.refs.head? with
  | none => .ok acc
  | some (p, q) =>
    if connect then .ok ⟨acc.own ++ [⟨acc.next, [p, q]⟩], acc.refs ++ [⟨acc.next, [p, q]⟩], acc.next + 1⟩
    else if except then .throws
    else .ok acc

/-- route.hpp 769-822. -/
def mergeLoop (connect except : Bool) : List (Route P) → Acc P → Outcome (Acc P)
  | [], acc => .ok acc
  | r :: rs, acc =>
    if r.mergeable then
      (bridge connect except acc r).bind fun acc' => mergeLoop connect except rs (moveRefs r.own r.refs acc')
    else mergeLoop connect except rs acc

/-- route.hpp 733-827 `merge`; `next` is the next free address. -/
def merge (connect except : Bool) (next : Nat) (rs : List (Route P)) : Outcome (Route P) :=
  if rs.all Route.invalid then .ok Route.bad
  else (mergeLoop connect except rs ⟨[], [], next⟩).bind fun acc => build acc.own acc.refs

/-! ### Joining -/

/-- route.hpp 1071-1082 `_reverse_attaches`; `turn` stands for an absolute direction above 178.2 degrees. -/
def reverseAttaches (G : Geo P R A) (turn : A → Bool) (a b : List P) : Bool :=
  match (segs a).getLast?, (segs b).head? with
  | some s, some t => decide (s.1 ≠ s.2) && decide (t.1 ≠ t.2) && turn (G.dir (G.az s.1 s.2) (G.az t.1 t.2))
  | _, _ => false

/-- route.hpp 865-870: lines with less than two points are cleared. -/
def clearShort (l : List P) : List P := if l.length < 2 then [] else l

/-- route.hpp 855-863, 865-867: the last line of the first route without its last point, then the second point of the other
line. -/
def joinBack (a b : List P) : List P := clearShort (a.dropLast ++ b.tail.head?.toList)

/-- route.hpp 859-862, 868-870. -/
def joinFront (b : List P) : List P := clearShort b.tail

/-- route.hpp 875-878, 885-892: the last line of the first route is replaced. -/
def replaceLast (r : Route P) (ref : Ref P) (line : List P) (next : Nat) : Route P :=
  let own := if (r.own.getLast?.map Ref.addr) = some ref.addr then r.own.dropLast else r.own
  if line.isEmpty then ⟨own, r.refs.dropLast, r.invalid⟩
  else ⟨own ++ [⟨next, line⟩], r.refs.dropLast ++ [⟨next, line⟩], r.invalid⟩

/-- route.hpp 880-883, 894-901: the first line of the second route is replaced. -/
def replaceFirst (r : Route P) (ref : Ref P) (line : List P) (next : Nat) : Route P :=
  let own := if (r.own.head?.map Ref.addr) = some ref.addr then r.own.tail else r.own
  if line.isEmpty then ⟨own, r.refs.tail, r.invalid⟩
  else ⟨⟨next, line⟩ :: own, ⟨next, line⟩ :: r.refs.tail, r.invalid⟩

/-- route.hpp 829-904 `join`: both routes afterwards. -/
def join (G : Geo P R A) (turn : A → Bool) (retain : Bool) (next : Nat) (a b : Route P) : Route P × Route P :=
  if a.invalid || b.invalid then (a, b)
  else
    match a.refs.getLast?, b.refs.head? with
    | some ra, some rb =>
      if ra.line.length < 2 ∨ rb.line.length < 2 then (a, b)
      else if retain && reverseAttaches G turn ra.line rb.line then (a, b)
      else (replaceLast a ra (joinBack ra.line rb.line) next, replaceFirst b rb (joinFront rb.line) (next + 1))
    | _, _ => (a, b)

/-- lazy_route.hpp 164-167: `join` of routes with cached values. -/
def Lazy.join (G : Geo P R A) (turn : A → Bool) (retain : Bool) (next : Nat) (a b : Lazy P R A) : Lazy P R A × Lazy P R A :=
  (⟨(Route.join G turn retain next a.route b.route).1, a.data⟩, ⟨(Route.join G turn retain next a.route b.route).2, b.data⟩)

/-- lazy_route.hpp 158-162: `merge` of routes with cached values. -/
def Lazy.merge (connect except : Bool) (next : Nat) (rs : List (Lazy P R A)) : Outcome (Lazy P R A) :=
  (Route.merge connect except next (rs.map Lazy.route)).map fun r => ⟨r, Data.new⟩

/-! ### Parts -/

/-- route.hpp 484-497: search of an owned line; owned lines passed over are not visited again. -/
def searchOwn (r : Ref P) : List (Ref P) → Option (Ref P) × List (Ref P)
  | [] => (none, [])
  | o :: os => if o.addr = r.addr then (some o, os) else searchOwn r os

/-- route.hpp 481-503, 506-509: owned lines are copied, other references are kept. -/
def copyRefs : List (Ref P) → List (Ref P) → Acc P → Acc P
  | _, [], acc => acc
  | own, r :: rs, acc =>
    match searchOwn r own with
    | (some o, os) => copyRefs os rs ⟨acc.own ++ [⟨acc.next, o.line⟩], acc.refs ++ [⟨acc.next, o.line⟩], acc.next + 1⟩
    | (none, os) => copyRefs os rs ⟨acc.own, acc.refs ++ [r], acc.next⟩

/-- route.hpp 471-516 `sub_route(from, to)`. -/
def subRoute (r : Route P) (a b next : Nat) : Outcome (Route P) :=
  if a ≤ b ∧ a < r.refs.length ∧ b ≤ r.refs.length then
    build (copyRefs r.own ((r.refs.drop a).take (b - a)) ⟨[], [], next⟩).own
      (copyRefs r.own ((r.refs.drop a).take (b - a)) ⟨[], [], next⟩).refs
  else .throws

/-- route.hpp 530-536: the part of the first line. -/
def headPart (line : List P) (fromPos next : Nat) : Outcome (List (Route P)) :=
  if 0 < fromPos then (subLine line fromPos line.length).map fun l => [Route.ofOwn [⟨next, l⟩]] else .ok []

/-- route.hpp 538-546: the lines in between and the part of the last line. -/
def tailParts (r : Route P) (a b : Nat) (last : Option (List P)) (toPos next : Nat) : Outcome (List (Route P)) :=
  match last with
  | some line =>
    if toPos < line.length then
      (subRoute r a (b - 1) next).bind fun mid =>
        (subLine line 0 toPos).map fun l => [mid, Route.ofOwn [⟨next + r.refs.length, l⟩]]
    else if a < r.refs.length then (subRoute r a b next).map fun mid => [mid] else .ok []
  | none => if a < r.refs.length then (subRoute r a b next).map fun mid => [mid] else .ok []

/-- route.hpp 538, 526: the line before position `b`. -/
def lineBefore (r : Route P) (b : Nat) : Option (List P) := if b = 0 then none else (r.refs[b - 1]?).map Ref.line

/-- route.hpp 524-526. -/
def inRange (r : Route P) (a aPos b bPos : Nat) : Bool :=
  decide (a ≤ b) && decide (b ≤ r.refs.length) &&
    (match r.refs[a]? with
    | some ref => decide (aPos < ref.line.length)
    | none => false) &&
    (match lineBefore r b with
    | some line => !line.isEmpty && decide (bPos ≤ line.length)
    | none => true)

/-- route.hpp 518-560 `sub_route(from, from_pos, to, to_pos)`. -/
def subRouteAt (r : Route P) (a aPos b bPos next : Nat) : Outcome (Route P) :=
  if inRange r a aPos b bPos then
    match r.refs[a]? with
    | some ref =>
      (headPart ref.line aPos next).bind fun hs =>
        (tailParts r (if 0 < aPos then a + 1 else a) b (lineBefore r b) bPos (next + 1)).bind fun ts =>
          merge false false (next + 2 + r.refs.length) (hs ++ ts)
    | none => .throws
  else .throws

/-! ### Lines of a route -/

/-- route.hpp 1018-1041 `_get_rich_lines(true)`: gaps are attached. -/
def attachGaps : List (List P) → List (List P)
  | a :: b :: rest =>
    match gap a b, a.getLast?, b.head? with
    | true, some p, some q => a :: [p, q] :: attachGaps (b :: rest)
    | _, _, _ => a :: attachGaps (b :: rest)
  | ls => ls

/-- route.hpp 709-714 `get_rich_line`. -/
def Route.richLine (r : Route P) : Outcome (List P) := Line.merge [] (attachGaps (r.lines.filter (fun l => !l.isEmpty)))

/-- route.hpp 716-731, 1043-1069 `get_multi_rich_line`. -/
def Route.multiLine (r : Route P) : Outcome (List (List P)) := Line.mergeGroups [] (Line.groupsOf (r.lines.filter (fun l => !l.isEmpty)))

end MM.Route
