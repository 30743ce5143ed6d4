import Verif.Model.RouteLife
import Verif.Model.TrimMerge

/-!
# Routes whose values are computed at once, and copies of routes with values

`eager_route` computes length, azimuth and directions when it is made and only reads them afterwards, `lazy_route` computes them
when it is first asked.  Both are copied with their values, and both make a new route when they are merged or cut.

Line numbers are those of /repo/src/library/include/geometry/network/route/eager_route.hpp, unless another file is named.

Simplified: the values are those of `Model/Route.lean` (a route with its values is a `Lazy` there, whatever its kind); cutting
within lines and trimming are modelled for `lazy_route` only.
-/

set_option autoImplicit false

namespace MM.Route

open MM.Line MM.RouteLife

variable {P : Type} [DecidableEq P] {R A : Type}

/-- eager_route.hpp 54, 56-57: made of nothing, no value is computed. -/
def Eager.blank (invalid : Bool) : Lazy P R A := ⟨⟨[], [], invalid⟩, Data.new⟩

/-- eager_route.hpp 64-67, 74-77, 79-83, route_data.hpp 281-285 `_compute`: made of lines, all values are computed; the constructor
is left by the exception of `_compute_directions`. -/
def Eager.of [DecidableEq A] (G : Geo P R A) (r : Route P) : Outcome (Lazy P R A) :=
  if (computeDirections G (computeAzimuth G (computeLength G ⟨r, Data.new⟩))).2 then
    .ok (computeDirections G (computeAzimuth G (computeLength G ⟨r, Data.new⟩))).1
  else .throws

/-- eager_route.hpp 109-139: the values are only read. -/
def Eager.answer (l : Lazy P R A) : Query → Answer R A
  | .connected => .yes l.data.connected
  | .length => .len l.data.length
  | .azimuth => .angle l.data.azimuth
  | .directions => .angle l.data.directions
  | .absolute => .angle l.data.absolute

/-- eager_route.hpp 85-86, 91-97 and lazy_route.hpp 78-79, 84-90 (route_data.hpp 40-42, 50-59): a copy takes the values along. -/
def Lazy.copy (l : Lazy P R A) (next : Nat) : Lazy P R A := ⟨copyRoute l.route next, l.data⟩

/-- eager_route.hpp 158-162 `merge` (route.hpp 733-827): nothing but invalid routes gives an invalid one, otherwise the route is made
of lines. -/
def Eager.merge [DecidableEq A] (G : Geo P R A) (connect except : Bool) (next : Nat) (rs : List (Lazy P R A)) : Outcome (Lazy P R A) :=
  if (rs.map Lazy.route).all Route.invalid then .ok (Eager.blank true)
  else (Route.merge connect except next (rs.map Lazy.route)).bind (Eager.of G)

/-- eager_route.hpp 141-144 `sub_route(from, to)`. -/
def Eager.sub [DecidableEq A] (G : Geo P R A) (l : Lazy P R A) (a b next : Nat) : Outcome (Lazy P R A) :=
  (subRoute l.route a b next).bind (Eager.of G)

/-- eager_route.hpp 164-167 `join`: the lines of both routes change, the values stay. -/
def Eager.join (G : Geo P R A) (turn : A → Bool) (retain : Bool) (next : Nat) (a b : Lazy P R A) : Lazy P R A × Lazy P R A :=
  (⟨(Route.join G turn retain next a.route b.route).1, a.data⟩, ⟨(Route.join G turn retain next a.route b.route).2, b.data⟩)

/-- lazy_route.hpp 142-145 `sub_route(from, to)`. -/
def Lazy.sub (l : Lazy P R A) (a b next : Nat) : Outcome (Lazy P R A) := (subRoute l.route a b next).map fun r => ⟨r, Data.new⟩

/-- lazy_route.hpp 147-151 `sub_route(from, from_pos, to, to_pos)`. -/
def Lazy.subAt (l : Lazy P R A) (a aPos b bPos next : Nat) : Outcome (Lazy P R A) :=
  (subRouteAt l.route a aPos b bPos next).map fun r => ⟨r, Data.new⟩

/-- lazy_route.hpp 153-156 `trim_merge`. -/
def Lazy.trimMerge (G : Geo P R A) (turn : A → Bool) (next : Nat) (a b : Lazy P R A) : Outcome (Lazy P R A) :=
  (Route.trimMerge G turn next a.route b.route).map fun r => ⟨r, Data.new⟩

end MM.Route
