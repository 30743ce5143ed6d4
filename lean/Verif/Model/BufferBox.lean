import Verif.Model.Outcome
import Verif.Model.IndexBuild
import Mathlib.Algebra.Field.Defs
import Mathlib.Order.Defs.LinearOrder

/-!
# Boxes around points, and what is searched in them

Models src/library/include/geometry/algorithm/buffer.hpp 37-133 and the queries made with it in
src/library/include/matching/algorithm/candidate_search.hpp 122-137, 450-459, geometry/algorithm/median_merge.hpp 64-76 and
geometry/algorithm/compare.hpp 610-632, 672-683.

Arithmetic is exact.  The plane is `K × K` for any ordered field `K`.  On the globe, points are unit vectors, the middle of the
circle has longitude zero.
-/

set_option autoImplicit false

namespace MM.BufferBox

open MM.IndexBuild

variable {K : Type} [Field K] [LinearOrder K]

/-- types/geometry/point.hpp: a point of the plane. -/
abbrev Pt (K : Type) := K × K

/-- models.hpp `box_type` as used in buffer.hpp 86-99: the two corners. -/
structure Box (K : Type) where
  minX : K
  minY : K
  maxX : K
  maxY : K
deriving DecidableEq, Repr

/-- buffer.hpp 62-68 with `point_circle` of four points (94): points at angles 0, -90, -180, -270 degrees. -/
def circle4 (p : Pt K) (r : K) : List (Pt K) := [(p.1 + r, p.2), (p.1, p.2 - r), (p.1 - r, p.2), (p.1, p.2 + r)]

/-- buffer.hpp 97 `envelope`: one more point. -/
def Box.add (b : Box K) (q : Pt K) : Box K := ⟨min b.minX q.1, min b.minY q.2, max b.maxX q.1, max b.maxY q.2⟩

/-- buffer.hpp 97 `envelope` of the points of a polygon. -/
def envelope : List (Pt K) → Option (Box K)
  | [] => none
  | p :: ps => some (ps.foldl Box.add ⟨p.1, p.2, p.1, p.2⟩)

/-- buffer.hpp 85-100 `buffer_box`; 42-44 throws if the radius is not positive. -/
def bufferBox (p : Pt K) (r : K) : Outcome (Box K) :=
  if r ≤ 0 then .throws
  else match envelope (circle4 p r) with
    | some b => .ok b
    | none => .ub

/-- buffer.hpp 102-133 `segment_buffer_box`; the infinities it begins with (111-114) are left out. -/
def segmentBufferBox (s : Pt K × Pt K) (r : K) : Outcome (Box K) :=
  (bufferBox s.1 r).bind fun a => (bufferBox s.2 r).bind fun b =>
    .ok ⟨min a.minX b.minX, min a.minY b.minY, max a.maxX b.maxX, max a.maxY b.maxY⟩

/-- `intersects(box)` for a point (compare.hpp 618, median_merge.hpp 66). -/
def Box.has (b : Box K) (q : Pt K) : Bool :=
  decide (b.minX ≤ q.1) && decide (q.1 ≤ b.maxX) && decide (b.minY ≤ q.2) && decide (q.2 ≤ b.maxY)

/-- candidate_search.hpp 122-126: the edges found in mode CIRCLE; `ask` is what the index answers to `intersects(box)`. -/
def edgesIn (ask : Box K → List (SegEntry (Pt K))) (p : Pt K) (r : K) : Outcome (List Nat) :=
  (bufferBox p r).bind fun b => .ok (unique (ask b))

/-- candidate_search.hpp 453-459: the values in the box, then those not farther than the distance. -/
def adoptable {V : Type} (ask : Box K → List V) (dist : V → K) (p : Pt K) (r : K) : Outcome (List V) :=
  (bufferBox p r).bind fun b => .ok ((ask b).filter fun v => decide (dist v ≤ r))

/-- compare.hpp 610, 672: `milli` is 1e-3. -/
def compareRadius (milli tol : K) : K := max milli (2 * tol)

/-- compare.hpp 616-618: the points in the box. -/
def pointsIn (milli tol : K) (pts : List (Pt K)) (p : Pt K) : Outcome (List (Pt K)) :=
  (bufferBox p (compareRadius milli tol)).bind fun b => .ok (pts.filter b.has)

/-! ### On the globe -/

/-- A point of the globe as unit vector: towards longitude zero, towards east, towards the north pole (buffer.hpp 52-60). -/
structure Vec (K : Type) where
  x : K
  y : K
  z : K
deriving DecidableEq, Repr

/-- The cosine of the angle between two points (buffer.hpp 52-60, geometry/algorithm/distance.hpp 29-31). -/
def Vec.dot (a b : Vec K) : K := a.x * b.x + a.y * b.y + a.z * b.z

/-- buffer.hpp 54-60 with `geographic_point_circle` of four points: the points north, east, south and west of the point
at latitude with cosine `k` and sine `z`, at the distance with cosine `c` and sine `s`.  Simplified to a sphere. -/
def compass (k z c s : K) : List (Vec K) :=
  [⟨k * c - z * s, 0, z * c + k * s⟩, ⟨k * c, s, z * c⟩, ⟨k * c + z * s, 0, z * c - k * s⟩, ⟨k * c, -s, z * c⟩]

/-- Is the longitude of `a` at most that of `b`?  For longitudes between -90 and 90 degrees (buffer.hpp 97). -/
def notEastOf (a b : Vec K) : Bool := decide (a.y * b.x ≤ b.y * a.x)

/-- buffer.hpp 97 on the globe: neither all vertices are east of the point nor all west of it, and so for north and south; no
edge of the polygon goes beyond its vertices. -/
def inEnvelope (vs : List (Vec K)) (q : Vec K) : Bool :=
  decide (0 < q.x) && vs.any (notEastOf q) && vs.any (fun v => notEastOf v q) &&
    vs.any (fun v => decide (q.z ≤ v.z)) && vs.any (fun v => decide (v.z ≤ q.z))

/-- geometry/algorithm/distance.hpp 29-31: the distance of two points of the equator in spherical coordinates, by their
longitudes. -/
def sphericalDistance (a b : K) : K := 6371000 * max (a - b) (b - a)

/-- buffer.hpp 52-60 takes `geographic_point_circle` for spherical coordinates too, which computes on the spheroid WGS84 of
equatorial radius 6378137 m: longitudes of the points west and east of a point of the equator. -/
def equatorBox (a r : K) : K × K := (a - r / 6378137, a + r / 6378137)

end MM.BufferBox
