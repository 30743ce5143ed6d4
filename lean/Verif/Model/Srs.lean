import Verif.Model.Outcome

/-!
# Coordinate systems (src/geometry/srs.cpp)
-/

set_option autoImplicit false

namespace MM.Srs

/-- geometry/srs.hpp 26-31 `SRS`. -/
inductive SRS
  | invalid | geographic | spherical | cartesian
deriving DecidableEq

/-- srs.cpp 28-38 `_get_srs_type(string)`. -/
def typeOfName (s : String) : SRS :=
  if s = "geographic" then .geographic
  else if s = "spherical-equatorial" then .spherical
  else if s = "cartesian" then .cartesian
  else .invalid

/-- srs.cpp 64-68, geometry/srs.hpp 35-45 `srs`; `proj` is the code kept by `boost::geometry::srs::epsg`. -/
structure Srs where
  code : Int
  type : SRS
  proj : Int
deriving DecidableEq

/-- geometry/srs.hpp 47-59 `srs_transform`. -/
structure Transform where
  base : Srs
  code : Int
  type : SRS
  proj : Int
  transform : Bool
deriving DecidableEq

/-- srs.cpp 77-82, the constructor. -/
def mk (base : Srs) (code : Int) (type : SRS) (proj : Int) : Transform :=
  ⟨base, code, type, proj, !(decide (base.proj = proj) && decide (base.type = type))⟩

section
-- srs.cpp 40-49: the parameters Boost.Geometry knows for a code (`some true` for geographic).
variable (latlong : Int → Option Bool)

/-- srs.cpp 40-49 `_get_srs_type(epsg)`; Boost.Geometry throws for unknown codes. -/
def typeOfProj (proj : Int) : Outcome SRS :=
  match latlong proj with
  | none => .throws
  | some true => .ok .geographic
  | some false => .ok .cartesian

/-- srs.cpp 84-98 `compute_srs`. -/
def computeSrs (code : Int) (type : String) : Outcome Srs :=
  if code < 0 then .throws
  else if typeOfName type = .invalid then (typeOfProj latlong code).map fun t => ⟨code, t, code⟩
  else .ok ⟨code, typeOfName type, code⟩

/-- srs.cpp 104-118: code and type of the target, the type may still be invalid. -/
def target (code tcode : Int) (ttype : SRS) : Outcome (Int × SRS) :=
  if ttype = .geographic ∧ tcode < 0 then .ok (4326, ttype)
  else if ttype = .cartesian ∧ tcode < 0 then .ok (3857, ttype)
  else if ttype ≠ .invalid ∧ tcode < 0 then .ok (code, ttype)
  else if ttype = .invalid ∧ 0 ≤ tcode then (typeOfProj latlong tcode).map fun t => (tcode, t)
  else .ok (tcode, ttype)

/-- srs.cpp 120-127. -/
def finish (base : Srs) (t : Int × SRS) : Transform :=
  if t.2 = .invalid then mk base base.code base.type base.proj else mk base t.1 t.2 t.1

/-- srs.cpp 100-128 `compute_srs_transform`. -/
def compute (code : Int) (type : String) (tcode : Int) (ttype : String) : Outcome Transform :=
  (computeSrs latlong code type).bind fun base => (target latlong code tcode (typeOfName ttype)).map (finish base)
end

/-- srs.cpp 64-65, the constructor without projection. -/
def mkSrs (code : Int) (type : SRS) : Srs := ⟨code, type, code⟩

/-- srs.cpp 130-145 `compute_next_srs_transform`. -/
def next (t : Transform) (code : Int) (type : SRS) : Transform :=
  if t.type ≠ .invalid ∧ t.base.code ≠ code ∧ t.type ≠ type then mk (mkSrs t.base.code t.type) code type code
  else mk (mkSrs code type) code type code

end MM.Srs
