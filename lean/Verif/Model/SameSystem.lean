import Verif.Model.Reproject

/-!
# The coordinate system of a network between two runs of the program

`--prepare` chooses the coordinate system of the network from its options and writes the network without it; `--match` chooses the system
it opens the network in, and the one it reads tracks in, from its own options.

Line numbers are those of /repo/src/app/src/app/network.cpp, unless another file is named.  Simplified: a network is a single node of an
OpenStreetMap file, a track is a single point; the coordinates of the node are found again in the files (C70, C88).
-/

set_option autoImplicit false

namespace MM.SameSystem

open MM.Srs MM.Reproject

/-- options.cpp 631-664, options.hpp 122-138: source and target; `--srs`, `--srs-type`, `--transform-srs`, `--transform-srs-type`. -/
structure Args where
  code : Int
  type : String
  tcode : Int
  ttype : String
deriving DecidableEq

/-- options.cpp 635, 637, 653, 657, options.hpp 131: nothing is given. -/
def Args.none : Args := ⟨4326, "", -1, ""⟩

/-- options.cpp 631-645, 1297, options.hpp 122-128: `--network-srs`, `--network-srs-type`. -/
structure NetArgs where
  code : Int
  type : String
deriving DecidableEq

/-- options.cpp 635, 637: nothing is given. -/
def NetArgs.none : NetArgs := ⟨4326, ""⟩

/-- srs.cpp 24-26: the names of the types. -/
def nameOf : SRS → String
  | .geographic => "geographic"
  | .spherical => "spherical-equatorial"
  | .cartesian => "cartesian"
  | .invalid => ""

section
-- srs.cpp 40-49: the parameters Boost.Geometry knows for a code (`some true` for geographic).
variable (latlong : Int → Option Bool)
variable {K : Type}
-- reprojector.hpp 34: the transformation of Boost.Geometry.
variable (conv : Int → Int → K → K)

/-- network.cpp 50-60 `create_network_import`, options.cpp 133-135, 331, prepare.cpp 48-52: the kind of the network and the coordinates of
the node written. -/
def prepareNode (a : Args) (k : K) : Outcome (SRS × Option K) :=
  (compute latlong a.code a.type a.tcode a.ttype).bind fun t =>
    if t.type = .invalid then .throws else (osmNode conv t k).map fun c => (t.type, c)

/-- network.cpp 105-115 `open_network`, options.cpp 129-131, 349: the kind of the network opened. -/
def openNetwork (n : NetArgs) : Outcome SRS :=
  (computeSrs latlong n.code n.type).bind fun s => if s.type = .invalid then .throws else .ok s.type

/-- options.cpp 133-135, 354, match.hpp 81-120: a point of a track. -/
def readPoint (q : Args) (k : K) : Outcome (SRS × Option K) :=
  (compute latlong q.code q.type q.tcode q.ttype).bind fun t => trackPoint conv t k

/-- prepare.cpp 36-56, then match.cpp and matcher.hpp 190-215: the network is prepared with `a`, opened with `n`, and a track read with `q`
is matched; the coordinates of the node and of the point that are compared with each other. -/
def matched (a : Args) (n : NetArgs) (q : Args) (node point : K) : Outcome (Option K × Option K) :=
  (prepareNode latlong conv a node).bind fun x =>
    (openNetwork latlong n).bind fun s =>
      (readPoint latlong conv q point).bind fun y => (accept s y.1).map fun _ => (x.2, y.2)
end

end MM.SameSystem
