import Verif.Model.Srs

/-!
# Carrying points from one coordinate system to another (geometry/algorithm/reproject.hpp, srs_dispatch.hpp, geometry/reprojector.hpp)

The type of a point is its kind of coordinate system (`SRS`), its coordinates are of any type `K`.  In C++ the types of the points are
chosen when the program is compiled, the reprojector when it runs; the parameters `inCs`, `outCs` are the former.  `conv a b` is
`boost::geometry::srs::transformation::forward` from code `a` to code `b`.  A point that is declared but not assigned is `none`.
-/

set_option autoImplicit false

namespace MM.Reproject

open Srs

/-- reprojector.hpp 22-46 `point_reprojector`: the alternative of the variant (types/geometry/reprojector.hpp 33-36), and the codes of its
transformation. -/
structure Reprojector where
  inCs : SRS
  outCs : SRS
  transform : Bool
  src : Int
  dst : Int
deriving DecidableEq

/-- srs_dispatch.hpp 24-57 `srs_dispatch`: the types handed to the function; invalid types throw. -/
def dispatch (t : Transform) : Outcome (SRS × SRS) :=
  if t.base.type = .invalid ∨ t.type = .invalid then .throws else .ok (t.base.type, t.type)

/-- reproject.cpp 21-27 `create_point_reprojector`, srs.cpp 147-149 `create_transformation`. -/
def create (t : Transform) : Outcome Reprojector :=
  (dispatch t).map fun p => ⟨p.1, p.2, t.transform, t.base.proj, t.proj⟩

section
variable {K : Type}
-- reprojector.hpp 34: the transformation of Boost.Geometry.
variable (conv : Int → Int → K → K)

/-- reproject.hpp 25-49 `reproject_point` for points of types `inCs` and `outCs`; `out` is the output point before the call.  The assertions
in lines 38-39 and 45-46 are true whenever they are compiled, so nothing is done if the types do not fit. -/
def reprojectPoint (r : Reprojector) (inCs outCs : SRS) (k : K) (out : Option K) : Option K :=
  if r.transform then
    if r.outCs = outCs ∧ r.inCs = inCs then some (conv r.src r.dst k) else out
  else
    if inCs = outCs then some k else out

/-- reproject.hpp 51-63 `reproject_line`: the points are added to the output line. -/
def reprojectLine (r : Reprojector) (inCs outCs : SRS) (line : List K) (out : List (Option K)) : List (Option K) :=
  line.foldl (fun acc k => acc ++ [reprojectPoint conv r inCs outCs k none]) out

/-- reproject.hpp 65-78 `reproject_multi_line`. -/
def reprojectMulti (r : Reprojector) (inCs outCs : SRS) (lines : List (List K)) (out : List (List (Option K))) : List (List (Option K)) :=
  lines.foldl (fun acc l => acc ++ [reprojectLine conv r inCs outCs l []]) out

/-- Measurements of tracks: csv_track_importer.hpp 69-79, 149-159, 205-208, gpx_track_importer.hpp 141-174, input_importer.hpp 77-101,
measurement.hpp 39-44: types and reprojector are chosen by the same transformation (match.hpp 81-120, compare.cpp 53, 76). -/
def trackPoint (t : Transform) (k : K) : Outcome (SRS × Option K) :=
  (create t).bind fun r => (dispatch t).map fun p => (p.2, reprojectPoint conv r p.1 p.2 k none)

/-- Tracks given as lines: csv_track_importer.hpp 165-176, input_importer.hpp 109-115, seattle_ground_truth_importer.hpp 56-62, 141,
multi_track.hpp 52-85: several lines, a single line is a list of one. -/
def trackLines (t : Transform) (lines : List (List K)) : Outcome (SRS × List (List (Option K))) :=
  (create t).bind fun r => (dispatch t).map fun p => (p.2, reprojectMulti conv r p.1 p.2 lines [])

/-- Nodes of OpenStreetMap files: osm_handler_helper.hpp 110-122, node.hpp 47-54; the network has the type of the target (network.cpp 50-60), the
point read is geographic. -/
def osmNode (t : Transform) (k : K) : Outcome (Option K) :=
  (create t).map fun r => reprojectPoint conv r .geographic t.type k none

/-- Nodes of the other networks: arc_node_importer.hpp 48, 77-79, seattle_importer.hpp 42, 88-104, giscup_importer.hpp 44, 76-81,
melbourne_importer.hpp 44, 78-83; the point read has the type of the points of the network. -/
def textNode (t : Transform) (k : K) : Outcome (Option K) :=
  (create t).map fun r => reprojectPoint conv r t.type t.type k none

/-- Points written to OpenStreetMap files: prepare.hpp 197-206, osm_exporter.hpp 58-60, 118, 133-134, 177-178. -/
def osmPoint (t : Transform) (k : K) : Outcome (Option K) :=
  (create (next t 4326 .geographic)).map fun r => reprojectPoint conv r t.type .geographic k none

/-- Ground truth from lists of edges: edges_list_importer.hpp 99-107, 227-230; the lines are those of the network, whose type is `net`
(network.cpp 105-115). -/
def listLines (net : SRS) (t : Transform) (lines : List (List K)) : Outcome (SRS × List (List (Option K))) :=
  (create t).bind fun r => (dispatch t).map fun p => (p.2, reprojectMulti conv r net p.2 lines [])
end

/-- matcher.hpp 190-215 `_match_dispatch`, comparator.cpp 45-74 `_compare_dispatch`: what is matched or compared with what. -/
def accept (a b : SRS) : Outcome Unit := if a = b then .ok () else .throws

end MM.Reproject
