import Verif.Model.Compare
import Verif.Model.Forwarder
import Verif.Model.MultiLine
import Verif.Model.Rows

/-!
# A run of the comparison, from the tracks read to the file of results

/repo/src/app/src/app/compare.cpp, `INC/compare/comparator.hpp`, `SRC/compare/comparator.cpp` and the public functions of
`INC/geometry/algorithm/compare.hpp`, where `INC` is /repo/src/library/include and `SRC` is /repo/src/library/src.  Reading of the
files is the subject of C45, C60, C62, C63 and C65, pairing of C38, the pool of threads of C37, the comparison of two lists of
segments of C33 and C34, the file of C43.
-/

set_option autoImplicit false

namespace MM.CompareRun

open MM.Line

variable {P R A : Type}

/-- INC/types/geometry/track/multi_track.hpp 28-31: the alternatives of the variant. -/
inductive System
  | geographic
  | spherical
  | cartesian
deriving DecidableEq

/-- INC/geometry/track/multi_track.hpp 41-42, with the alternative of the variant that holds it. -/
structure Track (P : Type) where
  id : String
  system : System
  lines : List (List P)
deriving DecidableEq

/-- compare.hpp 77-86: the segments of all parts one after the other. -/
def segments (ls : List (List P)) : List (P × P) := ls.flatMap segs

section Compare

variable [LinearOrder P] [LinearOrder R] [Add R] [Zero R] [One R] [Div R]

/-- compare.hpp 75-101 `compare` of lines in several parts: segments and lengths. -/
def compareLines (G : Geo P R A) (T : Compare.Tools P R) (truth hit : List (List P)) : Outcome (Compare.Result P R) :=
  Compare.compare T (segments truth) (segments hit) (MultiLine.length G truth) (MultiLine.length G hit)

/-- compare.hpp 103-123 `compare` of lines. -/
def compareLine (G : Geo P R A) (T : Compare.Tools P R) (truth hit : List P) : Outcome (Compare.Result P R) :=
  Compare.compare T (segs truth) (segs hit) (plainLength G truth) (plainLength G hit)

/-- INC/compare/comparator/compare_task.hpp 29-30. -/
structure Pair (P : Type) where
  hit : Track P
  truth : Track P
deriving DecidableEq

/-- INC/compare/comparator/compare_result.hpp 30-33, without the duration. -/
structure Done (P R : Type) where
  hit : Track P
  truth : Track P
  comparison : Compare.Result P R
deriving DecidableEq

/-- comparator.cpp 43-76 `_compare_dispatch`, `execute`; comparator.hpp 57-84: tracks of different coordinate systems are refused
by an exception. -/
def execute (G : Geo P R A) (T : Compare.Tools P R) (t : Pair P) : Outcome (Done P R) :=
  if t.truth.system = t.hit.system then (compareLines G T t.truth.lines t.hit.lines).map fun c => ⟨t.hit, t.truth, c⟩
  else .throws

/-- util/coordinator.hpp 84-92: an exception stays in the future of the task; nobody asks for it. -/
def passed : Outcome (Done P R) → List (Done P R)
  | .ok d => [d]
  | _ => []

/-- comparator.hpp 86-89: the results passed on, in the order in which the comparisons end. -/
def results (G : Geo P R A) (T : Compare.Tools P R) (executed : List (Pair P)) : List (Done P R) :=
  executed.flatMap fun t => passed (execute G T t)

/-- csv_compare_exporter.hpp 46-119: what the exporter reads of a result; `none` is an infinite error, `wkt` is `to_wkt` of
a line in several parts and `took` the duration measured. -/
def rowOf (G : Geo P R A) (wkt : List (List P) → String) (took : Pair P → R) (d : Done P R) : Rows.CompareResult (Option R) (P × P) where
  id := d.truth.id
  matchWkt := wkt d.hit.lines
  truthWkt := wkt d.truth.lines
  corrects := d.comparison.parts.corrects
  adds := d.comparison.parts.adds
  misses := d.comparison.parts.misses
  matchLength := (MultiLine.length G d.hit.lines).map some
  truthLength := (MultiLine.length G d.truth.lines).map some
  duration := some (took ⟨d.hit, d.truth⟩)
  correctFraction := some d.comparison.correctFraction
  errorFraction := d.comparison.errorFraction
  correct := some d.comparison.correct
  errorAdded := some d.comparison.errorAdded
  errorMissed := some d.comparison.errorMissed

end Compare

/-- comparator_forwarder_data.cpp 36-43: the match compared with a ground truth that has none. -/
def noMatch (truth : Track P) : Track P := ⟨truth.id, truth.system, []⟩

/-- comparator_forwarder_matches.cpp 24, comparator_forwarder_compares.cpp 24, comparator_forwarder_data.cpp 43: the task of
a call of `compare` (comparator.cpp 38-41). -/
def pairOf (e : String × Option (Track P) × Track P) : Pair P := ⟨e.2.1.getD (noMatch e.2.2), e.2.2⟩

/-- compare.cpp 92-113: what is queued when all ground truths and then all matches are read and `finish` is called. -/
def queued (ignore : Bool) (truths hits : List (Track P)) : List (Pair P) :=
  ((Forwarder.finish ignore (Forwarder.run (truths.map (fun t => .truth t.id t) ++ hits.map (fun t => .hit t.id t)))).log).map pairOf

/-- compare.cpp 93-98, /repo/src/app/include/app/options.hpp 49-50: the kinds of files that can be read. -/
def readable (ext : String) : Bool := decide (ext = "csv") || decide (ext = "gpx")

/-- compare.cpp 92-116 `_read_compares`: nothing is queued if it throws. -/
def readCompares (truthExt hitExt : String) (ignore : Bool) (truths hits : List (Track P)) : Outcome (List (Pair P)) :=
  if readable hitExt then
    if readable truthExt then .ok (queued ignore truths hits) else .throws
  else .throws

end MM.CompareRun
