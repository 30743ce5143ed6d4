import Verif.Model.Outcome
import Verif.Model.TrackCsv
import Verif.Model.CompareRun

/-!
# Matches written by one run and read by the comparison

From the text of a match (multi_rich_line.hpp `wkt`) and the rows of the file (`Model/Rows.lean`) to the tracks that the comparison
pairs (`Model/TrackCsv.lean`, `Model/CompareRun.lean`).  Not in /repo and therefore parameters: text of geometries and its parser
(boost), rows and fields of a csv file (the file is given by its rows, `row[name]` finds a column by its name or throws).  `INC` is
/repo/src/library/include, `SRC` is /repo/src/library/src, `APP` is /repo/src/app/src/app.
-/

set_option autoImplicit false

namespace MM.Exchange

open MM.TrackCsv

variable {P : Type}

/-- INC/geometry/rich_type/multi_rich_line.hpp 354-365 `empty`. -/
def blank (ls : List (List P)) : Bool := ls.all List.isEmpty

/-- INC/geometry/rich_type/multi_rich_line.hpp 422-430 `wkt`: the geometry that is turned into text. -/
def shape (ls : List (List P)) : Geom P :=
  if blank ls then .line []
  else match ls with
    | [l] => .line l
    | _ => .multi ls

/-- Text of geometries: INC/geometry/algorithm/wkt.hpp 27-29 `to_wkt` with 12 digits; `boost::to_upper`
(INC/io/track/csv_track_importer.hpp 135); `read_wkt` for the kind of geometry that the text begins with (136-188). -/
structure Text (P : Type) where
  write : Geom P → String
  upper : String → String
  parse : String → Outcome (Geom P)

/-- INC/geometry/rich_type/multi_rich_line.hpp 422-430 `wkt`, INC/geometry/network/route/route.hpp 906-908 `wkt`. -/
def Text.wkt (x : Text P) (ls : List (List P)) : String := x.write (shape ls)

/-- INC/io/csv_settings.hpp 23-45: columns of identifier, time and geometry; `moment` reads a time
(INC/io/track/csv_track_importer.hpp 110-121; `none` where it counts). -/
structure Fields where
  ids : List String
  times : List String
  timeAggregator : String
  geometry : String
  moment : String → Outcome (Option Nat)

/-- `row[name]` (INC/io/track/csv_track_importer.hpp 87, 104, 133). -/
def cell (header row : List String) (name : String) : Outcome String :=
  match (header.zip row).find? (fun c => decide (c.1 = name)) with
  | some c => .ok c.2
  | none => .throws

/-- INC/io/track/csv_track_importer.hpp 80-89: the fields of the identifier. -/
def cells (header row : List String) : List String → Outcome (List String)
  | [] => .ok []
  | n :: ns => (cell header row n).bind fun v => (cells header row ns).map fun vs => v :: vs

/-- INC/io/track/csv_track_importer.hpp 95-108: columns of the time that do not exist add nothing but the aggregator. -/
def timeText (f : Fields) (header row : List String) : String :=
  f.times.foldl (fun t n => (if t.isEmpty then t else t ++ f.timeAggregator) ++
    (match cell header row n with | .ok v => v | _ => "")) ""

/-- INC/io/track/csv_track_importer.hpp 94-125: the time of a row, none if the text is empty. -/
def timeOf (f : Fields) (header row : List String) : Outcome (Option Nat) :=
  if (timeText f header row).isEmpty then .ok none else f.moment (timeText f header row)

/-- INC/io/track/csv_track_importer.hpp 68-214: what is read of a row with `wkt`. -/
def rowOf (x : Text P) (f : Fields) (header row : List String) : Outcome (Row P) :=
  (cells header row f.ids).bind fun fs => (timeOf f header row).bind fun t =>
    (cell header row f.geometry).bind fun w => (x.parse (x.upper w)).map fun g => ⟨fs, t, g⟩

/-- SRC/io/csv_importer.cpp 45-51: all rows of a file, an exception ends the import. -/
def rowsOf (x : Text P) (f : Fields) (header : List String) : List (List String) → Outcome (List (Row P))
  | [] => .ok []
  | r :: rs => (rowOf x f header r).bind fun a => (rowsOf x f header rs).map fun as => a :: as

/-- SRC/io/csv_importer.cpp 41-43: the first row of a file is its header (INC/io/track/csv_track_importer.hpp 61-66 without
`no_header`), no lines are skipped. -/
def fileOf (x : Text P) (f : Fields) : List (List String) → Outcome (List (Row P))
  | [] => .ok []
  | header :: rows => rowsOf x f header rows

/-- SRC/compare/comparator/comparator_forwarder_matches.cpp 20: tracks as they are passed on; `system` is the coordinate system to
which the files are transformed. -/
def passedOn (system : CompareRun.System) : Track P → CompareRun.Track P
  | .points id l => ⟨id, system, [l]⟩
  | .lines id ls => ⟨id, system, ls⟩

/-- APP/compare.cpp 72-90 `_read_matches` and 44-70 `_read_ground_truth` from one csv file. -/
def readTracks (x : Text P) (f : Fields) (s : Settings) (proj : P → P) (c : Choice P) (sel : String → Bool) (system : CompareRun.System)
    (file : List (List String)) : Outcome (List (CompareRun.Track P)) :=
  (fileOf x f file).map fun rows => (read proj c sel s.grouped (items s [rows])).map (passedOn system)

end MM.Exchange
