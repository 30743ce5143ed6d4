import Verif.Model.Outcome
import Mathlib.Data.List.Basic

/-!
# Tracks in other files (io/track/{gpx_track_importer,seattle_ground_truth_importer,input_importer}.hpp)

Not modelled: reading of xml, of numbers and of well-known text (parameters of the model), files that are missing or cannot be read (they are
skipped, or end the import).  `proj` is the reprojection of a point.
-/

set_option autoImplicit false

namespace MM.Gpx

variable {P : Type}

/-- The text of a time that is not empty (gpx_track_importer.hpp 157-168): the number if all characters are digits (src/io/importer.cpp 31-44),
the milliseconds since 1970 if it can be parsed with the format (src/io/importer.cpp 102-110). -/
structure TimeText where
  number : Option Nat
  millis : Option Nat

/-- A point of a track (gpx_track_importer.hpp 155-175); `time` is `none` if the text is empty. -/
structure Pt (P : Type) where
  time : Option TimeText
  point : P

/-- A track (gpx_track_importer.hpp 101-133): name and segments. -/
structure Trk (P : Type) where
  name : String
  segments : List (List (Pt P))

/-- A file (gpx_track_importer.hpp 55-81): name in the metadata and tracks. -/
structure File (P : Type) where
  metaName : String
  tracks : List (Trk P)

/-- src/io/importer.cpp 102-114 `parse_time`: whole seconds; a time that cannot be parsed stays zero. -/
def parseTime (t : TimeText) : Nat := (t.millis.getD 0) / 1000

/-- gpx_track_importer.hpp 157-168: the timestamp of the point after `n` measurements. -/
def timestamp (noParse : Bool) (n : Nat) (p : Pt P) : Nat :=
  match p.time with
  | none => n
  | some t => if noParse then t.number.getD n else parseTime t

/-- gpx_track_importer.hpp 152-176: the measurements before they are sorted. -/
def measurements (noParse : Bool) (proj : P → P) : Nat → List (Pt P) → List (Nat × P)
  | _, [] => []
  | n, p :: ps => (timestamp noParse n p, proj p.point) :: measurements noParse proj (n + 1) ps

/-- gpx_track_importer.hpp 138-181 `_parse_track_segment`; `sort` is `std::sort`, measurement.hpp 95-97 compares times only. -/
def segment (sort : List (Nat × P) → List (Nat × P)) (noParse : Bool) (proj : P → P) (ps : List (Pt P)) : List P :=
  (sort (measurements noParse proj 0 ps)).map Prod.snd

/-- gpx_track_importer.hpp 114-128: the identifier of a track, and the counter afterwards. -/
def trackId (noId : Bool) (metaName : String) (counter : Nat) (name : String) : String × Nat :=
  if noId then (toString counter, counter + 1)
  else if name ≠ "" then (name, counter)
  else if metaName ≠ "" then (metaName, counter)
  else (toString counter, counter + 1)

/-- Settings of the importer (gpx_track_importer.hpp 45-53, 130); `sel` holds if there are no selectors or the identifier is one of them. -/
structure Settings where
  noId : Bool
  noParse : Bool
  sel : String → Bool

/-- gpx_track_importer.hpp 100-135: the tracks of one file that are passed on, and the counter. -/
def fileTracks (sort : List (Nat × P) → List (Nat × P)) (s : Settings) (proj : P → P) (metaName : String) :
    Nat → List (Trk P) → List (String × List (List P)) × Nat
  | counter, [] => ([], counter)
  | counter, t :: ts =>
    ((if s.sel (trackId s.noId metaName counter t.name).1 then
        [((trackId s.noId metaName counter t.name).1, t.segments.map (segment sort s.noParse proj))] else []) ++
      (fileTracks sort s proj metaName (trackId s.noId metaName counter t.name).2 ts).1,
     (fileTracks sort s proj metaName (trackId s.noId metaName counter t.name).2 ts).2)

/-- gpx_track_importer.hpp 55-81 `read`: the tracks passed on; the counter is kept for the next file. -/
def readFiles (sort : List (Nat × P) → List (Nat × P)) (s : Settings) (proj : P → P) :
    Nat → List (File P) → List (String × List (List P))
  | _, [] => []
  | counter, f :: fs =>
    (fileTracks sort s proj f.metaName counter f.tracks).1 ++
      readFiles sort s proj (fileTracks sort s proj f.metaName counter f.tracks).2 fs

end MM.Gpx

namespace MM.SeattleTruth

variable {P : Type}

/-- A road (seattle_ground_truth_importer.hpp 89-100): identifier, line, two-way. -/
structure Road (P : Type) where
  id : Nat
  line : List P
  twoWay : Bool

/-- seattle_ground_truth_importer.hpp 100, 123: `lines.emplace`, then `lines.at`; the first road of an identifier counts. -/
def find (roads : List (Road P)) (id : Nat) : Option (Road P) := roads.find? (fun r => decide (r.id = id))

/-- seattle_ground_truth_importer.hpp 127-133: the points of an edge, the first one only at the beginning; `std::next` of the end is undefined. -/
def append (truth edge : List P) : Outcome (List P) :=
  if truth = [] then .ok (truth ++ edge)
  else if edge = [] then .ub
  else .ok (truth ++ edge.tail)

/-- seattle_ground_truth_importer.hpp 118-138: one row of the route, `forward` for travel in the direction of the line. -/
def step (roads : List (Road P)) (truth : List P) (row : Nat × Bool) : Outcome (List P) :=
  match find roads row.1 with
  | none => .throws
  | some r =>
    if row.2 then append truth r.line
    else if r.twoWay then append truth r.line.reverse
    else .throws

/-- seattle_ground_truth_importer.hpp 112-139. -/
def route (roads : List (Road P)) : List P → List (Nat × Bool) → Outcome (List P)
  | truth, [] => .ok truth
  | truth, row :: rows => (step roads truth row).bind fun truth' => route roads truth' rows

/-- seattle_ground_truth_importer.hpp 55-144, both files present: the track passed on with identifier 0. -/
def read (proj : P → P) (roads : List (Road P)) (rows : List (Nat × Bool)) : Outcome (String × List (List P)) :=
  (route roads [] rows).map fun truth => ("0", [truth.map proj])

end MM.SeattleTruth

namespace MM.Console

variable {P : Type}

/-- `boost::trim` (input_importer.hpp 51, 96). -/
def trim (s : List Char) : List Char := ((s.dropWhile Char.isWhitespace).reverse.dropWhile Char.isWhitespace).reverse

/-- `boost::to_upper` (input_importer.hpp 56). -/
def upper (s : List Char) : List Char := s.map Char.toUpper

/-- The separators of input_importer.hpp 73. -/
def isSep (c : Char) : Bool := c == ',' || c == ';' || c == '|'

/-- `boost::tokenizer` with the separators (input_importer.hpp 94-95), all tokens, also empty ones. -/
def split : List Char → List (List Char)
  | [] => [[]]
  | c :: cs =>
    if isSep c then [] :: split cs
    else
      match split cs with
      | [] => [[c]]
      | w :: ws => (c :: w) :: ws

/-- `boost::char_separator` drops empty tokens (input_importer.hpp 73). -/
def tokens (s : List Char) : List (List Char) := (split s).filter (fun t => !t.isEmpty)

/-- `read_wkt` for points, lines and several lines (input_importer.hpp 98, 110, 114); `none`: it throws. -/
structure Wkt (P : Type) where
  point : List Char → Option P
  line : List Char → Option (List P)
  multi : List Char → Option (List (List P))

/-- All or nothing: an exception for one token leaves the loop (input_importer.hpp 95-102). -/
def allPoints (w : Wkt P) : List (List Char) → Option (List P)
  | [] => some []
  | t :: ts =>
    match w.point (trim t), allPoints w ts with
    | some p, some ps => some (p :: ps)
    | _, _ => none

/-- input_importer.hpp 91-118: the lines of the track, `none` for an exception. -/
def geometry (w : Wkt P) (proj : P → P) (s : List Char) : Option (List (List P)) :=
  if "POINT".toList.isPrefixOf s then (allPoints w (tokens s)).map (fun l => [l.map proj])
  else if "LINESTRING".toList.isPrefixOf s then (w.line s).map (fun l => [l.map proj])
  else if "MULTILINESTRING".toList.isPrefixOf s then (w.multi s).map (fun ls => ls.map (List.map proj))
  else none

/-- input_importer.hpp 48-65 `read` with 76-120; the counter is incremented before the line is parsed, exceptions are caught. -/
def read (w : Wkt P) (proj : P → P) : Nat → List (List Char) → List (String × List (List P))
  | _, [] => []
  | counter, l :: ls =>
    if trim l = [] then []
    else
      match geometry w proj (upper (trim l)) with
      | some g => (toString counter, g) :: read w proj (counter + 1) ls
      | none => read w proj (counter + 1) ls

end MM.Console
