import Verif.Model.Rows
import Verif.Model.Compare

/-!
# What a run prints and leaves in its file

Models io/results/results_output_printer.hpp, io/results/match/match_output_printer.hpp,
io/results/compare/compare_output_printer.hpp, io/results/track/track_output_printer.hpp,
io/results/track/csv_track_exporter.hpp, io/file_exporter.hpp with file_exporter.cpp, io/track/track_exporter.cpp and the passing on
of results in matching/matcher.hpp 179-183 and compare/comparator.hpp 86-89 (paths relative to /repo/src/library/include/ and
/repo/src/library/src/).

The lines printed are records of the values handed to `std::format`; the decimal places are left out.  A printer has one thread
(results_output_printer.hpp 35), which executes its tasks one after the other; that each is executed once before `join` returns
is the subject of C37 and C78.
-/

set_option autoImplicit false

namespace MM.Report

variable {R S : Type}

/-- results_output_printer.hpp 49 -/
structure Flags where
  console : Bool
  verbose : Bool
deriving DecidableEq, Repr

/-- results_output_printer.hpp 39-41 `is_active`. -/
def Flags.active (f : Flags) : Bool := f.console || f.verbose

/-- results_output_printer.hpp 53-57 `print_result` for a text. -/
def printText (f : Flags) (s : String) : List String := if f.active && !s.isEmpty then [s] else []

/-! ### Tracks -/

/-- track_output_printer.hpp 46-59: what is read of a track. -/
structure TrackIn where
  id : String
  wkt : String
  points : Nat
deriving DecidableEq, Repr

/-- track_output_printer.hpp 23-26 -/
structure TrackTask where
  id : String
  track : String
  points : Nat
deriving DecidableEq, Repr

/-- track_output_printer.hpp 45-59 `parse_result`. -/
def trackTask (f : Flags) (r : TrackIn) : TrackTask :=
  if f.active then if f.console then ⟨r.id, r.wkt, 0⟩ else ⟨r.id, "", r.points⟩ else ⟨r.id, "", 0⟩

/-- What a printer of tracks has printed: a text, a numbered line, or the summary (track_output_printer.hpp 71, 75-77, 86-88). -/
inductive TrackLine where
  | text (s : String)
  | line (no : Nat) (id : String) (points : Nat)
  | summary (count points : Nat)
deriving DecidableEq, Repr

/-- track_output_printer.hpp 68-82 `parse_task`, 94-96: count, sum and lines after one task. -/
def trackStep (f : Flags) (s : (Nat × Nat) × List TrackLine) (t : TrackTask) : (Nat × Nat) × List TrackLine :=
  if f.active then
    if f.console then (s.1, s.2 ++ (printText f t.track).map .text)
    else ((s.1.1 + 1, s.1.2 + t.points), s.2 ++ [.line (s.1.1 + 1) t.id t.points])
  else s

/-- track_output_printer.hpp 40-42, 84-92: the summary of the destructor. -/
def trackEnd (f : Flags) (s : (Nat × Nat) × List TrackLine) : List TrackLine :=
  if f.active && decide (0 < s.1.1) then s.2 ++ [.summary s.1.1 s.1.2] else s.2

/-- All lines of a printer of tracks, from the constructor to the end of the destructor (track_output_printer.hpp 37-96). -/
def trackLines (f : Flags) (rs : List TrackIn) : List TrackLine :=
  trackEnd f ((rs.map (trackTask f)).foldl (trackStep f) ((0, 0), []))

/-! ### Matches -/

/-- environment/environments/hmm.hpp 305-319 `states`, given the numbers of states of all points (`_transitions[i].size()`), and
the number of points with candidates, from point `i` on; `prev` is the number of the point before. -/
def hmmStates (candidates : Nat) (prev : Option Nat) : Nat → List Nat → Nat
  | _, [] => 0
  | i, n :: ns => if i < candidates then (match prev with | none => n | some m => n * m) + hmmStates candidates (some n) (i + 1) ns else 0

/-- environment/environments/single.hpp 131-137 `states`: numbers of actions of the states. -/
def mdpStates (cache : List Nat) : Nat := cache.foldl (· + ·) 0

/-- hmm.hpp 321-327, single.hpp 139-145 `edges`: numbers of candidate edges of the points. -/
def edgesOf (candidates : List Nat) : Nat := candidates.foldl (· + ·) 0

/-- match_output_printer.hpp 46-69: what is read of a match; `parts` has edges and states of each environment. -/
structure MatchIn (R : Type) where
  id : String
  wkt : String
  trackPoints : Nat
  preparedPoints : Nat
  parts : List (Nat × Nat)
  aborted : Bool
  duration : R
deriving DecidableEq, Repr

/-- match_output_printer.hpp 22-27 -/
structure MatchTask (R : Type) where
  id : String
  match_ : String
  trackPoints : Nat
  preparedPoints : Nat
  edges : Nat
  combinations : Nat
  aborted : Bool
  duration : R
deriving DecidableEq, Repr

/-- match_output_printer.hpp 44-70 `parse_result`. -/
def matchTask (f : Flags) (r : MatchIn R) : MatchTask R :=
  if f.active then
    if f.console then ⟨r.id, r.wkt, 0, 0, 0, 0, r.aborted, r.duration⟩
    else ⟨r.id, "", r.trackPoints, r.preparedPoints, r.parts.foldl (fun n p => n + p.1) 0, r.parts.foldl (fun n p => n + p.2) 0,
      r.aborted, r.duration⟩
  else ⟨r.id, "", 0, 0, 0, 0, r.aborted, r.duration⟩

/-- match_output_printer.hpp 77 with results_output_printer.hpp 50-51. -/
structure MatchSums (R : Type) where
  count : Nat
  duration : R
  trackPoints : Nat
  preparedPoints : Nat
  edges : Nat
  combinations : Nat
deriving DecidableEq, Repr

/-- What a printer of matches has printed (match_output_printer.hpp 82, 90-94, 103-107). -/
inductive MatchLine (R : Type) where
  | text (s : String)
  | line (no : Nat) (t : MatchTask R)
  | summary (s : MatchSums R)
deriving DecidableEq, Repr

/-- match_output_printer.hpp 79-98 `parse_task`, 113-115. -/
def matchStep [Add R] (f : Flags) (s : MatchSums R × List (MatchLine R)) (t : MatchTask R) : MatchSums R × List (MatchLine R) :=
  if f.active then
    if f.console then (s.1, s.2 ++ (printText f t.match_).map .text)
    else (⟨s.1.count + 1, s.1.duration + t.duration, s.1.trackPoints + t.trackPoints, s.1.preparedPoints + t.preparedPoints,
        s.1.edges + t.edges, s.1.combinations + t.combinations⟩, s.2 ++ [.line (s.1.count + 1) t])
  else s

/-- match_output_printer.hpp 39-41, 100-111. -/
def matchEnd (f : Flags) (s : MatchSums R × List (MatchLine R)) : List (MatchLine R) :=
  if f.active && decide (0 < s.1.count) then s.2 ++ [.summary s.1] else s.2

/-- All lines of a printer of matches (match_output_printer.hpp 36-115). -/
def matchLines [Zero R] [Add R] (f : Flags) (rs : List (MatchIn R)) : List (MatchLine R) :=
  matchEnd f ((rs.map (matchTask f)).foldl (matchStep f) (⟨0, 0, 0, 0, 0, 0⟩, []))

/-! ### Comparisons -/

/-- compare_output_printer.hpp 44-87: what is read of a comparison; a length is `none` without `has_length()`, an infinite error
is `none`. -/
structure CompareIn (R S : Type) where
  id : String
  matchPoints : Nat
  truthPoints : Nat
  matchLength : Option R
  truthLength : Option R
  duration : R
  correctFraction : R
  errorFraction : Option R
  correct : R
  errorAdded : R
  errorMissed : R
  corrects : List S
  adds : List S
  misses : List S
deriving DecidableEq, Repr

/-- compare_output_printer.hpp 23-28 -/
structure CompareTask (R : Type) where
  id : String
  corrects : String
  adds : String
  misses : String
  matchPoints : Nat
  truthPoints : Nat
  duration : R
  matchLength : R
  truthLength : R
  correctFraction : R
  errorFraction : Option R
  correct : R
  errorAdded : R
  errorMissed : R
deriving DecidableEq, Repr

/-- compare_output_printer.hpp 55-63: the texts of lines, each followed by a line break. -/
def wktLines (wkt : S → String) (l : List S) : String := l.foldl (fun s x => s ++ wkt x ++ "\n") ""

/-- compare_output_printer.hpp 43-87 `parse_result`. -/
def compareTask [Zero R] (f : Flags) (wkt : S → String) (r : CompareIn R S) : CompareTask R :=
  if f.active then
    if f.console then
      ⟨r.id, wktLines wkt r.corrects, wktLines wkt r.adds, wktLines wkt r.misses, 0, 0, r.duration, 0, 0, r.correctFraction,
        r.errorFraction, r.correct, r.errorAdded, r.errorMissed⟩
    else
      ⟨r.id, "", "", "", r.matchPoints, r.truthPoints, r.duration, r.matchLength.getD 0, r.truthLength.getD 0, r.correctFraction,
        r.errorFraction, r.correct, r.errorAdded, r.errorMissed⟩
  else
    ⟨r.id, "", "", "", 0, 0, r.duration, 0, 0, r.correctFraction, r.errorFraction, r.correct, r.errorAdded, r.errorMissed⟩

/-- compare_output_printer.hpp 94-97 with results_output_printer.hpp 50-51. -/
structure Sums (R : Type) where
  count : Nat
  duration : R
  truthPoints : Nat
  matchPoints : Nat
  matchLength : R
  truthLength : R
  correctFraction : R
  errorFraction : Option R
  correct : R
  errorAdded : R
  errorMissed : R
deriving DecidableEq, Repr

/-- Addition of numbers that may be infinite (compare_output_printer.hpp 112). -/
def addInf [Add R] : Option R → Option R → Option R
  | some a, some b => some (a + b)
  | _, _ => none

/-- compare_output_printer.hpp 105-115. -/
def Sums.add [Add R] (s : Sums R) (t : CompareTask R) : Sums R where
  count := s.count + 1
  duration := s.duration + t.duration
  truthPoints := s.truthPoints + t.truthPoints
  matchPoints := s.matchPoints + t.matchPoints
  matchLength := s.matchLength + t.matchLength
  truthLength := s.truthLength + t.truthLength
  correctFraction := s.correctFraction + t.correctFraction
  errorFraction := addInf s.errorFraction t.errorFraction
  correct := s.correct + t.correct
  errorAdded := s.errorAdded + t.errorAdded
  errorMissed := s.errorMissed + t.errorMissed

/-- compare_output_printer.hpp 101-103: the text of a comparison for the console. -/
def compareText (t : CompareTask R) : String :=
  "Comparison '" ++ t.id ++ "':\nCorrects:\n" ++ t.corrects ++ "Error Adds:\n" ++ t.adds ++ "Error Misses:" ++ t.misses ++ "\n"

/-- compare_output_printer.hpp 137-143: the weighted error. -/
def weightedError [LinearOrder R] [Add R] [Zero R] [Div R] (s : Sums R) : Option R :=
  if s.errorAdded ≠ 0 ∨ s.errorMissed ≠ 0 then
    if 0 < s.truthLength then some ((s.errorAdded + s.errorMissed) / s.truthLength) else none
  else some 0

/-- compare_output_printer.hpp 145-157: the weighted correct fraction. -/
def weightedCorrect [LinearOrder R] [Add R] [Zero R] [One R] [Div R] (s : Sums R) : R :=
  if weightedError s = some 0 then 1
  else min 1 (max 0 (if 0 < s.truthLength ∧ 0 < s.matchLength then s.correct / max s.matchLength s.truthLength
    else if s.truthLength = 0 ∧ s.matchLength = 0 then 1 else 0))

/-- The summary (compare_output_printer.hpp 167-180): all sums, the means and the weighted means. -/
structure Summary (R : Type) where
  sums : Sums R
  meanCorrect : R
  weightedCorrect : R
  meanError : Option R
  weightedError : Option R
deriving DecidableEq, Repr

/-- compare_output_printer.hpp 165-180 -/
def summary [LinearOrder R] [Add R] [Zero R] [One R] [Div R] [NatCast R] (s : Sums R) : Summary R :=
  ⟨s, s.correctFraction / s.count, weightedCorrect s, s.errorFraction.map (· / s.count), weightedError s⟩

/-- What a printer of comparisons has printed (compare_output_printer.hpp 36-188). -/
inductive CompareLine (R : Type) where
  | text (s : String)
  | line (no : Nat) (t : CompareTask R)
  | summary (s : Summary R)
deriving DecidableEq, Repr

/-- compare_output_printer.hpp 99-129 `parse_task`, 186-188. -/
def compareStep [Add R] (f : Flags) (s : Sums R × List (CompareLine R)) (t : CompareTask R) : Sums R × List (CompareLine R) :=
  if f.active then
    if f.console then (s.1, s.2 ++ (printText f (compareText t)).map .text)
    else (s.1.add t, s.2 ++ [.line (s.1.count + 1) t])
  else s

/-- compare_output_printer.hpp 39-41, 162-184. -/
def compareEnd [LinearOrder R] [Add R] [Zero R] [One R] [Div R] [NatCast R] (f : Flags) (s : Sums R × List (CompareLine R)) :
    List (CompareLine R) :=
  if f.active && decide (0 < s.1.count) then s.2 ++ [.summary (summary s.1)] else s.2

/-- compare_output_printer.hpp 94-97: nothing added yet. -/
def Sums.none [Zero R] : Sums R := ⟨0, 0, 0, 0, 0, 0, 0, some 0, 0, 0, 0⟩

/-- All lines of a printer of comparisons (compare_output_printer.hpp 36-188). -/
def compareLines [LinearOrder R] [Add R] [Zero R] [One R] [Div R] [NatCast R] (f : Flags) (wkt : S → String)
    (rs : List (CompareIn R S)) : List (CompareLine R) :=
  compareEnd f ((rs.map (compareTask f wkt)).foldl (compareStep f) (Sums.none, []))

/-! ### The file of the results -/

/-- `std::filesystem::path{output} / filename` (/repo/src/app/include/app/match.hpp 40, 110; compare.cpp 35), for a relative
file name and an output folder without a slash at its end. -/
def outputPath (output filename : String) : String := if output = "" then filename else output ++ "/" ++ filename

/-- A file, if there is one, and whether it can be opened for writing (/repo/src/app/include/app/match.hpp 40, 110; compare.cpp 35). -/
structure Disk where
  content : Option (List (List String))
  writable : Bool
deriving DecidableEq, Repr

/-- file_exporter.cpp 20-24 `open`, 34-37: the file is opened and emptied; and whether that succeeded (43-45). -/
def openFile (path : String) (d : Disk) : Disk × Bool :=
  if path = "" then (d, false) else if d.writable then ({ d with content := some [] }, true) else (d, false)

/-- csv_results_exporter.hpp 58-66: what the exporter adds for the rows passed to it. -/
def writeRows (names : List String) (active : Bool) (rows : List (List String)) (d : Disk) : Disk :=
  if active then { d with content := some (d.content.getD [] ++ (rows.foldl (Rows.writeResult true names) ⟨false, []⟩).rows) } else d

/-- matcher.hpp 73-75, 180-182; comparator.cpp 26-29, comparator.hpp 87-89; track_exporter.cpp 21, 39-41: the file is opened by
the constructor, results are passed to the exporter unless the console is used.  The file after the destructor, given the rows
of all results. -/
def resultFile (f : Flags) (output filename : String) (names : List String) (rows : List (List String)) (d : Disk) : Disk :=
  writeRows names (openFile (outputPath output filename) d).2 (if f.console then [] else rows) (openFile (outputPath output filename) d).1

/-- /repo/src/app/include/app/match.hpp 40, 110; compare.cpp 35 with file_exporter.cpp 20-24: all files, by their paths, before and
after. -/
def resultFiles (f : Flags) (output filename : String) (names : List String) (rows : List (List String)) (fs : String → Disk) :
    String → Disk :=
  Function.update fs (outputPath output filename) (resultFile f output filename names rows (fs (outputPath output filename)))

/-- csv_track_exporter.hpp 61-65 -/
inductive TrackCol where
  | id | track | unknown
deriving DecidableEq, Repr

/-- csv_track_exporter.hpp 69-80 `_parse_columns`. -/
def trackCol (s : String) : TrackCol := if s = "id" then .id else if s = "track" then .track else .unknown

/-- csv_track_exporter.hpp 37-54 `parse_result`, 82-98 `parse_task`: the row of a track. -/
def trackRow (active : Bool) (cols : List TrackCol) (r : TrackIn) : List String :=
  cols.flatMap fun c => match c with
    | .id => [r.id]
    | .track => [if active && cols.contains .track then r.wkt else ""]
    | .unknown => []

/-- track_exporter.cpp 20-43 with csv_track_exporter.hpp 31-34: the file of the tracks. -/
def trackFile (f : Flags) (output filename : String) (rs : List TrackIn) (d : Disk) : Disk :=
  resultFile f output filename (Rows.columnNames "id,track")
    (rs.map (trackRow (openFile (outputPath output filename) d).2 ((Rows.columnNames "id,track").map trackCol))) d

end MM.Report
