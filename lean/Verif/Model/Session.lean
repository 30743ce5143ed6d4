import Verif.Model.TwoRuns
import Verif.Model.Recorded
import Verif.Model.Rows
import Verif.Model.Lifetime
import Verif.Model.TrackFiles
import Verif.Model.MultiLine

/-!
# A session: a network is opened, tracks are read, matched by several threads, and written

How the parts modelled elsewhere work together in a run of `map_matching_2 match`: files of a network are opened
(`Model/TwoRuns.lean`), tracks are read (`Model/TrackFiles.lean`) and queued, workers match them (`Model/Recorded.lean`) and pass
their results on to an exporter (`Model/Lifetime.lean`), which writes rows (`Model/Rows.lean`).  Paths are relative to
/repo/src/library/include/ unless they start with app/.
-/

set_option autoImplicit false

namespace MM.Session

open MM.Line MM.Route MM.Matcher MM.Pipe MM.TwoRuns

variable {T P : Type} [DecidableEq P] [Inhabited P]

/-- A track as it is queued (matching/matcher/match_task.hpp 27-37) with what its worker reads from the clock: the moments at which the time
helper looks (util/time_helper.hpp 56-71) and the duration measured (matching/matcher.hpp 128, 137-144). -/
structure Task (P : Type) where
  id : String
  parts : List (List P)
  reading : Nat → ℝ
  duration : ℝ

/-- What the matches are written with (io/results/match/csv_match_exporter.hpp 33-42): WKT of lines
(geometry/rich_type/multi_rich_line.hpp 422-430, geometry/network/route/route.hpp 906-908), numbers as text, names of the columns. -/
structure Output (P : Type) where
  text : List (List P) → String
  num : ℝ → String
  columns : String

/-- The settings of a session (app/include/app/match.hpp 38-57, 122-123): what tracks are matched with (the network of `rig` is not
used), what is exported, the time limit, and the output.  `next` is the next free address. -/
structure Matching (P : Type) where
  rig : Rig Nat P ℝ ℝ
  exported : Export P
  max : ℝ
  next : Nat
  out : Output P

/-- app/include/app/match.hpp 146-149: the network is opened, the matcher refers to it. -/
noncomputable def start (you : NetDisk.Info) (cs : NetDisk.Cs) (mapped : Options.Mapped) (file : NetDisk.Part → Nat) (q : TwoRuns.Asks P ℝ)
    (m : Matching P) (d : Files T P) : Outcome (Matching P) :=
  (second you cs mapped file q m.rig.hunt d).map fun h => { m with rig := { m.rig with hunt := h } }

/-- matching/matcher.hpp 129-149: the prepared lines of the parts; an exception of `set` or `result` leaves the loop
(`Rig.set`, `Rig.result`). -/
noncomputable def prepared (w : Rig Nat P ℝ ℝ) : List (Pipe.State P ℝ × List Router.Entry) → Outcome (List (List P))
  | [] => .ok []
  | (.ok (l, cs), p) :: rest =>
    (MatchRoute.candidatesRoute (w.job l cs).setting p).bind fun _ => (prepared w rest).map fun ls => l :: ls
  | (.throws, _) :: _ => .throws
  | (.ub, _) :: _ => .ub

/-- matching/matcher.hpp 103-168: what is collected for a task. -/
noncomputable def Matching.collected (m : Matching P) (t : Task P) : Collected (Pipe.State P ℝ) (List Router.Entry) P :=
  matchTrack m.rig.engine m.exported m.max t.reading t.parts

/-- matching/matcher.hpp 170-177, matching/matcher/match_result.hpp 36-44: the result of a task as the exporter gets it
(io/results/match/csv_match_exporter.hpp 47-108), from the prepared lines, the match and its lines. -/
noncomputable def Matching.result (m : Matching P) (t : Task P) (ps : List (List P)) (r : Route P) (ls : List (List P)) : Rows.MatchResult ℝ where
  id := t.id
  trackWkt := m.out.text t.parts
  preparedWkt := m.out.text ps
  matchWkt := m.out.text ls
  trackLength := MultiLine.length m.rig.hunt.env.G t.parts
  preparedLength := MultiLine.length m.rig.hunt.env.G ps
  matchLength := routeLength m.rig.hunt.env.G r.lines
  edgeIds := (m.collected t).ids.map toString
  aborted := (m.collected t).aborted
  duration := t.duration

/-- matching/matcher.hpp 103-183 `_match_impl`, 198-201. -/
noncomputable def Matching.execute (m : Matching P) (t : Task P) : Outcome (Rows.MatchResult ℝ) :=
  (prepared m.rig ((m.collected t).prepared.zip (m.collected t).policies)).bind fun ps =>
    (MatchRoute.matchRoute m.next (m.collected t).matched).bind fun r => r.multiLine.map fun ls => m.result t ps r ls

/-- What a task leaves for the exporter, if anything (matching/matcher.hpp 179-183, util/coordinator.hpp 84-90). -/
def left {α : Type} : Outcome α → Option α
  | .ok a => some a
  | _ => none

/-- The result of the task read as number `i`. -/
noncomputable def Matching.resultOf (m : Matching P) (ts : List (Task P)) (i : Nat) : Option (Rows.MatchResult ℝ) :=
  (ts[i]?).bind fun t => left (m.execute t)

/-- Does the execution of task number `i` throw (`Lifetime.SysStep`)? -/
noncomputable def Matching.failing (m : Matching P) (ts : List (Task P)) (i : Nat) : Bool := (m.resultOf ts i).isNone

/-- The threads of the session (app/include/app/match.hpp 146-152), from the construction of matcher and exporter on: tasks are
named by the number under which they were read. -/
def begins (co ce : Coordinator.Config) (ts : List (Task P)) : Lifetime.Sys Nat := Lifetime.init co ce (List.range ts.length)

/-- The file when the exporter has executed the rows numbered `done`, in this order (io/results/match/csv_match_exporter.hpp
161-205). -/
noncomputable def Matching.file (m : Matching P) (ts : List (Task P)) (done : List Nat) : Rows.File :=
  Rows.matchFile m.out.num 0 true m.out.columns (done.filterMap (m.resultOf ts))

end MM.Session
