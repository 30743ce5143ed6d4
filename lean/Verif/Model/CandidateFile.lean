import Verif.Model.Session

/-!
# The file of candidates of a session

What the exporter of candidates gets from the matcher: candidates of the parts as the environments hold them after the match, and the
policies.  Paths are relative to /repo/src/library/include/.
-/

set_option autoImplicit false

namespace MM.Session

open MM.Matcher MM.Pipe

variable {P : Type} [DecidableEq P] [Inhabited P]

/-- What candidates are written with (io/results/match/csv_candidates_exporter.hpp 53-56, 91-119): WKT of a segment and of a line, the
identifier of an edge, numbers as text, names of the columns. -/
structure CandOutput (P : Type) where
  segment : P → P → String
  line : List P → String
  edgeId : Nat → Nat
  num : ℝ → String
  columns : String

/-- io/results/match/csv_candidates_exporter.hpp 91-119: a candidate of the point `p`. -/
def CandOutput.edge (o : CandOutput P) (p : P) (c : Nat × CandEdge.Cand P ℝ) : Rows.CandEdge ℝ :=
  ⟨o.segment p c.2.proj, o.line c.2.from_, o.line c.2.to_, c.2.dist, o.edgeId c.1⟩

/-- csv_candidates_exporter.hpp 88-91, matching/candidate/candidate.hpp 58-60: the candidates of each point of the line.  (There are
none of any point, or a set for each point: `Tells`.) -/
def CandOutput.sets (o : CandOutput P) (l : List P) (cs : List (List (Nat × CandEdge.Cand P ℝ))) : List (List (Rows.CandEdge ℝ)) :=
  (l.zip cs).map fun x => x.2.map (o.edge x.1)

/-- csv_candidates_exporter.hpp 75-78: the candidates of the environments; exceptions of `set` come earlier. -/
def CandOutput.parts (o : CandOutput P) : List (Pipe.State P ℝ) → Outcome (List (List (List (Rows.CandEdge ℝ))))
  | [] => .ok []
  | .ok (l, cs) :: rest => (o.parts rest).map fun ps => o.sets l cs :: ps
  | .throws :: _ => .throws
  | .ub :: _ => .ub

/-- matching/matcher.hpp 170-183: what the exporter of candidates gets of a task. -/
noncomputable def Matching.candidates (m : Matching P) (o : CandOutput P) (t : Task P) : Outcome (Rows.CandResult ℝ) :=
  (o.parts (m.collected t).prepared).map fun ps => ⟨t.id, ps, (m.collected t).policies⟩

/-- matching/matcher.hpp 182, csv_candidates_exporter.hpp 60-140: the records of tasks that were matched, in this order. -/
noncomputable def Matching.candidateRecords (m : Matching P) (o : CandOutput P) : List (Task P) → Outcome (List (List (Rows.CandTask ℝ)))
  | [] => .ok []
  | t :: ts =>
    (m.candidates o t).bind fun r => (Rows.candTasks true ((Rows.columnNames o.columns).map Rows.candCol) r).bind fun x =>
      (m.candidateRecords o ts).map fun xs => x :: xs

/-- csv_candidates_exporter.hpp 142-255: the file of candidates when its exporter has executed the records of these tasks, in this order. -/
noncomputable def Matching.candidateFile (m : Matching P) (o : CandOutput P) (ts : List (Task P)) : Outcome Rows.File :=
  (m.candidateRecords o ts).map fun xs => Rows.candFile o.num true o.columns xs

end MM.Session
