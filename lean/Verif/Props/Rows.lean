import Verif.Model.Rows
import Mathlib.Data.List.Basic
import Mathlib.Data.List.Nodup
import Mathlib.Data.List.Forall2

/-!
# C43: rows of result files line up with their header
-/

set_option autoImplicit false
set_option linter.unusedSectionVars false

namespace MM.Rows

variable {V S : Type}

/-- A row has one field for every column, and it is the value of that column. -/
def LinedUp (value : String → Option String) (header row : List String) : Prop := List.Forall₂ (fun name field => value name = some field) header row

/-- A file is empty without rows, else a header and one lined-up row for each element, in order. -/
def GoodFile {α : Type} (header : List String) (value : α → String → Option String) (elements : List α) (rows : List (List String)) : Prop :=
  (elements = [] ∧ rows = []) ∨ (elements ≠ [] ∧ ∃ body, rows = header :: body ∧ List.Forall₂ (fun e r => LinedUp (value e) header r) elements body)

/-! ### Names of columns -/

theorem splitComma_ne_nil (cs : List Char) : splitComma cs ≠ [] := by
  cases cs with
  | nil => simp [splitComma]
  | cons c cs =>
    rw [splitComma]
    split
    · simp
    · split <;> simp

/-- The names have no commas, and written with commas between they are the argument. -/
theorem columns_split (columns : String) : (∀ n ∈ columnNames columns, ',' ∉ n.toList) ∧
    (List.intercalate [','] ((columnNames columns).map String.toList)) = columns.toList := by
  have key : ∀ cs : List Char, (∀ w ∈ splitComma cs, ',' ∉ w) ∧ List.intercalate [','] (splitComma cs) = cs := by
    intro cs
    induction cs with
    | nil => simp [splitComma, List.intercalate]
    | cons c cs ih =>
      obtain ⟨h1, h2⟩ := ih
      rw [splitComma]
      by_cases hc : c = ','
      · rw [if_pos hc]
        constructor
        · intro w hw
          rcases List.mem_cons.1 hw with rfl | hw
          · simp
          · exact h1 w hw
        · cases hs : splitComma cs with
          | nil => exact absurd hs (splitComma_ne_nil cs)
          | cons w ws =>
            rw [hs] at h2
            rw [hc, ← h2]
            simp [List.intercalate, List.intersperse]
      · rw [if_neg hc]
        cases hs : splitComma cs with
        | nil => exact absurd hs (splitComma_ne_nil cs)
        | cons w ws =>
          rw [hs] at h1 h2
          constructor
          · intro x hx
            rcases List.mem_cons.1 hx with rfl | hx
            · intro hin
              rcases List.mem_cons.1 hin with h | h
              · exact hc h.symm
              · exact h1 w (List.mem_cons_self ..) h
            · exact h1 x (List.mem_cons_of_mem _ hx)
          · rw [← h2]
            cases ws with
            | nil => simp [List.intercalate, List.intersperse]
            | cons x xs => simp [List.intercalate, List.intersperse]
  obtain ⟨h1, h2⟩ := key columns.toList
  constructor
  · intro n hn
    obtain ⟨w, hw, rfl⟩ := List.mem_map.1 hn
    simpa using h1 w hw
  · unfold columnNames
    rw [List.map_map]
    have : (String.toList ∘ String.ofList) = id := by
      funext x
      simp
    rw [this, List.map_id]
    exact h2

/-! ### Writing -/

theorem writeAll_active (names : List String) (rows : List (List String)) :
    (rows.foldl (writeResult true names) ⟨false, []⟩).rows = if rows = [] then [] else names :: rows := by
  have key : ∀ (rows : List (List String)) (f : File), f.headerWritten = true →
      (rows.foldl (writeResult true names) f).rows = f.rows ++ rows := by
    intro rows
    induction rows with
    | nil => intro f _; simp
    | cons r rows ih =>
      intro f hf
      rw [List.foldl_cons, ih _ rfl]
      simp [writeResult, hf]
  cases rows with
  | nil => rfl
  | cons r rows =>
    rw [List.foldl_cons, key _ _ rfl]
    simp [writeResult]

/-- Nothing is written to a file that is not open. -/
theorem inactive_writes_nothing (names : List String) (rows : List (List String)) : ∀ f : File,
    (rows.foldl (writeResult false names) f).rows = f.rows := by
  induction rows with
  | nil => intro f; rfl
  | cons r rows ih =>
    intro f
    rw [List.foldl_cons, ih]
    simp [writeResult]

theorem foldl_map_rows {α : Type} (active : Bool) (names : List String) (row : α → List String) (rs : List α) (f : File) :
    rs.foldl (fun f r => writeResult active names f (row r)) f = (rs.map row).foldl (writeResult active names) f := by
  rw [List.foldl_map]

theorem goodFile_of_rows {α : Type} (header : List String) (value : α → String → Option String) (rs : List α) (row : α → List String)
    (h : ∀ r ∈ rs, LinedUp (value r) header (row r)) :
    GoodFile header value rs ((rs.map row).foldl (writeResult true header) ⟨false, []⟩).rows := by
  rw [writeAll_active]
  cases rs with
  | nil => left; simp
  | cons r rs =>
    right
    refine ⟨by simp, (r :: rs).map row, by simp, ?_⟩
    rw [List.forall₂_map_right_iff, List.forall₂_same]
    exact h

theorem linedUp_flatMap {C : Type} (value : String → Option String) (names : List String) (col : String → C) (field : C → List String)
    (h : ∀ n ∈ names, ∃ v, value n = some v ∧ field (col n) = [v]) : LinedUp value names ((names.map col).flatMap field) := by
  induction names with
  | nil => exact .nil
  | cons n names ih =>
    obtain ⟨v, hv, hf⟩ := h n (List.mem_cons_self ..)
    rw [List.map_cons, List.flatMap_cons, hf, List.singleton_append]
    exact .cons hv (ih (fun m hm => h m (List.mem_cons_of_mem _ hm)))

/-! ### Matches -/

/-- What stands for each column of a match (README, `--columns`): identifiers, texts, lengths (0 without one), edge identifiers with commas. -/
def matchValue (num : V → String) (zero : V) (r : MatchResult V) (name : String) : Option String :=
  [("id", r.id), ("aborted", if r.aborted then "yes" else "no"), ("duration", num r.duration), ("track", r.trackWkt),
    ("prepared", r.preparedWkt), ("match", r.matchWkt), ("track_length", num (r.trackLength.getD zero)),
    ("prepared_length", num (r.preparedLength.getD zero)), ("match_length", num (r.matchLength.getD zero)),
    ("edge_ids", String.intercalate "," r.edgeIds)].lookup name

theorem joinIds_eq (ids : List String) : joinIds ids = String.intercalate "," ids := by
  have key : ∀ (ids : List String) (s : String),
      (ids.foldl (fun (s : String × Bool) i => ((if s.2 then s.1 else s.1 ++ ",") ++ i, false)) (s, false)).1 =
        String.intercalate "," (s :: ids) := by
    intro ids
    induction ids with
    | nil => intro s; simp
    | cons i ids ih =>
      intro s
      rw [List.foldl_cons]
      simp only [Bool.false_eq_true, if_false]
      rw [ih]
      apply String.toList_injective
      simp only [String.toList_intercalate, List.map_cons]
      cases ids <;> simp [List.intercalate, List.intersperse]
  cases ids with
  | nil => rfl
  | cons i ids =>
    unfold joinIds
    rw [List.foldl_cons]
    simp only [if_true]
    rw [key]
    simp

theorem fillMatch_spec (r : MatchResult V) (cols : List MatchCol) : ∀ t : MatchTask V,
    (cols.foldl (fillMatch r) t).id = t.id ∧ (cols.foldl (fillMatch r) t).aborted = t.aborted ∧
    (cols.foldl (fillMatch r) t).duration = t.duration ∧
    (cols.foldl (fillMatch r) t).track = (if .track ∈ cols then r.trackWkt else t.track) ∧
    (cols.foldl (fillMatch r) t).prepared = (if .prepared ∈ cols then r.preparedWkt else t.prepared) ∧
    (cols.foldl (fillMatch r) t).match_ = (if .match_ ∈ cols then r.matchWkt else t.match_) ∧
    (cols.foldl (fillMatch r) t).trackLength = (if .trackLength ∈ cols then r.trackLength.getD t.trackLength else t.trackLength) ∧
    (cols.foldl (fillMatch r) t).preparedLength = (if .preparedLength ∈ cols then r.preparedLength.getD t.preparedLength else t.preparedLength) ∧
    (cols.foldl (fillMatch r) t).matchLength = (if .matchLength ∈ cols then r.matchLength.getD t.matchLength else t.matchLength) ∧
    (cols.foldl (fillMatch r) t).edgeIds = (if .edgeIds ∈ cols ∧ r.edgeIds ≠ [] then joinIds r.edgeIds else t.edgeIds) := by
  induction cols with
  | nil => intro t; simp
  | cons c cols ih =>
    intro t
    rw [List.foldl_cons]
    obtain ⟨h1, h2, h3, h4, h5, h6, h7, h8, h9, h10⟩ := ih (fillMatch r t c)
    rw [h1, h2, h3, h4, h5, h6, h7, h8, h9, h10]
    cases c <;> simp [fillMatch]
    · cases r.trackLength <;> simp
    · cases r.preparedLength <;> simp
    · cases r.matchLength <;> simp
    · cases r.edgeIds <;> simp

/-- The columns of a match. -/
def matchNames : List String :=
  ["id", "aborted", "duration", "track", "prepared", "match", "track_length", "prepared_length", "match_length", "edge_ids"]

theorem matchField_ok (num : V → String) (zero : V) (r : MatchResult V) (names : List String) {n : String} (hn : n ∈ names)
    (hk : n ∈ matchNames) : ∃ v, matchValue num zero r n = some v ∧
      matchField num (matchTask zero true (names.map matchCol) r) (matchCol n) = [v] := by
  have hin : matchCol n ∈ names.map matchCol := List.mem_map.2 ⟨n, hn, rfl⟩
  obtain ⟨h1, h2, h3, h4, h5, h6, h7, h8, h9, h10⟩ := fillMatch_spec r (names.map matchCol)
    ⟨r.id, "", "", "", "", r.aborted, r.duration, zero, zero, zero⟩
  unfold matchTask
  simp only [if_true]
  generalize (names.map matchCol).foldl (fillMatch r) _ = t at *
  generalize names.map matchCol = cols at *
  unfold matchNames at hk
  unfold matchValue
  by_cases e1 : n = "id"
  · subst e1; exact ⟨_, rfl, by simp [matchCol, matchField, h1]⟩
  by_cases e2 : n = "aborted"
  · subst e2; exact ⟨_, rfl, by simp [matchCol, matchField, h2]⟩
  by_cases e3 : n = "duration"
  · subst e3; exact ⟨_, rfl, by simp [matchCol, matchField, h3]⟩
  by_cases e4 : n = "track"
  · subst e4; exact ⟨_, rfl, by rw [show matchCol "track" = .track from by simp [matchCol]] at *; simp [matchField, h4, hin]⟩
  by_cases e5 : n = "prepared"
  · subst e5; exact ⟨_, rfl, by rw [show matchCol "prepared" = .prepared from by simp [matchCol]] at *; simp [matchField, h5, hin]⟩
  by_cases e6 : n = "match"
  · subst e6; exact ⟨_, rfl, by rw [show matchCol "match" = .match_ from by simp [matchCol]] at *; simp [matchField, h6, hin]⟩
  by_cases e7 : n = "track_length"
  · subst e7; exact ⟨_, rfl, by rw [show matchCol "track_length" = .trackLength from by simp [matchCol]] at *; simp [matchField, h7, hin]⟩
  by_cases e8 : n = "prepared_length"
  · subst e8; exact ⟨_, rfl, by rw [show matchCol "prepared_length" = .preparedLength from by simp [matchCol]] at *; simp [matchField, h8, hin]⟩
  by_cases e9 : n = "match_length"
  · subst e9; exact ⟨_, rfl, by rw [show matchCol "match_length" = .matchLength from by simp [matchCol]] at *; simp [matchField, h9, hin]⟩
  by_cases e10 : n = "edge_ids"
  · subst e10
    refine ⟨_, rfl, ?_⟩
    rw [show matchCol "edge_ids" = .edgeIds from by simp [matchCol]] at *
    simp only [matchField, h10, hin, true_and]
    cases hr : r.edgeIds with
    | nil => simp
    | cons i is => simp [joinIds_eq]
  · exfalso
    simp [e1, e2, e3, e4, e5, e6, e7, e8, e9, e10] at hk

/-- **C43**, matches: for every list of known columns and all results, the file is the header and a row for each result that lines up with it.
Missing: unknown names (`match_fails`). -/
theorem match_partial (num : V → String) (zero : V) (columns : String) (rs : List (MatchResult V))
    (hknown : ∀ n ∈ columnNames columns, n ∈ matchNames) :
    GoodFile (columnNames columns) (matchValue num zero) rs (matchFile num zero true columns rs).rows := by
  unfold matchFile
  rw [foldl_map_rows]
  apply goodFile_of_rows
  intro r _
  apply linedUp_flatMap
  intro n hn
  exact matchField_ok num zero r _ hn (hknown n hn)

/-- **C43 fails**, matches: the name `aborte` is in the header, has no field, and the field of the next column stands under it. -/
theorem match_fails : (matchFile (fun _ : Unit => "0") () true "id,aborte,match" [⟨"7", "", "", "LINESTRING(0 0)", none, none, none, [], false, ()⟩]).rows =
    [["id", "aborte", "match"], ["7", "LINESTRING(0 0)"]] := by
  have : columnNames "id,aborte,match" = ["id", "aborte", "match"] := by decide +kernel
  simp [matchFile, this, writeResult, matchRow, matchTask, matchCol, matchField, fillMatch]

example : (∀ n ∈ columnNames "id,edge_ids,match_length", n ∈ matchNames) ∧
    (matchFile (fun v : Nat => toString v) 0 true "id,edge_ids,match_length" [⟨"7", "", "", "", none, none, some 5, ["3", "4"], false, 1⟩]).rows =
      [["id", "edge_ids", "match_length"], ["7", "3,4", "5"]] := by
  have : columnNames "id,edge_ids,match_length" = ["id", "edge_ids", "match_length"] := by decide +kernel
  constructor
  · rw [this]; decide
  · simp [matchFile, this, writeResult, matchRow, matchTask, matchCol, matchField, fillMatch, joinIds]
    rfl

/-! ### Comparisons -/

/-- The columns of a comparison. -/
def compareNames : List String :=
  ["id", "duration", "match", "ground_truth", "match_length", "ground_truth_length", "correct_fraction", "error_fraction", "correct",
    "error_added", "error_missed", "corrects", "error_adds", "error_misses"]

/-- What stands for each column of a comparison. -/
def compareValue (wkt : List S → String) (num : V → String) (zero : V) (r : CompareResult V S) (name : String) : Option String :=
  [("id", r.id), ("duration", num r.duration), ("match", r.matchWkt), ("ground_truth", r.truthWkt),
    ("match_length", num (r.matchLength.getD zero)), ("ground_truth_length", num (r.truthLength.getD zero)),
    ("correct_fraction", num r.correctFraction), ("error_fraction", num r.errorFraction), ("correct", num r.correct),
    ("error_added", num r.errorAdded), ("error_missed", num r.errorMissed), ("corrects", wkt r.corrects), ("error_adds", wkt r.adds),
    ("error_misses", wkt r.misses)].lookup name

theorem fillCompare_spec (wkt : List S → String) (r : CompareResult V S) (cols : List CompareCol) : ∀ t : CompareFill V S, cols.Nodup →
    (cols.foldl (fillCompare wkt r) t).task.id = t.task.id ∧ (cols.foldl (fillCompare wkt r) t).task.duration = t.task.duration ∧
    (cols.foldl (fillCompare wkt r) t).task.correctFraction = t.task.correctFraction ∧
    (cols.foldl (fillCompare wkt r) t).task.errorFraction = t.task.errorFraction ∧
    (cols.foldl (fillCompare wkt r) t).task.correct = t.task.correct ∧
    (cols.foldl (fillCompare wkt r) t).task.errorAdded = t.task.errorAdded ∧
    (cols.foldl (fillCompare wkt r) t).task.errorMissed = t.task.errorMissed ∧
    (cols.foldl (fillCompare wkt r) t).task.match_ = (if .match_ ∈ cols then r.matchWkt else t.task.match_) ∧
    (cols.foldl (fillCompare wkt r) t).task.truth = (if .truth ∈ cols then r.truthWkt else t.task.truth) ∧
    (cols.foldl (fillCompare wkt r) t).task.matchLength =
      (if .matchLength ∈ cols then r.matchLength.getD t.task.matchLength else t.task.matchLength) ∧
    (cols.foldl (fillCompare wkt r) t).task.truthLength =
      (if .truthLength ∈ cols then r.truthLength.getD t.task.truthLength else t.task.truthLength) ∧
    (cols.foldl (fillCompare wkt r) t).task.corrects = (if .corrects ∈ cols then wkt (t.corrects ++ r.corrects) else t.task.corrects) ∧
    (cols.foldl (fillCompare wkt r) t).task.adds = (if .adds ∈ cols then wkt (t.adds ++ r.adds) else t.task.adds) ∧
    (cols.foldl (fillCompare wkt r) t).task.misses = (if .misses ∈ cols then wkt (t.misses ++ r.misses) else t.task.misses) := by
  induction cols with
  | nil => intro t _; simp
  | cons c cols ih =>
    intro t hnd
    obtain ⟨hn1, hn2⟩ := List.nodup_cons.1 hnd
    rw [List.foldl_cons]
    obtain ⟨h1, h2, h3, h4, h5, h6, h7, h8, h9, h10, h11, h12, h13, h14⟩ := ih (fillCompare wkt r t c) hn2
    rw [h1, h2, h3, h4, h5, h6, h7, h8, h9, h10, h11, h12, h13, h14]
    cases c <;> simp [fillCompare, hn1]
    · cases r.matchLength <;> simp
    · cases r.truthLength <;> simp

/-- The name of a column. -/
def compareName : CompareCol → String
  | .id => "id" | .duration => "duration" | .match_ => "match" | .truth => "ground_truth" | .matchLength => "match_length"
  | .truthLength => "ground_truth_length" | .correctFraction => "correct_fraction" | .errorFraction => "error_fraction"
  | .correct => "correct" | .errorAdded => "error_added" | .errorMissed => "error_missed" | .corrects => "corrects" | .adds => "error_adds"
  | .misses => "error_misses" | .unknown => ""

theorem compareName_col {n : String} (h : n ∈ compareNames) : compareName (compareCol n) = n := by
  simp only [compareNames, List.mem_cons, List.not_mem_nil, or_false] at h
  rcases h with rfl | rfl | rfl | rfl | rfl | rfl | rfl | rfl | rfl | rfl | rfl | rfl | rfl | rfl <;> simp [compareCol, compareName]

theorem compareField_ok (wkt : List S → String) (num : V → String) (zero : V) (r : CompareResult V S) (names : List String) (hnd : names.Nodup)
    (hknown : ∀ n ∈ names, n ∈ compareNames) {n : String} (hn : n ∈ names) : ∃ v, compareValue wkt num zero r n = some v ∧
      compareField num (compareTask wkt zero true (names.map compareCol) r) (compareCol n) = [v] := by
  have hin : compareCol n ∈ names.map compareCol := List.mem_map.2 ⟨n, hn, rfl⟩
  have hcols : (names.map compareCol).Nodup := List.Nodup.map_on (fun x hx y hy he => by
    rw [← compareName_col (hknown x hx), ← compareName_col (hknown y hy), he]) hnd
  obtain ⟨h1, h2, h3, h4, h5, h6, h7, h8, h9, h10, h11, h12, h13, h14⟩ := fillCompare_spec wkt r (names.map compareCol)
    ⟨⟨r.id, "", "", "", "", "", r.duration, zero, zero, r.correctFraction, r.errorFraction, r.correct, r.errorAdded, r.errorMissed⟩, [], [], []⟩ hcols
  have hk := hknown n hn
  unfold compareTask
  simp only [if_true]
  clear hcols
  generalize ((names.map compareCol).foldl (fillCompare wkt r) _).task = t at *
  generalize names.map compareCol = cols at *
  unfold compareValue
  simp only [compareNames, List.mem_cons, List.not_mem_nil, or_false] at hk
  rcases hk with rfl | rfl | rfl | rfl | rfl | rfl | rfl | rfl | rfl | rfl | rfl | rfl | rfl | rfl <;> refine ⟨_, rfl, ?_⟩
  · simp [compareCol, compareField, h1]
  · simp [compareCol, compareField, h2]
  · rw [show compareCol "match" = .match_ from by simp [compareCol]] at *; simp [compareField, h8, hin]
  · rw [show compareCol "ground_truth" = .truth from by simp [compareCol]] at *; simp [compareField, h9, hin]
  · rw [show compareCol "match_length" = .matchLength from by simp [compareCol]] at *; simp [compareField, h10, hin]
  · rw [show compareCol "ground_truth_length" = .truthLength from by simp [compareCol]] at *; simp [compareField, h11, hin]
  · simp [compareCol, compareField, h3]
  · simp [compareCol, compareField, h4]
  · simp [compareCol, compareField, h5]
  · simp [compareCol, compareField, h6]
  · simp [compareCol, compareField, h7]
  · rw [show compareCol "corrects" = .corrects from by simp [compareCol]] at *; simp [compareField, h12, hin]
  · rw [show compareCol "error_adds" = .adds from by simp [compareCol]] at *; simp [compareField, h13, hin]
  · rw [show compareCol "error_misses" = .misses from by simp [compareCol]] at *; simp [compareField, h14, hin]

/-- **C43**, comparisons: for every list of distinct known columns and all comparisons.  Missing: unknown names (as in `match_fails`) and
columns given twice (`compare_twice_fails`). -/
theorem compare_partial (wkt : List S → String) (num : V → String) (zero : V) (columns : String) (rs : List (CompareResult V S))
    (hknown : ∀ n ∈ columnNames columns, n ∈ compareNames) (hnd : (columnNames columns).Nodup) :
    GoodFile (columnNames columns) (compareValue wkt num zero) rs (compareFile wkt num zero true columns rs).rows := by
  unfold compareFile
  rw [foldl_map_rows]
  apply goodFile_of_rows
  intro r _
  apply linedUp_flatMap
  intro n hn
  exact compareField_ok wkt num zero r _ hnd hknown hn

/-- **C43 fails**, comparisons: with the column `corrects` given twice every correct segment is listed twice. -/
theorem compare_twice_fails : (compareFile String.join (fun _ : Unit => "0") () true "corrects,corrects"
    [⟨"7", "", "", ["a", "b"], [], [], none, none, (), (), (), (), (), ()⟩]).rows = [["corrects", "corrects"], ["abab", "abab"]] := by
  have : columnNames "corrects,corrects" = ["corrects", "corrects"] := by decide +kernel
  simp [compareFile, this, writeResult, compareTask, compareCol, compareField, fillCompare, String.join]

example : (∀ n ∈ columnNames "id,error_adds,correct", n ∈ compareNames) ∧ (columnNames "id,error_adds,correct").Nodup ∧
    (compareFile String.join (fun v : Nat => toString v) 0 true "id,error_adds,correct"
      [⟨"7", "", "", [], ["a", "b"], [], none, none, 0, 0, 0, 4, 0, 0⟩]).rows = [["id", "error_adds", "correct"], ["7", "ab", "4"]] := by
  have : columnNames "id,error_adds,correct" = ["id", "error_adds", "correct"] := by decide +kernel
  refine ⟨by rw [this]; decide, by rw [this]; decide, ?_⟩
  simp [compareFile, this, writeResult, compareTask, compareCol, compareField, fillCompare, String.join]
  rfl

/-! ### Candidates -/

/-- The columns of candidates. -/
def candNames : List String :=
  ["id", "part_index", "set_index", "candidate_index", "projection", "distance", "from", "to", "edge_id", "is_result"]

/-- A candidate edge and where it stands: part, candidate, edge. -/
structure Cell (V : Type) where
  result : CandResult V
  part : Nat
  set_ : Nat
  cand : Nat
  edge : CandEdge V

/-- All candidate edges of a result in order. -/
def cells (r : CandResult V) : List (Cell V) :=
  r.parts.zipIdx.flatMap (fun p => p.1.zipIdx.flatMap (fun c => c.1.zipIdx.map (fun e => ⟨r, p.2, c.2, e.2, e.1⟩)))

/-- What stands for each column of a candidate edge. -/
def candValue (num : V → String) (c : Cell V) (name : String) : Option String :=
  [("id", c.result.id), ("part_index", toString c.part), ("set_index", toString c.set_), ("candidate_index", toString c.cand),
    ("projection", c.edge.projection), ("distance", num c.edge.distance), ("from", c.edge.from_), ("to", c.edge.to_),
    ("edge_id", toString c.edge.edgeId),
    ("is_result", if (c.set_, c.cand) ∈ (c.result.policies[c.part]?).getD [] then "1" else "0")].lookup name

theorem fillCand_spec (e : CandEdge V) (policy : List (Nat × Nat)) (cols : List CandCol) : ∀ t : CandTask V,
    (cols.foldl (fillCand e policy) t).id = t.id ∧ (cols.foldl (fillCand e policy) t).part = t.part ∧
    (cols.foldl (fillCand e policy) t).set_ = t.set_ ∧ (cols.foldl (fillCand e policy) t).cand = t.cand ∧
    (cols.foldl (fillCand e policy) t).distance = t.distance ∧ (cols.foldl (fillCand e policy) t).edgeId = t.edgeId ∧
    (cols.foldl (fillCand e policy) t).projection = (if .projection ∈ cols then e.projection else t.projection) ∧
    (cols.foldl (fillCand e policy) t).from_ = (if .from_ ∈ cols then e.from_ else t.from_) ∧
    (cols.foldl (fillCand e policy) t).to_ = (if .to_ ∈ cols then e.to_ else t.to_) ∧
    (cols.foldl (fillCand e policy) t).isResult = (if .isResult ∈ cols then policy.contains (t.set_, t.cand) else t.isResult) := by
  induction cols with
  | nil => intro t; simp
  | cons c cols ih =>
    intro t
    rw [List.foldl_cons]
    obtain ⟨h1, h2, h3, h4, h5, h6, h7, h8, h9, h10⟩ := ih (fillCand e policy t c)
    rw [h1, h2, h3, h4, h5, h6, h7, h8, h9, h10]
    cases c <;> simp only [fillCand, List.mem_cons, reduceCtorEq, false_or, true_or, if_true, and_self, true_and, ite_self]

theorem candField_ok (num : V → String) (c : Cell V) (policy : List (Nat × Nat)) (hp : c.result.policies[c.part]? = some policy)
    (names : List String) {n : String} (hn : n ∈ names) (hk : n ∈ candNames) : ∃ v, candValue num c n = some v ∧
      candField num (candTask (names.map candCol) c.result.id policy c.part c.set_ c.cand c.edge) (candCol n) = [v] := by
  have hin : candCol n ∈ names.map candCol := List.mem_map.2 ⟨n, hn, rfl⟩
  obtain ⟨h1, h2, h3, h4, h5, h6, h7, h8, h9, h10⟩ := fillCand_spec c.edge policy (names.map candCol)
    ⟨c.result.id, "", "", "", c.part, c.set_, c.cand, c.edge.distance, c.edge.edgeId, false⟩
  unfold candTask
  generalize (names.map candCol).foldl (fillCand c.edge policy) _ = t at *
  generalize names.map candCol = cols at *
  unfold candValue
  rw [hp]
  simp only [candNames, List.mem_cons, List.not_mem_nil, or_false] at hk
  rcases hk with rfl | rfl | rfl | rfl | rfl | rfl | rfl | rfl | rfl | rfl <;> refine ⟨_, rfl, ?_⟩
  · simp [candCol, candField, h1]
  · simp [candCol, candField, h2]
  · simp [candCol, candField, h3]
  · simp [candCol, candField, h4]
  · rw [show candCol "projection" = .projection from by simp [candCol]] at *; simp [candField, h7, hin]
  · simp [candCol, candField, h5]
  · rw [show candCol "from" = .from_ from by simp [candCol]] at *; simp [candField, h8, hin]
  · rw [show candCol "to" = .to_ from by simp [candCol]] at *; simp [candField, h9, hin]
  · simp [candCol, candField, h6]
  · rw [show candCol "is_result" = .isResult from by simp [candCol]] at *; simp [candField, h10, hin]

/-- The records of a result are those of its candidate edges in order; without a policy for each part an exception is thrown. -/
theorem candTasks_spec (cols : List CandCol) (r : CandResult V) :
    (r.parts.length ≤ r.policies.length → candTasks true cols r =
      .ok ((cells r).map (fun c => candTask cols c.result.id ((c.result.policies[c.part]?).getD []) c.part c.set_ c.cand c.edge))) ∧
    (r.policies.length < r.parts.length → candTasks true cols r = .throws) := by
  have key : ∀ (ps : List (List (List (CandEdge V)))) (i : Nat),
      (i + ps.length ≤ r.policies.length → candParts cols r i ps =
        .ok (((ps.zipIdx i).flatMap (fun p => p.1.zipIdx.flatMap (fun c => c.1.zipIdx.map (fun e => (⟨r, p.2, c.2, e.2, e.1⟩ : Cell V))))).map
          (fun c => candTask cols c.result.id ((c.result.policies[c.part]?).getD []) c.part c.set_ c.cand c.edge))) ∧
      (i ≤ r.policies.length → r.policies.length < i + ps.length → candParts cols r i ps = .throws) := by
    intro ps
    induction ps with
    | nil => intro i; exact ⟨fun _ => rfl, fun h1 h2 => by simp at h2; omega⟩
    | cons p ps ih =>
      intro i
      obtain ⟨i1, i2⟩ := ih (i + 1)
      rw [List.length_cons]
      constructor
      · intro h
        have hi : i < r.policies.length := by omega
        rw [candParts, List.getElem?_eq_getElem hi, i1 (by omega)]
        simp [candPart, List.zipIdx_cons, List.map_flatMap, hi, Function.comp_def]
      · intro h1 h2
        rw [candParts]
        by_cases hi : i < r.policies.length
        · rw [List.getElem?_eq_getElem hi, i2 (by omega) (by omega)]
          rfl
        · rw [List.getElem?_eq_none (by omega)]
  obtain ⟨k1, k2⟩ := key r.parts 0
  constructor
  · intro h
    simpa [candTasks, cells] using k1 (by omega)
  · intro h
    simpa [candTasks] using k2 (by omega) (by omega)

/-- **C43**, candidates: for every list of known columns and all results with a policy for each part, the file is the header and a row for each
candidate edge, in order.  Missing: unknown names (as in `match_fails`). -/
theorem candidates_partial (num : V → String) (columns : String) (rs : List (CandResult V))
    (hknown : ∀ n ∈ columnNames columns, n ∈ candNames) (hpol : ∀ r ∈ rs, r.parts.length ≤ r.policies.length) :
    ∃ ts, List.Forall₂ (fun r t => candTasks true ((columnNames columns).map candCol) r = .ok t) rs ts ∧
      GoodFile (columnNames columns) (candValue num) (rs.flatMap cells) (candFile num true columns ts).rows := by
  refine ⟨rs.map (fun r => (cells r).map (fun c => candTask ((columnNames columns).map candCol) c.result.id
    ((c.result.policies[c.part]?).getD []) c.part c.set_ c.cand c.edge)), ?_, ?_⟩
  · rw [List.forall₂_map_right_iff, List.forall₂_same]
    exact fun r hr => (candTasks_spec _ r).1 (hpol r hr)
  · unfold candFile
    have : (rs.map (fun r => (cells r).map (fun c => candTask ((columnNames columns).map candCol) c.result.id
        ((c.result.policies[c.part]?).getD []) c.part c.set_ c.cand c.edge))).flatten =
        (rs.flatMap cells).map (fun c => candTask ((columnNames columns).map candCol) c.result.id
          ((c.result.policies[c.part]?).getD []) c.part c.set_ c.cand c.edge) := by
      rw [List.map_flatMap, List.flatMap_def]
    rw [this, List.map_map]
    apply goodFile_of_rows
    intro c hc
    apply linedUp_flatMap
    intro n hn
    obtain ⟨r, hr, hc⟩ := List.mem_flatMap.1 hc
    have hpart : c.part < c.result.policies.length := by
      unfold cells at hc
      simp only [List.mem_flatMap, List.mem_map] at hc
      obtain ⟨p, hp, _, _, _, _, rfl⟩ := hc
      have := List.snd_lt_of_mem_zipIdx hp
      have := hpol r hr
      simp only
      omega
    have hget := List.getElem?_eq_getElem hpart
    simp only [hget, Option.getD_some]
    exact candField_ok num c _ hget _ hn (hknown n hn)

example : ∃ rs : List (CandResult Nat), (∀ n ∈ columnNames "id,candidate_index,is_result", n ∈ candNames) ∧
    (∀ r ∈ rs, r.parts.length ≤ r.policies.length) ∧ (rs.flatMap cells).length = 3 := by
  have : columnNames "id,candidate_index,is_result" = ["id", "candidate_index", "is_result"] := by decide +kernel
  exact ⟨[⟨"7", [[[⟨"", "", "", 1, 5⟩, ⟨"", "", "", 2, 6⟩], [⟨"", "", "", 3, 7⟩]]], [[(0, 1), (1, 0)]]⟩], by rw [this]; decide, by decide, by decide⟩

/-! ### Headers of elements -/

theorem saveRows_eq (header : List String) (rows : List (List String)) : saveRows header rows = if rows = [] then [] else header :: rows := by
  have key : ∀ (rows : List (List String)) (s : List (List String)),
      (rows.foldl (fun (s : List (List String) × Bool) r => ((if s.2 then s.1 ++ [header] else s.1) ++ [r], false)) (s, false)).1 = s ++ rows := by
    intro rows
    induction rows with
    | nil => intro s; simp
    | cons r rows ih => intro s; rw [List.foldl_cons]; simp only [Bool.false_eq_true, if_false]; rw [ih]; simp
  unfold saveRows
  cases rows with
  | nil => rfl
  | cons r rows => rw [List.foldl_cons]; simp only [if_true]; rw [key]; simp

/-- The tags of an element written out: `['k':'v','l':'w']`, nothing without tags. -/
def tagsText (kvs : List (String × String)) : String :=
  if kvs = [] then "" else "[" ++ String.intercalate "," (kvs.map (fun kv => "'" ++ kv.1 ++ "':'" ++ kv.2 ++ "'")) ++ "]"

theorem tagField_eq (tag : Nat → Option (String × String)) (tags : List Nat) (kvs : List (String × String))
    (h : tags.map tag = kvs.map some) : tagField tag tags = tagsText kvs := by
  have key : ∀ (tags : List Nat) (kvs : List (String × String)) (s : String), tags.map tag = kvs.map some →
      (tags.foldl (tagStep tag) (s, false)).1 =
      String.intercalate "," (s :: kvs.map (fun kv => "'" ++ kv.1 ++ "':'" ++ kv.2 ++ "'")) := by
    intro tags
    induction tags with
    | nil => intro kvs s h; cases kvs with | nil => simp | cons kv kvs => simp at h
    | cons t tags ih =>
      intro kvs s h
      cases kvs with
      | nil => simp at h
      | cons kv kvs =>
        simp only [List.map_cons, List.cons.injEq] at h
        rw [List.foldl_cons]
        simp only [tagStep, h.1, Bool.false_eq_true, if_false]
        rw [ih kvs _ h.2]
        apply String.toList_injective
        simp only [String.toList_intercalate, List.map_cons]
        cases kvs <;> simp [List.intercalate, List.intersperse]
  cases tags with
  | nil => cases kvs with | nil => rfl | cons kv kvs => simp at h
  | cons t tags =>
    cases kvs with
    | nil => simp at h
    | cons kv kvs =>
      simp only [List.map_cons, List.cons.injEq] at h
      unfold tagField tagText
      rw [List.foldl_cons]
      have hstep : tagStep tag ("[", true) t = ("[" ++ "'" ++ kv.1 ++ "':'" ++ kv.2 ++ "'", false) := by simp [tagStep, h.1]
      rw [hstep]
      simp only [List.isEmpty_cons, Bool.false_eq_true, if_false]
      rw [key tags kvs _ h.2]
      have htext : String.intercalate "," (("[" ++ "'" ++ kv.1 ++ "':'" ++ kv.2 ++ "'") :: kvs.map (fun kv => "'" ++ kv.1 ++ "':'" ++ kv.2 ++ "'")) ++ "]" =
          tagsText (kv :: kvs) := by
        unfold tagsText
        simp only [reduceCtorEq, if_false]
        apply String.toList_injective
        simp only [String.toList_append, String.toList_intercalate, List.map_cons]
        cases kvs <;> simp [List.intercalate, List.intersperse]
      rw [htext, if_neg]
      unfold tagsText
      rw [← String.length_toList]
      simp only [reduceCtorEq, if_false, String.toList_append, String.toList_intercalate, List.map_cons]
      cases kvs <;> simp [List.intercalate, List.intersperse] <;> omega

/-- **C43**, nodes: for all nodes with known tags. -/
theorem nodes_good (tag : Nat → Option (String × String)) (nodes : List (String × String × List Nat × List (String × String)))
    (htags : ∀ x ∈ nodes, x.2.2.1.map tag = x.2.2.2.map some) :
    GoodFile ["id", "geometry", "tags"]
      (fun x name => [("id", x.1), ("geometry", x.2.1), ("tags", tagsText x.2.2.2)].lookup name) nodes
      (saveRows nodeHeader (nodes.map (fun x => nodeRow tag x.1 x.2.1 x.2.2.1))) := by
  rw [saveRows_eq]
  cases nodes with
  | nil => left; simp
  | cons x xs =>
    right
    refine ⟨by simp, (x :: xs).map (fun x => nodeRow tag x.1 x.2.1 x.2.2.1), by simp [nodeHeader], ?_⟩
    rw [List.forall₂_map_right_iff, List.forall₂_same]
    intro y hy
    rw [nodeRow, tagField_eq tag _ _ (htags y hy)]
    exact .cons rfl (.cons rfl (.cons rfl .nil))

/-- **C43**, edges: for all edges with known tags; `NaN` without a length. -/
theorem edges_good (num : V → String) (tag : Nat → Option (String × String))
    (edges : List (String × String × Option V × List Nat × List (String × String)))
    (htags : ∀ x ∈ edges, x.2.2.2.1.map tag = x.2.2.2.2.map some) :
    GoodFile ["id", "geometry", "length", "tags"]
      (fun x name => [("id", x.1), ("geometry", x.2.1), ("length", (x.2.2.1.map num).getD "NaN"), ("tags", tagsText x.2.2.2.2)].lookup name) edges
      (saveRows edgeHeader (edges.map (fun x => edgeRow num tag x.1 x.2.1 x.2.2.1 x.2.2.2.1))) := by
  rw [saveRows_eq]
  cases edges with
  | nil => left; simp
  | cons x xs =>
    right
    refine ⟨by simp, (x :: xs).map (fun x => edgeRow num tag x.1 x.2.1 x.2.2.1 x.2.2.2.1), by simp [edgeHeader], ?_⟩
    rw [List.forall₂_map_right_iff, List.forall₂_same]
    intro y hy
    unfold edgeRow
    rw [tagField_eq tag _ _ (htags y hy)]
    obtain ⟨i, w, l, ts, kv⟩ := y
    refine .cons rfl (.cons rfl (.cons ?_ (.cons rfl .nil)))
    cases l <;> rfl

example : ∃ tag : Nat → Option (String × String), [3, 4].map tag = [("highway", "primary"), ("lanes", "2")].map some ∧
    nodeRow tag "1" "POINT(0 0)" [3, 4] = ["1", "POINT(0 0)", "['highway':'primary','lanes':'2']"] := by
  refine ⟨fun n => if n = 3 then some ("highway", "primary") else some ("lanes", "2"), by simp, ?_⟩
  rw [nodeRow, tagField_eq _ _ [("highway", "primary"), ("lanes", "2")] (by simp)]
  decide +kernel

/-- What stands for each column of a route. -/
def routeValue (num : V → String) (r : RouteData V) (name : String) : Option String :=
  [("geometry", some r.wkt), ("invalid", some (if r.invalid then "1" else "0")), ("connected", some (if r.connected then "1" else "0")),
    ("length", r.length.map num), ("azimuth", r.azimuth.map num), ("directions", r.directions.map (fun d => num d.1)),
    ("absolute-directions", r.directions.map (fun d => num d.2))].lookup name |>.join

/-- **C43**, routes: the row lines up exactly if the route has length, azimuth and directions.  Missing: the other routes (`route_fails`). -/
theorem route_partial (num : V → String) (r : RouteData V) :
    LinedUp (routeValue num r) routeHeader (routeRow num r) ↔ r.length.isSome ∧ r.azimuth.isSome ∧ r.directions.isSome := by
  constructor
  · intro h
    have hl := h.length_eq
    unfold routeRow routeHeader at hl
    cases h1 : r.length <;> cases h2 : r.azimuth <;> cases h3 : r.directions <;> simp [h1, h2, h3] at hl ⊢
  · rintro ⟨h1, h2, h3⟩
    obtain ⟨l, hl⟩ := Option.isSome_iff_exists.1 h1
    obtain ⟨a, ha⟩ := Option.isSome_iff_exists.1 h2
    obtain ⟨d, hd⟩ := Option.isSome_iff_exists.1 h3
    unfold routeRow routeHeader routeValue
    rw [hl, ha, hd]
    exact .cons rfl (.cons rfl (.cons rfl (.cons rfl (.cons rfl (.cons rfl (.cons rfl .nil))))))

/-- **C43 fails**, routes: a straight route with two points has no directions; its row has five fields for seven columns. -/
theorem route_fails : ∃ r : RouteData Nat, r.length = some 3 ∧ r.directions = none ∧ ¬ LinedUp (routeValue toString r) routeHeader (routeRow toString r) :=
  ⟨⟨"LINESTRING(0 0,0 3)", false, true, some 3, some 0, none⟩, rfl, rfl, fun h => by have := h.length_eq; simp [routeRow, routeHeader] at this⟩

example : ∃ r : RouteData Nat, r.length.isSome ∧ r.azimuth.isSome ∧ r.directions.isSome := ⟨⟨"", false, true, some 3, some 0, some (1, 1)⟩, rfl, rfl, rfl⟩

/-- **C43 fails**, tracks: every row has two fields for three columns. -/
theorem track_fails (value : String → Option String) (id wkt : String) : ¬ LinedUp value trackHeader (trackRow id wkt) := fun h => by
  have := h.length_eq
  simp [trackRow, trackHeader] at this

/-- **C43**, tracks with several lines and measurements. -/
theorem tracks_good (id wkt timestamp : String) :
    LinedUp (fun n => [("id", id), ("geometry", wkt)].lookup n) multiTrackHeader (multiTrackRow id wkt) ∧
    LinedUp (fun n => [("timestamp", timestamp), ("geometry", wkt)].lookup n) measurementHeader (measurementRow timestamp wkt) :=
  ⟨.cons rfl (.cons rfl .nil), .cons rfl (.cons rfl .nil)⟩

/-- **C43**, candidates of one track: each row of the file of all candidates lines up, one row for each edge of each candidate in order; the
header stands first unless there are no candidates. -/
theorem saved_candidates_good (cs : List (List CandidateEdge)) :
    (cs = [] ∧ saveCandidates cs = []) ∨ (cs ≠ [] ∧ ∃ body, saveCandidates cs = ("id" :: candidateHeader) :: body ∧
      List.Forall₂ (fun (x : Nat × Nat × CandidateEdge) r => LinedUp (fun n => [("id", toString x.1), ("index", toString x.2.1),
        ("projection", x.2.2.segment), ("distance", x.2.2.distance), ("projection_point", x.2.2.point), ("from", x.2.2.from_),
        ("to", x.2.2.to_)].lookup n) ["id", "index", "projection", "distance", "projection_point", "from", "to"] r)
      (cs.zipIdx.flatMap (fun c => c.1.zipIdx.map (fun e => (c.2, e.2, e.1)))) body) := by
  have key : ∀ (cs : List (List CandidateEdge × Nat)) (s : List (List String)),
      (cs.foldl (fun (s : List (List String) × Bool) c =>
        ((if s.2 then s.1 ++ ["id" :: candidateHeader] else s.1) ++ (candidateRows c.1).map (fun r => toString c.2 :: r), false)) (s, false)).1 =
      s ++ cs.flatMap (fun c => (candidateRows c.1).map (fun r => toString c.2 :: r)) := by
    intro cs
    induction cs with
    | nil => intro s; simp
    | cons c cs ih => intro s; rw [List.foldl_cons]; simp only [Bool.false_eq_true, if_false]; rw [ih]; simp
  cases cs with
  | nil => left; exact ⟨rfl, rfl⟩
  | cons c cs =>
    right
    refine ⟨by simp, ((c :: cs).zipIdx.flatMap (fun c => (candidateRows c.1).map (fun r => toString c.2 :: r))), ?_, ?_⟩
    · unfold saveCandidates
      rw [List.zipIdx_cons, List.foldl_cons]
      simp only [if_true]
      rw [key]
      simp
    · generalize (c :: cs).zipIdx = l
      induction l with
      | nil => exact .nil
      | cons x l ih =>
        rw [List.flatMap_cons, List.flatMap_cons]
        refine List.rel_append ?_ ih
        unfold candidateRows
        rw [List.map_map, List.forall₂_map_right_iff, List.forall₂_map_left_iff, List.forall₂_same]
        intro e _
        exact .cons rfl (.cons rfl (.cons rfl (.cons rfl (.cons rfl (.cons rfl (.cons rfl .nil))))))

example : saveCandidates [[⟨"s", "d", "p", "f", "t"⟩], []] = ["id" :: candidateHeader, ["0", "0", "s", "d", "p", "f", "t"]] := by decide +kernel

/-- **C43 fails** for tags that are not known any more: their commas are written, also before the first known tag; a single one leaves
the field empty. -/
theorem unknown_tag_fails : ∃ tag : Nat → Option (String × String), tag 3 = none ∧ tag 4 = some ("lanes", "2") ∧
    tagField tag [3, 4] = "[,'lanes':'2']" ∧ tagField tag [4, 3, 4] = "['lanes':'2',,'lanes':'2']" ∧ tagField tag [3] = "" ∧
    tagsText [("lanes", "2")] = "['lanes':'2']" :=
  ⟨fun n => if n = 3 then none else some ("lanes", "2"), rfl, rfl, by decide +kernel, by decide +kernel, by decide +kernel, by decide +kernel⟩

end MM.Rows
