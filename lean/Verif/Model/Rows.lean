import Verif.Model.Outcome

/-!
# Result files (io/results/**, header and row of geometry/** and matching/**)

A written file is the list of its rows, a row the list of its fields; quoting is left to the csv library.  `num` is `std::to_string` of a
floating-point number.
-/

set_option autoImplicit false

namespace MM.Rows

variable {V S : Type}

/-! ### csv_results_exporter.hpp -/

/-- csv_results_exporter.hpp 39 `boost::split` with `is_any_of(",")`: the parts between commas. -/
def splitComma : List Char → List (List Char)
  | [] => [[]]
  | c :: cs =>
    if c = ',' then [] :: splitComma cs
    else
      match splitComma cs with
      | [] => [[c]]
      | w :: ws => (c :: w) :: ws

/-- csv_results_exporter.hpp 37-40: the names of the columns. -/
def columnNames (columns : String) : List String := (splitComma columns.toList).map String.ofList

/-- csv_results_exporter.hpp 49-50: whether the header is written; and the file. -/
structure File where
  headerWritten : Bool
  rows : List (List String)
deriving DecidableEq

/-- csv_results_exporter.hpp 58-66 `write_result`, 52-56 `write_header`; `active` is `is_active()`. -/
def writeResult (active : Bool) (names : List String) (f : File) (row : List String) : File :=
  { headerWritten := true
    rows := (if f.headerWritten = false ∧ active = true then f.rows ++ [names] else f.rows) ++ (if active then [row] else []) }

/-! ### csv_match_exporter.hpp -/

/-- The parts of a match result used (csv_match_exporter.hpp 47-108); a length is `none` without `has_length()`. -/
structure MatchResult (V : Type) where
  id : String
  trackWkt : String
  preparedWkt : String
  matchWkt : String
  trackLength : Option V
  preparedLength : Option V
  matchLength : Option V
  edgeIds : List String
  aborted : Bool
  duration : V

/-- csv_match_exporter.hpp 27-31. -/
structure MatchTask (V : Type) where
  id : String
  track : String
  prepared : String
  match_ : String
  edgeIds : String
  aborted : Bool
  duration : V
  trackLength : V
  preparedLength : V
  matchLength : V

/-- csv_match_exporter.hpp 116-128. -/
inductive MatchCol
  | id | aborted | duration | track | prepared | match_ | trackLength | preparedLength | matchLength | edgeIds | unknown
deriving DecidableEq

/-- csv_match_exporter.hpp 132-159 `_parse_columns`. -/
def matchCol (s : String) : MatchCol :=
  if s = "id" then .id
  else if s = "aborted" then .aborted
  else if s = "duration" then .duration
  else if s = "track" then .track
  else if s = "prepared" then .prepared
  else if s = "match" then .match_
  else if s = "track_length" then .trackLength
  else if s = "prepared_length" then .preparedLength
  else if s = "match_length" then .matchLength
  else if s = "edge_ids" then .edgeIds
  else .unknown

/-- csv_match_exporter.hpp 84-92: identifiers with commas between. -/
def joinIds (ids : List String) : String :=
  (ids.foldl (fun (s : String × Bool) i => ((if s.2 then s.1 else s.1 ++ ",") ++ i, false)) ("", true)).1

/-- csv_match_exporter.hpp 55-98: what one column adds to the task. -/
def fillMatch (r : MatchResult V) (t : MatchTask V) : MatchCol → MatchTask V
  | .track => { t with track := r.trackWkt }
  | .prepared => { t with prepared := r.preparedWkt }
  | .match_ => { t with match_ := r.matchWkt }
  | .trackLength => match r.trackLength with | some l => { t with trackLength := l } | none => t
  | .preparedLength => match r.preparedLength with | some l => { t with preparedLength := l } | none => t
  | .matchLength => match r.matchLength with | some l => { t with matchLength := l } | none => t
  | .edgeIds => if r.edgeIds.isEmpty then t else { t with edgeIds := joinIds r.edgeIds }
  | _ => t

/-- csv_match_exporter.hpp 47-108 `parse_result`. -/
def matchTask (zero : V) (active : Bool) (cols : List MatchCol) (r : MatchResult V) : MatchTask V :=
  let t : MatchTask V := ⟨r.id, "", "", "", "", r.aborted, r.duration, zero, zero, zero⟩
  if active then cols.foldl (fillMatch r) t else t

/-- csv_match_exporter.hpp 165-197: the field a column adds to the row. -/
def matchField (num : V → String) (t : MatchTask V) : MatchCol → List String
  | .id => [t.id]
  | .aborted => [if t.aborted then "yes" else "no"]
  | .duration => [num t.duration]
  | .track => [t.track]
  | .prepared => [t.prepared]
  | .match_ => [t.match_]
  | .trackLength => [num t.trackLength]
  | .preparedLength => [num t.preparedLength]
  | .matchLength => [num t.matchLength]
  | .edgeIds => [t.edgeIds]
  | .unknown => []

/-- csv_match_exporter.hpp 161-201 `parse_task`. -/
def matchRow (num : V → String) (cols : List MatchCol) (t : MatchTask V) : List String := cols.flatMap (matchField num t)

/-- The file after all results (csv_match_exporter.hpp 47-205, executed one after another). -/
def matchFile (num : V → String) (zero : V) (active : Bool) (columns : String) (rs : List (MatchResult V)) : File :=
  rs.foldl (fun f r => writeResult active (columnNames columns) f
    (matchRow num ((columnNames columns).map matchCol) (matchTask zero active ((columnNames columns).map matchCol) r))) ⟨false, []⟩

/-! ### csv_compare_exporter.hpp -/

/-- The parts of a comparison used (csv_compare_exporter.hpp 46-119); `S` are segments. -/
structure CompareResult (V S : Type) where
  id : String
  matchWkt : String
  truthWkt : String
  corrects : List S
  adds : List S
  misses : List S
  matchLength : Option V
  truthLength : Option V
  duration : V
  correctFraction : V
  errorFraction : V
  correct : V
  errorAdded : V
  errorMissed : V

/-- csv_compare_exporter.hpp 26-30. -/
structure CompareTask (V : Type) where
  id : String
  match_ : String
  truth : String
  corrects : String
  adds : String
  misses : String
  duration : V
  matchLength : V
  truthLength : V
  correctFraction : V
  errorFraction : V
  correct : V
  errorAdded : V
  errorMissed : V

/-- csv_compare_exporter.hpp 124-140. -/
inductive CompareCol
  | id | duration | match_ | truth | matchLength | truthLength | correctFraction | errorFraction | correct | errorAdded | errorMissed
  | corrects | adds | misses | unknown
deriving DecidableEq

/-- csv_compare_exporter.hpp 144-179 `_parse_columns`. -/
def compareCol (s : String) : CompareCol :=
  if s = "id" then .id
  else if s = "duration" then .duration
  else if s = "match" then .match_
  else if s = "ground_truth" then .truth
  else if s = "match_length" then .matchLength
  else if s = "ground_truth_length" then .truthLength
  else if s = "correct_fraction" then .correctFraction
  else if s = "error_fraction" then .errorFraction
  else if s = "correct" then .correct
  else if s = "error_added" then .errorAdded
  else if s = "error_missed" then .errorMissed
  else if s = "corrects" then .corrects
  else if s = "error_adds" then .adds
  else if s = "error_misses" then .misses
  else .unknown

/-- The variables of csv_compare_exporter.hpp 53-55: the task and the segments collected. -/
structure CompareFill (V S : Type) where
  task : CompareTask V
  corrects : List S
  adds : List S
  misses : List S

/-- csv_compare_exporter.hpp 58-103: what one column adds to the task; `wkt` is `to_wkt` of segments as lines.  The collected segments are not
cleared (79-98). -/
def fillCompare (wkt : List S → String) (r : CompareResult V S) (t : CompareFill V S) : CompareCol → CompareFill V S
  | .match_ => { t with task := { t.task with match_ := r.matchWkt } }
  | .truth => { t with task := { t.task with truth := r.truthWkt } }
  | .matchLength => match r.matchLength with | some l => { t with task := { t.task with matchLength := l } } | none => t
  | .truthLength => match r.truthLength with | some l => { t with task := { t.task with truthLength := l } } | none => t
  | .corrects => { t with corrects := t.corrects ++ r.corrects, task := { t.task with corrects := wkt (t.corrects ++ r.corrects) } }
  | .adds => { t with adds := t.adds ++ r.adds, task := { t.task with adds := wkt (t.adds ++ r.adds) } }
  | .misses => { t with misses := t.misses ++ r.misses, task := { t.task with misses := wkt (t.misses ++ r.misses) } }
  | _ => t

/-- csv_compare_exporter.hpp 46-119 `parse_result`. -/
def compareTask (wkt : List S → String) (zero : V) (active : Bool) (cols : List CompareCol) (r : CompareResult V S) : CompareTask V :=
  let t : CompareTask V := ⟨r.id, "", "", "", "", "", r.duration, zero, zero, r.correctFraction, r.errorFraction, r.correct,
    r.errorAdded, r.errorMissed⟩
  if active then (cols.foldl (fillCompare wkt r) ⟨t, [], [], []⟩).task else t

/-- csv_compare_exporter.hpp 184-230: the field a column adds to the row. -/
def compareField (num : V → String) (t : CompareTask V) : CompareCol → List String
  | .id => [t.id]
  | .duration => [num t.duration]
  | .match_ => [t.match_]
  | .truth => [t.truth]
  | .matchLength => [num t.matchLength]
  | .truthLength => [num t.truthLength]
  | .correctFraction => [num t.correctFraction]
  | .errorFraction => [num t.errorFraction]
  | .correct => [num t.correct]
  | .errorAdded => [num t.errorAdded]
  | .errorMissed => [num t.errorMissed]
  | .corrects => [t.corrects]
  | .adds => [t.adds]
  | .misses => [t.misses]
  | .unknown => []

/-- The file after all comparisons (csv_compare_exporter.hpp 46-238). -/
def compareFile (wkt : List S → String) (num : V → String) (zero : V) (active : Bool) (columns : String) (rs : List (CompareResult V S)) : File :=
  rs.foldl (fun f r => writeResult active (columnNames columns) f
    (((columnNames columns).map compareCol).flatMap
      (compareField num (compareTask wkt zero active ((columnNames columns).map compareCol) r)))) ⟨false, []⟩

/-! ### csv_candidates_exporter.hpp -/

/-- A candidate edge (csv_candidates_exporter.hpp 91-119). -/
structure CandEdge (V : Type) where
  projection : String
  from_ : String
  to_ : String
  distance : V
  edgeId : Nat

/-- A match result: for every part its candidates with their edges, and its policy (csv_candidates_exporter.hpp 75-84). -/
structure CandResult (V : Type) where
  id : String
  parts : List (List (List (CandEdge V)))
  policies : List (List (Nat × Nat))

/-- csv_candidates_exporter.hpp 31-37. -/
structure CandTask (V : Type) where
  id : String
  projection : String
  from_ : String
  to_ : String
  part : Nat
  set_ : Nat
  cand : Nat
  distance : V
  edgeId : Nat
  isResult : Bool

/-- csv_candidates_exporter.hpp 144-156. -/
inductive CandCol
  | id | part | set_ | cand | projection | distance | from_ | to_ | edgeId | isResult | unknown
deriving DecidableEq

/-- csv_candidates_exporter.hpp 160-187 `_parse_columns`. -/
def candCol (s : String) : CandCol :=
  if s = "id" then .id
  else if s = "part_index" then .part
  else if s = "set_index" then .set_
  else if s = "candidate_index" then .cand
  else if s = "projection" then .projection
  else if s = "distance" then .distance
  else if s = "from" then .from_
  else if s = "to" then .to_
  else if s = "edge_id" then .edgeId
  else if s = "is_result" then .isResult
  else .unknown

/-- csv_candidates_exporter.hpp 97-121: what one column adds; `policy` as the map of sets of 81-84. -/
def fillCand (e : CandEdge V) (policy : List (Nat × Nat)) (t : CandTask V) : CandCol → CandTask V
  | .projection => { t with projection := e.projection }
  | .from_ => { t with from_ := e.from_ }
  | .to_ => { t with to_ := e.to_ }
  | .isResult => { t with isResult := policy.contains (t.set_, t.cand) }
  | _ => t

/-- csv_candidates_exporter.hpp 91-130: the record of one edge. -/
def candTask (cols : List CandCol) (id : String) (policy : List (Nat × Nat)) (i j k : Nat) (e : CandEdge V) : CandTask V :=
  cols.foldl (fillCand e policy) ⟨id, "", "", "", i, j, k, e.distance, e.edgeId, false⟩

/-- csv_candidates_exporter.hpp 88-132: the records of one part. -/
def candPart (cols : List CandCol) (id : String) (policy : List (Nat × Nat)) (i : Nat) (part : List (List (CandEdge V))) : List (CandTask V) :=
  part.zipIdx.flatMap (fun c => c.1.zipIdx.map (fun e => candTask cols id policy i c.2 e.2 e.1))

/-- csv_candidates_exporter.hpp 75-136: all parts from number `i` on; `policies.at(i)` throws. -/
def candParts (cols : List CandCol) (r : CandResult V) : Nat → List (List (List (CandEdge V))) → Outcome (List (CandTask V))
  | _, [] => .ok []
  | i, p :: ps =>
    match r.policies[i]? with
    | some policy => (candParts cols r (i + 1) ps).map (fun rest => candPart cols r.id policy i p ++ rest)
    | none => .throws

/-- csv_candidates_exporter.hpp 60-140 `parse_result`. -/
def candTasks (active : Bool) (cols : List CandCol) (r : CandResult V) : Outcome (List (CandTask V)) :=
  if active then candParts cols r 0 r.parts else .ok []

/-- csv_candidates_exporter.hpp 199-234: the field a column adds to the row; `std::to_string` of a truth value is a digit. -/
def candField (num : V → String) (t : CandTask V) : CandCol → List String
  | .id => [t.id]
  | .part => [toString t.part]
  | .set_ => [toString t.set_]
  | .cand => [toString t.cand]
  | .projection => [t.projection]
  | .distance => [num t.distance]
  | .from_ => [t.from_]
  | .to_ => [t.to_]
  | .edgeId => [toString t.edgeId]
  | .isResult => [if t.isResult then "1" else "0"]
  | .unknown => []

/-- The file after the records of all results (csv_candidates_exporter.hpp 193-255). -/
def candFile (num : V → String) (active : Bool) (columns : String) (ts : List (List (CandTask V))) : File :=
  (ts.flatten.map (fun t => ((columnNames columns).map candCol).flatMap (candField num t))).foldl
    (writeResult active (columnNames columns)) ⟨false, []⟩

/-! ### Elements with a header of their own -/

/-- One tag of the text of the tags (geometry/network/node.hpp 97-108, edge.hpp 104-115); `tag` is `none` where the helper throws
`invalid_argument`. -/
def tagStep (tag : Nat → Option (String × String)) (s : String × Bool) (t : Nat) : String × Bool :=
  match tag t with
  | some kv => ((if s.2 then s.1 else s.1 ++ ",") ++ "'" ++ kv.1 ++ "':'" ++ kv.2 ++ "'", false)
  | none => (if s.2 then s.1 else s.1 ++ ",", false)

/-- node.hpp 95-109, edge.hpp 102-116: the text without the closing bracket. -/
def tagText (tag : Nat → Option (String × String)) (tags : List Nat) : String := (tags.foldl (tagStep tag) ("[", true)).1

/-- node.hpp 93-114, edge.hpp 99-120. -/
def tagField (tag : Nat → Option (String × String)) (tags : List Nat) : String :=
  let s := if tags.isEmpty then "" else tagText tag tags ++ "]"
  if s.length ≤ 2 then "" else s

/-- geometry/network/node.hpp 84-86 `header`. -/
def nodeHeader : List String := ["id", "geometry", "tags"]

/-- node.hpp 88-116 `row`. -/
def nodeRow (tag : Nat → Option (String × String)) (id wkt : String) (tags : List Nat) : List String := [id, wkt, tagField tag tags]

/-- geometry/network/edge.hpp 81-83 `header`. -/
def edgeHeader : List String := ["id", "geometry", "length", "tags"]

/-- edge.hpp 85-122 `row`; the length is `none` without `has_length()` or for a plain line. -/
def edgeRow (num : V → String) (tag : Nat → Option (String × String)) (id wkt : String) (length : Option V) (tags : List Nat) : List String :=
  [id, wkt, match length with | some l => num l | none => "NaN", tagField tag tags]

/-- geometry/network/network_base.hpp 113-139 `save_nodes_csv`, `save_edges_csv`: the header before the first row. -/
def saveRows (header : List String) (rows : List (List String)) : List (List String) :=
  (rows.foldl (fun (s : List (List String) × Bool) r => ((if s.2 then s.1 ++ [header] else s.1) ++ [r], false)) ([], true)).1

/-- geometry/network/route/route.hpp 910-912 `header`. -/
def routeHeader : List String := ["geometry", "invalid", "connected", "length", "azimuth", "directions", "absolute-directions"]

/-- What the row of a route is made of (route.hpp 914-931); directions have both values. -/
structure RouteData (V : Type) where
  wkt : String
  invalid : Bool
  connected : Bool
  length : Option V
  azimuth : Option V
  directions : Option (V × V)

/-- route.hpp 914-931 `row`. -/
def routeRow (num : V → String) (r : RouteData V) : List String :=
  [r.wkt, if r.invalid then "1" else "0", if r.connected then "1" else "0"] ++
    (match r.length with | some l => [num l] | none => []) ++
    (match r.azimuth with | some a => [num a] | none => []) ++
    (match r.directions with | some d => [num d.1, num d.2] | none => [])

/-- geometry/track/track.hpp 76-78 `header`. -/
def trackHeader : List String := ["id", "geometry", "measurements"]

/-- track.hpp 80-86 `row`. -/
def trackRow (id wkt : String) : List String := [id, wkt]

/-- geometry/track/multi_track.hpp 112-114 `header`. -/
def multiTrackHeader : List String := ["id", "geometry"]

/-- multi_track.hpp 116-122 `row`. -/
def multiTrackRow (id wkt : String) : List String := [id, wkt]

/-- geometry/track/measurement.hpp 60-62 `header`. -/
def measurementHeader : List String := ["timestamp", "geometry"]

/-- measurement.hpp 64-70 `row`. -/
def measurementRow (timestamp wkt : String) : List String := [timestamp, wkt]

/-- An edge of a candidate (matching/candidate/candidate_edge.hpp 63-73, candidate.hpp 65-81): segment from the point of the track to its
projection, distance, projection, the two parts of the edge. -/
structure CandidateEdge where
  segment : String
  distance : String
  point : String
  from_ : String
  to_ : String

/-- matching/candidate/candidate_edge.hpp 59-61 `header`. -/
def candidateEdgeHeader : List String := ["distance", "projection", "from", "to"]

/-- candidate_edge.hpp 63-73 `row`. -/
def candidateEdgeRow (e : CandidateEdge) : List String := [e.distance, e.point, e.from_, e.to_]

/-- matching/candidate/candidate.hpp 61-63 `header`. -/
def candidateHeader : List String := ["index", "projection", "distance", "projection_point", "from", "to"]

/-- candidate.hpp 65-83 `rows`. -/
def candidateRows (es : List CandidateEdge) : List (List String) :=
  es.zipIdx.map (fun e => [toString e.2, e.1.segment] ++ candidateEdgeRow e.1)

/-- matching/algorithm/write.hpp 26-53 `save_candidates`; the header stands before the first candidate, also if it has no rows. -/
def saveCandidates (cs : List (List CandidateEdge)) : List (List String) :=
  (cs.zipIdx.foldl (fun (s : List (List String) × Bool) c =>
    ((if s.2 then s.1 ++ ["id" :: candidateHeader] else s.1) ++ (candidateRows c.1).map (fun r => toString c.2 :: r), false)) ([], true)).1

end MM.Rows
