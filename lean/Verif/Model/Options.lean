import Verif.Model.Outcome
import Mathlib.Order.Defs.LinearOrder

/-!
# Correction of options

Model of the functions `correct` in `src/app/src/app/options.cpp` and of `src/app/src/app/settings.cpp`.  Options are read by
boost::program_options, the model starts with the values it stores.
-/

set_option autoImplicit false

namespace MM.Options

/-- A value with the mark `not defaulted()` (options.cpp 175-178): was it given by the user? -/
structure Opt (α : Type) where
  value : α
  given : Bool
deriving DecidableEq

/-- options.hpp 166-170 `memory_data` (options.cpp 827-846). -/
structure Memory where
  mapping : Opt Bool
  graph : Opt Bool
  indices : Opt Bool
  tags : Opt Bool

/-- options.hpp 172-176 `prepare_memory_data` (options.cpp 857-879). -/
structure PrepareMemory extends Memory where
  preparation : Opt Bool
  graphImport : Opt Bool
  tagsImport : Opt Bool
  indexBuild : Opt Bool
  osmVertices : Opt Bool
  osmTags : Opt Bool

/-- options.cpp 180-190, 211-227: the value of a special option after the one of the general option has been taken over. -/
def takeOver (general special : Opt Bool) : Bool := if general.given && !special.given then general.value else special.value

/-- Values after correction (options.hpp 166-170). -/
structure Mapped where
  graph : Bool
  indices : Bool
  tags : Bool
deriving DecidableEq

/-- options.cpp 174-191 `memory_data::correct`. -/
def memory (m : Memory) : Mapped := ⟨takeOver m.mapping m.graph, takeOver m.mapping m.indices, takeOver m.mapping m.tags⟩

/-- Values after correction (options.hpp 172-176). -/
structure PrepareMapped where
  final : Mapped
  graphImport : Bool
  tagsImport : Bool
  indexBuild : Bool
  osmVertices : Bool
  osmTags : Bool
deriving DecidableEq

/-- options.cpp 204-209: `mmap_preparation` and `is_mmap_preparation_manually`. -/
def preparation (m : PrepareMemory) : Opt Bool :=
  if m.mapping.given && !m.preparation.given then ⟨m.mapping.value, true⟩ else m.preparation

/-- options.cpp 193-228 `prepare_memory_data::correct`. -/
def prepareMemory (m : PrepareMemory) : PrepareMapped :=
  ⟨memory m.toMemory, takeOver (preparation m) m.graphImport, takeOver (preparation m) m.tagsImport,
    takeOver (preparation m) m.indexBuild, takeOver (preparation m) m.osmVertices, takeOver (preparation m) m.osmTags⟩

/-- options.cpp 137-157 `files_data::correct`: are the three files named and different? -/
def filesOk (graph index tags : String) : Bool :=
  graph ≠ "" && index ≠ "" && tags ≠ "" && (graph ≠ index && graph ≠ tags && index ≠ tags)

/-- options.cpp 326-336 `prepare_data::correct`: `prepare_files_data` (options.hpp 146-149) has no `correct` of its own, the
temporary files are not looked at. -/
def prepareFilesOk (graph index tags : String) (_temporary : List String) : Bool := filesOk graph index tags

/-- options.cpp 237-248: the loop over the extensions of the files; `first` is
`_file_extension`, `last` is `file_extension`. -/
def extensions : List String → String → String → Outcome String
  | [], _, last => .ok last
  | e :: es, first, _ =>
    if e ≠ (if first = "" then e else first) then .throws else extensions es (if first = "" then e else first) e

/-- options.cpp 250-252: the extension without dot. -/
def dropDot (s : String) : String := match s.toList with
  | '.' :: cs => String.ofList cs
  | cs => String.ofList cs

/-- options.hpp 49-52: the types of files. -/
def types : List String := ["csv", "gpx", "list", "seattle"]

/-- options.cpp 230-265 `tracks_data::correct`.  `type` is the value of the option for the type, `exts` are the extensions of the
files; `lower` is `boost::to_lower`.  `known`: is the option for the type one of those looked up in line 236? -/
def fileType (lower : String → String) (readLine known : Bool) (type : Option String) (exts : List String) : Outcome (Option String) :=
  if readLine then .ok type
  else if exts = [] then .throws
  else
    ((if known && type.isSome then .ok (type.getD "") else (extensions exts "" "").map dropDot).bind fun t =>
      if lower t ∈ types then .ok (some (lower t)) else .throws)

/-- Match mode (options.cpp 897-905, 1301): the option is called `tracks-file-type`, which is looked up. -/
def matchType (lower : String → String) (readLine : Bool) (type : Option String) (exts : List String) : Outcome (Option String) :=
  fileType lower readLine true type exts

/-- Compare mode (options.cpp 897-905, 1219, 1335): the options are called `match-tracks-file-type` and
`compare-tracks-file-type`, line 236 looks up `match-file-type` and `compare-file-type`, which do not exist. -/
def compareType (lower : String → String) (readLine : Bool) (type : Option String) (exts : List String) : Outcome (Option String) :=
  fileType lower readLine false type exts

/-- options.cpp 273-278 of `matching_data::correct`: turns within edges. -/
def withinEdgeTurns (turns : Opt Bool) (nearby siblings reverse : Bool) : Bool :=
  if !nearby && !siblings && !reverse && !turns.given then true else turns.value

/-- options.cpp 280-285: lower and upper limit of the radius. -/
def limits {R : Type} [LinearOrder R] (radius lower upper : R) : R × R :=
  (if radius < lower then radius else lower, if radius > upper then radius else upper)

/-- settings.hpp 28-33 `CANDIDATE_SEARCH`. -/
inductive Search where
  | circle | nearest | combined | next
deriving DecidableEq

/-- options.cpp 268-271 and settings.cpp 79-87: the search with this name. -/
def search (name : String) : Outcome Search :=
  if name ≠ "circle" ∧ name ≠ "nearest" ∧ name ≠ "combined" ∧ name ≠ "next" then .throws
  else if name = "circle" then .ok .circle
  else if name = "nearest" then .ok .nearest
  else if name = "combined" then .ok .combined
  else .ok .next

/-- options.cpp 286-288: the number of edges to be searched for. -/
def kNearest (name : String) (k : Nat) : Nat := if name = "next" then 1 else k

/-- settings.hpp 35-40 `MODEL`. -/
inductive Model where
  | policyIteration | valueIteration | qLearning | viterbi
deriving DecidableEq

/-- options.cpp 310-319 `model_data::correct` and settings.cpp 89-97: model and size of states. -/
def model (name : String) (size : Nat) : Outcome (Model × Nat) :=
  if name ≠ "policy-iteration" ∧ name ≠ "value-iteration" ∧ name ≠ "q-learning" ∧ name ≠ "viterbi" then .throws
  else if size < 2 ∨ 3 < size then .throws
  else if name = "policy-iteration" then .ok (.policyIteration, size)
  else if name = "value-iteration" then .ok (.valueIteration, size)
  else if name = "q-learning" then .ok (.qLearning, size)
  else .ok (.viterbi, size)

/-- options.cpp 159-172 `prepare_process_data::correct`: removal of duplicate nodes. -/
def removeDuplicateNodes (format : String) (remove : Opt Bool) : Bool :=
  if format = "seattle" then (if remove.given then remove.value else true) else remove.value

/-- The options for times of CSV files (options.hpp 197-201 `csv_tracks_data`) and the settings for them (csv_settings.hpp
27-34). -/
structure Times where
  noParse : Bool
  format : String
  aggregator : String
  columns : List String
deriving DecidableEq

/-- csv_settings.hpp 27-34: default settings. -/
def defaultTimes : Times := ⟨false, "%FT%T%Oz", "_", ["time"]⟩

/-- settings.cpp 147-156 `_csv_tracks_settings`, used for tracks (match.hpp 92). -/
def trackTimes (o : Times) : Times := { defaultTimes with noParse := o.noParse, columns := o.columns, aggregator := o.aggregator, format := o.format }

/-- settings.cpp 126-145 `_csv_settings`, used for matches and ground truths (compare.cpp 56, 79). -/
def compareTimes (_o : Times) : Times := { defaultTimes with noParse := true }

end MM.Options
