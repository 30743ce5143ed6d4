import Verif.Model.Outcome
import Mathlib.Logic.Function.Basic

/-!
# From the command line to the settings

Model of the tables of options in `src/app/src/app/options.cpp`, of `parse_cli`, `parse_file` and `process` there and of
`src/app/src/app/settings.cpp`.  boost::program_options is modelled as far as it is needed: full names and abbreviations
(`options_description::find_nothrow`, the default style allows guessing), the unknown option, the repeated option, `store` with
its rule that the first source wins, defaults, `notify`.  Values stay strings; what a string means as number or truth value
and the one-letter names on the command line are left out (the letters themselves are in the tables).
-/

set_option autoImplicit false

namespace MM.Settings

/-- options.cpp 381-392: an option without value (`help`, `version`), a switch (`po::bool_switch`), an option with one value and
an option with any number of values (`po::value<std::vector<…>>`). -/
inductive Kind where
  | flag | switch | one | many
deriving DecidableEq

/-- One entry of `add_options()` (options.cpp 380-392): name, one-letter name, kind, `default_value`, `required` and the member
the value is written to, as the names of the member of the data of the mode (options.hpp 248-304) and of the field in it. -/
structure Described where
  name : String
  short : Option Char
  kind : Kind
  dflt : Option (List String)
  required : Bool
  field : String × String
deriving DecidableEq

/-- options.cpp 377-395 `options_all`. -/
def all (mem : String) : List Described :=
  [⟨"help", none, .flag, none, false, ("", "help")⟩,
   ⟨"version", none, .flag, none, false, ("", "version")⟩,
   ⟨"config", some 'c', .one, some ["options.conf"], false, (mem, "config")⟩,
   ⟨"verbose", none, .switch, some ["false"], false, (mem, "verbose")⟩,
   ⟨"quiet", none, .switch, some ["false"], false, (mem, "quiet")⟩]

/-- options.cpp 397-439 `options_global`; `mode` is always `NONE`, as 1250-1257 passes no mode on, so 432-435 are used. -/
def modes (mem : String) : List Described :=
  [⟨"prepare", none, .switch, some ["false"], false, (mem, "prepare")⟩,
   ⟨"match", none, .switch, some ["false"], false, (mem, "match")⟩,
   ⟨"server", none, .switch, some ["false"], false, (mem, "server")⟩,
   ⟨"compare", none, .switch, some ["false"], false, (mem, "compare")⟩]

/-- options.cpp 441-449 `options_input`. -/
def input (mem : String) : List Described :=
  [⟨"input", some 'i', .one, none, true, (mem, "input")⟩]

/-- options.cpp 451-461 `options_output`. -/
def output (file : String) (mem : String) : List Described :=
  [⟨"output", some 'o', .one, none, false, (mem, "output")⟩,
   ⟨"filename", some 'f', .one, some [file], false, (mem, "filename")⟩]

/-- options.cpp 463-496 `options_match_output` without `options_output`; default columns from matcher_output_settings.hpp 23-25. -/
def matchOutput (mem : String) : List Described :=
  [⟨"columns", none, .one, some ["id,aborted,duration,track,prepared,match,track_length,prepared_length,match_length"], false, (mem, "columns")⟩,
   ⟨"export-edges", none, .one, some ["false"], false, (mem, "export_edges")⟩,
   ⟨"join-merges", none, .one, some ["true"], false, (mem, "join_merges")⟩]

/-- options.cpp 498-524 `options_compare_output` without `options_output`; default columns from compare_output_settings.hpp 23-26. -/
def compareOutput (mem : String) : List Described :=
  [⟨"columns", none, .one, some ["id,duration,match,ground_truth,match_length,ground_truth_length,correct_fraction,error_fraction,correct,error_added,error_missed,corrects,error_adds,error_misses"], false, (mem, "columns")⟩]

/-- options.cpp 526-536 `options_console`. -/
def console (mem : String) : List Described :=
  [⟨"read-line", none, .switch, some ["false"], false, (mem, "read_line")⟩,
   ⟨"console", none, .switch, some ["false"], false, (mem, "console")⟩]

/-- options.cpp 538-579 `options_prepare_network`. -/
def prepareNetwork (mem : String) : List Described :=
  [⟨"file", some 'i', .many, none, true, (mem, "files")⟩,
   ⟨"output", some 'o', .one, none, true, (mem, "output")⟩,
   ⟨"format", none, .one, some ["osm"], false, (mem, "format")⟩]

/-- options.cpp 581-629 `options_prepare_osm_import`. -/
def osmImport (mem : String) : List Described :=
  [⟨"osm-profile", none, .one, some ["car"], false, (mem, "profile")⟩,
   ⟨"osm-query", none, .one, some ["true"], false, (mem, "query")⟩,
   ⟨"osm-filter", none, .one, some ["true"], false, (mem, "filter")⟩,
   ⟨"osm-oneway", none, .one, some ["false"], false, (mem, "oneway")⟩,
   ⟨"osm-oneway-reverse", none, .one, some ["false"], false, (mem, "oneway_reverse")⟩]

/-- options.cpp 631-645 `options_srs`. -/
def srs (pre : String) (mem : String) : List Described :=
  [⟨pre ++ "srs", none, .one, some ["4326"], false, (mem, "_srs")⟩,
   ⟨pre ++ "srs-type", none, .one, none, false, (mem, "_srs_type")⟩]

/-- options.cpp 647-664 `options_srs_transform` without `options_srs`. -/
def srsTransform (pre : String) (mem : String) : List Described :=
  [⟨pre ++ "transform-srs", none, .one, none, false, (mem, "_transform_srs")⟩,
   ⟨pre ++ "transform-srs-type", none, .one, none, false, (mem, "_transform_srs_type")⟩]

/-- options.cpp 674-686 `options_files`. -/
def files (mem : String) : List Described :=
  [⟨"graph-file", none, .one, some ["graph.bin"], false, (mem, "graph_file")⟩,
   ⟨"tags-file", none, .one, some ["tags.bin"], false, (mem, "tags_file")⟩,
   ⟨"index-file", none, .one, some ["index.bin"], false, (mem, "index_file")⟩]

/-- options.cpp 688-740 `options_prepare_files`. -/
def prepareFiles (mem : String) : List Described :=
  [⟨"graph-file", none, .one, some ["graph.bin"], false, (mem, "graph_file")⟩,
   ⟨"tags-file", none, .one, some ["tags.bin"], false, (mem, "tags_file")⟩,
   ⟨"index-file", none, .one, some ["index.bin"], false, (mem, "index_file")⟩,
   ⟨"graph-import-file", none, .one, some ["tmp_graph.bin"], false, (mem, "graph_import_file")⟩,
   ⟨"tags-import-file", none, .one, some ["tmp_tags.bin"], false, (mem, "tags_import_file")⟩,
   ⟨"index-build-file", none, .one, some ["tmp_index_build.bin"], false, (mem, "index_build_file")⟩,
   ⟨"osm-vertices-file", none, .one, some ["tmp_osm_vertices.bin"], false, (mem, "osm_vertices_file")⟩,
   ⟨"osm-tags-file", none, .one, some ["tmp_osm_tags.bin"], false, (mem, "osm_tags_file")⟩,
   ⟨"initial-file-size", none, .one, some ["134217728"], false, (mem, "initial_size")⟩]

/-- options.cpp 742-766 `options_export`; default columns from matcher_output_settings.hpp 27-29. -/
def exports (mem : String) : List Described :=
  [⟨"candidates", none, .one, none, false, (mem, "candidates")⟩,
   ⟨"candidates-columns", none, .one, some ["id,part_index,set_index,candidate_index,projection,distance,from,to,edge_id,is_result"], false, (mem, "candidates_columns")⟩]

/-- options.cpp 768-784 `options_prepare_export`. -/
def prepareExports (mem : String) : List Described :=
  [⟨"export-nodes-csv-file", none, .one, none, false, (mem, "export_nodes_csv_file")⟩,
   ⟨"export-edges-csv-file", none, .one, none, false, (mem, "export_edges_csv_file")⟩,
   ⟨"export-network-osm-file", none, .one, none, false, (mem, "export_network_osm_file")⟩]

/-- options.cpp 786-821 `options_prepare_process`. -/
def prepareProcess (mem : String) : List Described :=
  [⟨"simplify", none, .one, some ["all"], false, (mem, "simplify")⟩,
   ⟨"remove-unconnected", none, .one, some ["false"], false, (mem, "remove_unconnected")⟩,
   ⟨"remove-duplicate-nodes", none, .one, some ["false"], false, (mem, "remove_duplicate_nodes")⟩,
   ⟨"remove-duplicate-edges", none, .one, some ["false"], false, (mem, "remove_duplicate_edges")⟩]

/-- options.cpp 823-849 `options_memory`. -/
def memory (mem : String) : List Described :=
  [⟨"memory-mapping", none, .one, some ["true"], false, (mem, "memory_mapping")⟩,
   ⟨"memory-mapped-graph", none, .one, some ["true"], false, (mem, "mmap_graph")⟩,
   ⟨"memory-mapped-indices", none, .one, some ["true"], false, (mem, "mmap_indices")⟩,
   ⟨"memory-mapped-tags", none, .one, some ["true"], false, (mem, "mmap_tags")⟩]

/-- options.cpp 851-884 `options_prepare_memory` without `options_memory`. -/
def prepareMemory (mem : String) : List Described :=
  [⟨"memory-mapped-preparation", none, .one, some ["true"], false, (mem, "mmap_preparation")⟩,
   ⟨"memory-mapped-graph-import", none, .one, some ["true"], false, (mem, "mmap_graph_import")⟩,
   ⟨"memory-mapped-tags-import", none, .one, some ["true"], false, (mem, "mmap_tags_import")⟩,
   ⟨"memory-mapped-index-build", none, .one, some ["true"], false, (mem, "mmap_index_build")⟩,
   ⟨"memory-mapped-osm-vertices", none, .one, some ["true"], false, (mem, "mmap_osm_vertices")⟩,
   ⟨"memory-mapped-osm-tags", none, .one, some ["true"], false, (mem, "mmap_osm_tags")⟩]

/-- options.cpp 886-895 `options_performance`; the default is kept as it is written, it stands for the number of threads of the machine. -/
def performance (mem : String) : List Described :=
  [⟨"threads", none, .one, some ["std::thread::hardware_concurrency()"], false, (mem, "threads")⟩]

/-- options.cpp 897-927 `options_tracks`. -/
def tracks (pre : String) (mem : String) : List Described :=
  [⟨pre ++ "tracks", none, .many, none, false, (mem, "files")⟩,
   ⟨pre ++ "tracks-file-type", none, .one, none, false, (mem, "file_extension")⟩]

/-- options.cpp 929-979 `options_csv`. -/
def csv (pre : String) (mem : String) : List Described :=
  [⟨pre ++ "delimiter", none, .one, some [","], false, (mem, "delimiter")⟩,
   ⟨pre ++ "grouped", none, .one, some ["true"], false, (mem, "grouped")⟩,
   ⟨pre ++ "skip-lines", none, .one, some ["0"], false, (mem, "skip_lines")⟩,
   ⟨pre ++ "no-header", none, .switch, some ["false"], false, (mem, "no_header")⟩,
   ⟨pre ++ "no-id", none, .switch, some ["false"], false, (mem, "no_id")⟩,
   ⟨pre ++ "no-id-whole-file", none, .switch, some ["false"], false, (mem, "no_id_whole_file")⟩,
   ⟨pre ++ "id", none, .many, some ["id"], false, (mem, "ids")⟩,
   ⟨pre ++ "id-aggregator", none, .one, some ["_"], false, (mem, "id_aggregator")⟩,
   ⟨pre ++ "wkt", none, .switch, some ["false"], false, (mem, "wkt")⟩,
   ⟨pre ++ "x", none, .one, some ["x"], false, (mem, "x")⟩,
   ⟨pre ++ "y", none, .one, some ["y"], false, (mem, "y")⟩,
   ⟨pre ++ "geometry", none, .one, some ["geometry"], false, (mem, "geometry")⟩,
   ⟨pre ++ "selector", none, .many, none, false, (mem, "selectors")⟩]

/-- options.cpp 981-1009 `options_csv_tracks` without `options_csv`. -/
def csvTracks (pre : String) (mem : String) : List Described :=
  [⟨pre ++ "time", none, .many, some ["time"], false, (mem, "time")⟩,
   ⟨pre ++ "time-aggregator", none, .one, some ["_"], false, (mem, "time_aggregator")⟩,
   ⟨pre ++ "time-format", none, .one, some ["%FT%T%Oz"], false, (mem, "time_format")⟩,
   ⟨pre ++ "no-parse-time", none, .switch, some ["false"], false, (mem, "no_parse_time")⟩]

/-- options.cpp 1011-1111 `options_matching`. -/
def matching (mem : String) : List Described :=
  [⟨"max-time", none, .one, some ["0.0"], false, (mem, "max_time")⟩,
   ⟨"filter-duplicates", none, .one, some ["true"], false, (mem, "filter_duplicates")⟩,
   ⟨"simplify-track", none, .one, some ["true"], false, (mem, "simplify_track")⟩,
   ⟨"simplify-track-distance-tolerance", none, .one, some ["5.0"], false, (mem, "simplify_track_distance_tolerance")⟩,
   ⟨"median-merge", none, .one, some ["true"], false, (mem, "median_merge")⟩,
   ⟨"median-merge-distance-tolerance", none, .one, some ["10.0"], false, (mem, "median_merge_distance_tolerance")⟩,
   ⟨"adaptive-median-merge", none, .one, some ["true"], false, (mem, "adaptive_median_merge")⟩,
   ⟨"within-edge-turns", none, .one, some ["false"], false, (mem, "within_edge_turns")⟩,
   ⟨"a-star", none, .switch, some ["false"], false, (mem, "a_star")⟩,
   ⟨"routing-max-distance-factor", none, .one, some ["5.0"], false, (mem, "routing_max_distance_factor")⟩,
   ⟨"candidate-adoption-siblings", none, .one, some ["true"], false, (mem, "candidate_adoption_siblings")⟩,
   ⟨"candidate-adoption-nearby", none, .one, some ["true"], false, (mem, "candidate_adoption_nearby")⟩,
   ⟨"candidate-adoption-reverse", none, .one, some ["false"], false, (mem, "candidate_adoption_reverse")⟩,
   ⟨"candidate-search", none, .one, some ["combined"], false, (mem, "candidate_search")⟩,
   ⟨"radius", none, .one, some ["200.0"], false, (mem, "radius")⟩,
   ⟨"radius-upper-limit", none, .one, some ["10000.0"], false, (mem, "radius_upper_limit")⟩,
   ⟨"radius-lower-limit", none, .one, some ["200.0"], false, (mem, "radius_lower_limit")⟩,
   ⟨"adaptive-radius", none, .one, some ["true"], false, (mem, "adaptive_radius")⟩,
   ⟨"k-nearest", none, .one, some ["16"], false, (mem, "k_nearest")⟩]

/-- options.cpp 1113-1143 `options_model`. -/
def model (mem : String) : List Described :=
  [⟨"model", none, .one, some ["value-iteration"], false, (mem, "model")⟩,
   ⟨"skip-errors", none, .one, some ["true"], false, (mem, "skip_errors")⟩,
   ⟨"state-size", none, .one, some ["2"], false, (mem, "state_size")⟩,
   ⟨"discount", none, .one, some ["0.99"], false, (mem, "discount")⟩]

/-- options.cpp 1145-1161 `options_weight_mdp`. -/
def weightMdp (mem : String) : List Described :=
  [⟨"mdp-distance-factor", none, .one, some ["0.8"], false, (mem, "distance_factor")⟩,
   ⟨"mdp-length-factor", none, .one, some ["0.3"], false, (mem, "length_factor")⟩,
   ⟨"mdp-azimuth-factor", none, .one, some ["0.5"], false, (mem, "azimuth_factor")⟩,
   ⟨"mdp-direction-factor", none, .one, some ["0.6"], false, (mem, "direction_factor")⟩,
   ⟨"mdp-turn-factor", none, .one, some ["0.5"], false, (mem, "turn_factor")⟩]

/-- options.cpp 1163-1179 `options_weight_hmm`. -/
def weightHmm (mem : String) : List Described :=
  [⟨"hmm-distance-factor", none, .one, some ["0.8"], false, (mem, "distance_factor")⟩,
   ⟨"hmm-length-factor", none, .one, some ["0.1"], false, (mem, "length_factor")⟩,
   ⟨"hmm-azimuth-factor", none, .one, some ["0.2"], false, (mem, "azimuth_factor")⟩,
   ⟨"hmm-direction-factor", none, .one, some ["0.8"], false, (mem, "direction_factor")⟩,
   ⟨"hmm-turn-factor", none, .one, some ["0.6"], false, (mem, "turn_factor")⟩]

/-- options.cpp 1181-1189 `options_dynamic_programming`. -/
def dynamicProgramming (mem : String) : List Described :=
  [⟨"threshold", none, .one, some ["1e-3"], false, (mem, "threshold")⟩]

/-- options.cpp 1191-1216 `options_learning`. -/
def learning (mem : String) : List Described :=
  [⟨"learning-rate", none, .one, some ["0.9"], false, (mem, "learning_rate")⟩,
   ⟨"epsilon", none, .one, some ["0.5"], false, (mem, "epsilon")⟩,
   ⟨"early-stop-factor", none, .one, some ["1.0"], false, (mem, "early_stop_factor")⟩,
   ⟨"max-episodes", none, .one, some ["1000000000"], false, (mem, "episodes")⟩]

/-- options.cpp 1218-1248 `options_comparison` without `options_tracks`. -/
def comparison (mem : String) : List Described :=
  [⟨"ignore-non-existent", none, .switch, some ["false"], false, (mem, "ignore_non_existent")⟩,
   ⟨"compare-simplify-distance-tolerance", none, .one, some ["0.1"], false, (mem, "simplifying_tolerance")⟩,
   ⟨"compare-simplify-reverse-tolerance", none, .one, some ["0.1"], false, (mem, "simplifying_reverse_tolerance")⟩,
   ⟨"compare-adoption-distance-tolerance", none, .one, some ["0.1"], false, (mem, "adoption_distance_tolerance")⟩,
   ⟨"compare-split-distance-tolerance", none, .one, some ["1.0"], false, (mem, "split_distance_tolerance")⟩,
   ⟨"compare-split-direction-tolerance", none, .one, some ["90.0"], false, (mem, "split_direction_tolerance")⟩]

/-- options.cpp 1250-1257 `options_mode`. -/
def modeTable : List Described := all "all" ++ modes "global"

/-- options.cpp 1281-1291 `options_work`. -/
def workTable : List Described := modeTable ++ console "console" ++ performance "performance"

/-- options.cpp 1259-1279 `options_prepare`; 666-672 `options_prepare_srs`, 851-852 `options_prepare_memory`. -/
def prepareTable : List Described :=
  modeTable ++ prepareNetwork "network" ++ osmImport "osm_import" ++ srs "" "srs" ++ srsTransform "" "srs" ++ prepareFiles "files" ++
    prepareExports "expo" ++ prepareProcess "process" ++ memory "memory" ++ prepareMemory "memory"

/-- options.cpp 1293-1329 `options_match`; 464 `matches.csv`. -/
def matchTable : List Described :=
  workTable ++ input "input" ++ srs "network-" "srs" ++ files "files" ++ memory "memory" ++
    output "matches.csv" "match_output" ++ matchOutput "match_output" ++ tracks "" "tracks" ++
    srs "tracks-" "srs_tracks" ++ srsTransform "tracks-" "srs_tracks" ++ csv "" "csv" ++ csvTracks "" "csv" ++ exports "expo" ++
    matching "matching" ++ model "model" ++ weightMdp "weights_mdp" ++ weightHmm "weights_hmm" ++
    dynamicProgramming "dynamic_programming" ++ learning "learning"

/-- options.cpp 1331-1351 `options_compare`; 499 `comparison.csv`, 1219 `compare-`. -/
def compareTable : List Described :=
  workTable ++ output "comparison.csv" "compare_output" ++ compareOutput "compare_output" ++ tracks "match-" "match" ++
    srs "match-" "srs_match" ++ srsTransform "match-" "srs_match" ++ csv "match-" "csv_match" ++ csvTracks "match-" "csv_match" ++
    tracks "compare-" "comparison" ++ comparison "comparison" ++ srs "compare-" "srs_compare" ++
    srsTransform "compare-" "srs_compare" ++ csv "compare-" "csv_compare" ++ csvTracks "compare-" "csv_compare"

/-- Names with values in the order they are written, on the command line or in the file (options.cpp 1354-1360, 1362-1369).  A
switch on the command line has the value `true`. -/
abbrev Source := List (String × String)

/-- boost `find_nothrow` as called for the command line (options.cpp 1356, `style(0)` is the default style): the option with
this name, or the only one whose name begins like this. -/
def resolve (ds : List Described) (n : String) : Outcome (Option Described) :=
  match ds.filter fun d => d.name = n with
  | [d] => .ok (some d)
  | _ :: _ :: _ => .throws
  | [] =>
    match ds.filter fun d => n.toList.isPrefixOf d.name.toList with
    | [] => .ok none
    | [d] => .ok (some d)
    | _ :: _ :: _ => .throws

/-- options.cpp 1353-1360 `parse_cli` without `store`: names in full; unknown options are left out if they are allowed. -/
def parseCli (ds : List Described) (allow : Bool) : Source → Outcome Source
  | [] => .ok []
  | p :: ps =>
    match resolve ds p.1 with
    | .ok (some d) => (parseCli ds allow ps).map fun r => (d.name, p.2) :: r
    | .ok none => if allow then parseCli ds allow ps else .throws
    | _ => .throws

/-- options.cpp 1367 `po::parse_config_file`: names have to be written in full. -/
def parseFile (ds : List Described) (allow : Bool) : Source → Outcome Source
  | [] => .ok []
  | p :: ps =>
    if ds.any fun d => d.name = p.1 then (parseFile ds allow ps).map fun r => p :: r
    else if allow then parseFile ds allow ps else .throws

/-- boost `variable_value`: the values and `defaulted()` (options.cpp 175). -/
structure Entry where
  values : List String
  defaulted : Bool
deriving DecidableEq

/-- boost `variables_map` (options.cpp 37-140, prepare.cpp 63). -/
abbrev Vm := String → Option Entry

/-- boost `store`, one value (options.cpp 1359, 1367): a value that is there by default is replaced, an option with one value
must not be given twice. -/
def put (d : Described) (v : String) (m : Vm) : Outcome Vm :=
  match m d.name with
  | none => .ok (Function.update m d.name (some ⟨[v], false⟩))
  | some e =>
    if e.defaulted then .ok (Function.update m d.name (some ⟨[v], false⟩))
    else if d.kind = .many then .ok (Function.update m d.name (some ⟨e.values ++ [v], false⟩))
    else .throws

/-- boost `store`, the values of one source (options.cpp 1359, 1367); options of an earlier source (`final`) are skipped. -/
def putAll (ds : List Described) (final : List String) : Source → Vm → Outcome Vm
  | [], m => .ok m
  | p :: ps, m =>
    if p.1 ∈ final then putAll ds final ps m
    else match ds.find? fun d => d.name = p.1 with
      | none => .throws
      | some d => (put d p.2 m).bind (putAll ds final ps)

/-- boost `store`, the defaults (options.cpp 1359, 1367). -/
def putDefaults (ds : List Described) (m : Vm) : Vm := fun n =>
  match m n with
  | some e => some e
  | none => ((ds.find? fun d => d.name = n).bind Described.dflt).map fun v => ⟨v, true⟩

/-- options.cpp 1353-1360 `parse_cli`. -/
def storeCli (ds : List Described) (allow : Bool) (cli : Source) : Outcome (Source × Vm) :=
  (parseCli ds allow cli).bind fun c => (putAll ds [] c fun _ => none).map fun m => (c, putDefaults ds m)

/-- options.cpp 1362-1369 `parse_file`: the file named has to be there if it was named by the user. -/
def storeFile (ds : List Described) (allow : Bool) (disk : String → Option Source) (s : Source × Vm) : Outcome Vm :=
  match s.2 "config" with
  | none => .throws
  | some e =>
    match disk (e.values.headD "") with
    | none => if e.defaulted then .ok s.2 else .throws
    | some f => (parseFile ds allow f).bind fun f => (putAll ds (s.1.map Prod.fst) f s.2).map (putDefaults ds)

/-- options.cpp 1407-1408 in `process`. -/
def load (ds : List Described) (allow : Bool) (cli : Source) (disk : String → Option Source) : Outcome Vm :=
  (storeCli ds allow cli).bind (storeFile ds allow disk)

/-- The members of the data of a mode (options.hpp 248-304). -/
abbrev Data := String × String → List String

/-- boost `notify` (options.cpp 1418): required options have to be there, values are written to their members.  The order (by
name in boost) does not matter when the members differ. -/
def notify (ds : List Described) (m : Vm) (init : Data) : Outcome Data :=
  if ds.any fun d => d.required && (m d.name).isNone then .throws
  else .ok (ds.foldl (fun x d => match m d.name with
    | some e => Function.update x d.field e.values
    | none => x) init)

/-- options.cpp 1405-1425 `process` without help and version. -/
def read (ds : List Described) (allow : Bool) (cli : Source) (disk : String → Option Source) (init : Data) : Outcome Data :=
  (load ds allow cli disk).bind fun m => notify ds m init

/-- `correct` of the mode (options.cpp 326-375): members that are changed, `fix` are the values they get (modelled in Options
and Srs). -/
def correct (changed : List (String × String)) (fix : Data) (x : Data) : Data := fun f => if f ∈ changed then fix f else x f

/-- Members changed by `match_data::correct` (options.cpp 345-363): 75-79 `export_edge_ids`, 131 and 135 computed coordinate
systems, 181-189 memory, 240-254 file type, 275-288 matching. -/
def matchChanged : List (String × String) :=
  [("all", "verbose"), ("match_output", "export_edge_ids"), ("srs", "srs"), ("srs_tracks", "srs"), ("srs_tracks", "srs_transform"),
   ("memory", "mmap_graph"), ("memory", "mmap_indices"), ("memory", "mmap_tags"), ("tracks", "file_extension"),
   ("matching", "within_edge_turns"), ("matching", "radius_upper_limit"), ("matching", "radius_lower_limit"),
   ("matching", "k_nearest")]

/-- Members changed by `compare_data::correct` (options.cpp 365-375). -/
def compareChanged : List (String × String) :=
  [("all", "verbose"), ("match", "file_extension"), ("srs_match", "srs"), ("srs_match", "srs_transform"),
   ("comparison", "file_extension"), ("srs_compare", "srs"), ("srs_compare", "srs_transform")]

/-- One assignment `settings.a = data.b.c` (settings.cpp 31-99, 108-121, 129-152). -/
abbrev Assign := String × (String × String)

/-- The values of the settings after assignments in order (settings.cpp 31-99); settings without assignment keep their
initial value. -/
def assign (as : List Assign) (x : Data) (init : String → List String) : String → List String :=
  as.foldl (fun s a => Function.update s a.1 (x a.2)) init

/-- settings.cpp 22-79 `_match_settings`, assignments of members (candidate search and model are modelled in Options). -/
def matchAssigns : List Assign :=
  [("tracks_srs_transform", ("srs_tracks", "srs_transform")),
   ("export_edges", ("match_output", "export_edges")),
   ("export_edge_ids", ("match_output", "export_edge_ids")),
   ("join_merges", ("match_output", "join_merges")),
   ("output", ("match_output", "output")),
   ("filename", ("match_output", "filename")),
   ("export_candidates", ("expo", "candidates")),
   ("console", ("console", "console")),
   ("max_time", ("matching", "max_time")),
   ("filter_duplicates", ("matching", "filter_duplicates")),
   ("simplify_track", ("matching", "simplify_track")),
   ("median_merge", ("matching", "median_merge")),
   ("adaptive_median_merge", ("matching", "adaptive_median_merge")),
   ("within_edge_turns", ("matching", "within_edge_turns")),
   ("a_star", ("matching", "a_star")),
   ("candidate_adoption_siblings", ("matching", "candidate_adoption_siblings")),
   ("candidate_adoption_nearby", ("matching", "candidate_adoption_nearby")),
   ("candidate_adoption_reverse", ("matching", "candidate_adoption_reverse")),
   ("adaptive_radius", ("matching", "adaptive_radius")),
   ("routing_max_distance_factor", ("matching", "routing_max_distance_factor")),
   ("simplify_track_distance_tolerance", ("matching", "simplify_track_distance_tolerance")),
   ("median_merge_distance_tolerance", ("matching", "median_merge_distance_tolerance")),
   ("radius", ("matching", "radius")),
   ("radius_upper_limit", ("matching", "radius_upper_limit")),
   ("radius_lower_limit", ("matching", "radius_lower_limit")),
   ("k_nearest", ("matching", "k_nearest")),
   ("skip_errors", ("model", "skip_errors")),
   ("state_size", ("model", "state_size")),
   ("discount", ("model", "discount")),
   ("mdp_distance_factor", ("weights_mdp", "distance_factor")),
   ("mdp_length_factor", ("weights_mdp", "length_factor")),
   ("mdp_azimuth_factor", ("weights_mdp", "azimuth_factor")),
   ("mdp_direction_factor", ("weights_mdp", "direction_factor")),
   ("mdp_turn_factor", ("weights_mdp", "turn_factor")),
   ("hmm_distance_factor", ("weights_hmm", "distance_factor")),
   ("hmm_length_factor", ("weights_hmm", "length_factor")),
   ("hmm_azimuth_factor", ("weights_hmm", "azimuth_factor")),
   ("hmm_direction_factor", ("weights_hmm", "direction_factor")),
   ("hmm_turn_factor", ("weights_hmm", "turn_factor")),
   ("threshold", ("dynamic_programming", "threshold")),
   ("learning_rate", ("learning", "learning_rate")),
   ("epsilon", ("learning", "epsilon")),
   ("early_stop_factor", ("learning", "early_stop_factor")),
   ("episodes", ("learning", "episodes"))]

/-- settings.cpp 101-124 `_compare_settings`, assignments of members. -/
def compareAssigns : List Assign :=
  [("matches_srs_transform", ("srs_match", "srs_transform")),
   ("ground_truth_srs_transform", ("srs_compare", "srs_transform")),
   ("output", ("compare_output", "output")),
   ("filename", ("compare_output", "filename")),
   ("console", ("console", "console")),
   ("ignore_non_existent", ("comparison", "ignore_non_existent")),
   ("simplifying_tolerance", ("comparison", "simplifying_tolerance")),
   ("simplifying_reverse_tolerance", ("comparison", "simplifying_reverse_tolerance")),
   ("adoption_distance_tolerance", ("comparison", "adoption_distance_tolerance")),
   ("split_distance_tolerance", ("comparison", "split_distance_tolerance")),
   ("split_direction_tolerance", ("comparison", "split_direction_tolerance"))]

/-- settings.cpp 126-145 `_csv_settings`, assignments of members. -/
def csvAssigns (mem : String) : List Assign :=
  [("delimiter", (mem, "delimiter")),
   ("grouped", (mem, "grouped")),
   ("no_header", (mem, "no_header")),
   ("no_id", (mem, "no_id")),
   ("no_id_whole_file", (mem, "no_id_whole_file")),
   ("wkt", (mem, "wkt")),
   ("skip_lines", (mem, "skip_lines")),
   ("field_id", (mem, "ids")),
   ("field_x", (mem, "x")),
   ("field_y", (mem, "y")),
   ("field_geometry", (mem, "geometry")),
   ("id_aggregator", (mem, "id_aggregator"))]

/-- settings.cpp 147-156 `_csv_tracks_settings`, assignments of members. -/
def timeAssigns (mem : String) : List Assign :=
  [("no_parse_time", (mem, "no_parse_time")),
   ("field_time", (mem, "time")),
   ("time_aggregator", (mem, "time_aggregator")),
   ("time_format", (mem, "time_format"))]

end MM.Settings
