import Verif.Proofs.Settings

/-!
# C95 Every option reaches its setting, and the command line wins over the file
-/

set_option autoImplicit false
set_option linter.unusedSectionVars false

namespace MM.Settings

/-- No two options of a mode have the same name, the same letter or are written to the same member. -/
theorem tables_distinct : ∀ ds ∈ [modeTable, prepareTable, matchTable, compareTable],
    (ds.map Described.name).Nodup ∧ (ds.filterMap Described.short).Nodup ∧ (ds.map Described.field).Nodup := by
  decide +kernel

/-- The value of an option: what is written on the command line, else what is written in the file, else the default. -/
def expected (cli file : Source) (n : String) (dflt : List String) : List String :=
  if given cli n ≠ [] then given cli n else if given file n ≠ [] then given file n else dflt

/-- Non-trivial case: the command line wins, options with several values are not mixed. -/
example : expected [("radius", "50"), ("tracks", "a.csv"), ("tracks", "b.csv")] [("radius", "60"), ("tracks", "c.csv"), ("discount", "0.5")]
      "tracks" [] = ["a.csv", "b.csv"] ∧
    expected [("radius", "50")] [("radius", "60"), ("discount", "0.5")] "discount" ["0.99"] = ["0.5"] := by decide +kernel

theorem config_mem : ∀ ds ∈ [modeTable, prepareTable, matchTable, compareTable],
    (⟨"config", some 'c', .one, some ["options.conf"], false, ("all", "config")⟩ : Described) ∈ ds := by
  decide +kernel

/-- The members of the data of a mode hold the value from the command line, else from the file, else the default, for all
command lines with names in full and all files, whenever they are accepted. -/
theorem member_value {ds : List Described} (hds : ds ∈ [modeTable, prepareTable, matchTable, compareTable]) {cli : Source}
    (hc : ∀ p ∈ cli, p.1 ∈ ds.map Described.name) {disk : String → Option Source} {init x : Data}
    (h : read ds false cli disk init = .ok x) {d : Described} (hd : d ∈ ds) :
    x d.field = expected cli (fileOf cli disk) d.name (d.dflt.getD (init d.field)) := by
  obtain ⟨hn, -, hf⟩ := tables_distinct ds hds
  rw [read] at h
  cases hl : load ds false cli disk with
  | throws => rw [hl] at h; cases h
  | ub => rw [hl] at h; cases h
  | ok m =>
    rw [hl, Outcome.bind_ok] at h
    rw [notify_get hf h hd, load_get hn (config_mem ds hds) rfl rfl hc hl d hd, expected]
    by_cases h1 : given cli d.name = []
    · by_cases h2 : given (fileOf cli disk) d.name = []
      · simp only [h1, h2, ne_eq, not_true_eq_false, if_false]
        cases d.dflt <;> rfl
      · simp [h1, h2]
    · simp [h1]

/-- The options without which a mode does not run (options.cpp 441-449, 538-579). -/
def neededOf : List (List Described × List String) :=
  [(modeTable, []), (prepareTable, ["file", "output"]), (matchTable, ["input"]), (compareTable, [])]

theorem needed_fits : ∀ t ∈ neededOf, (∀ n ∈ t.2, ∃ d ∈ t.1, d.name = n ∧ d.required = true ∧ d.dflt = none) ∧
    ∀ d ∈ t.1, d.required = true → d.dflt = none → d.name ∈ t.2 := by
  decide +kernel

/-- Options that can be stored are accepted if, and only if, the needed options of the mode are given, on the command line or in
the file; no others need to be. -/
theorem needed {t : List Described × List String} (ht : t ∈ neededOf) {cli : Source} (hc : ∀ p ∈ cli, p.1 ∈ t.1.map Described.name)
    {disk : String → Option Source} {m : Vm} (h : load t.1 false cli disk = .ok m) (init : Data) :
    (∃ x, read t.1 false cli disk init = .ok x) ↔ ∀ n ∈ t.2, given cli n ≠ [] ∨ given (fileOf cli disk) n ≠ [] := by
  have hds : t.1 ∈ [modeTable, prepareTable, matchTable, compareTable] := by
    simp only [neededOf, List.mem_cons, List.not_mem_nil, or_false] at ht
    rcases ht with rfl | rfl | rfl | rfl <;> simp
  obtain ⟨hn, -, -⟩ := tables_distinct _ hds
  obtain ⟨h1, h2⟩ := needed_fits t ht
  have hg := load_get hn (config_mem _ hds) rfl rfl hc h
  have hnone : ∀ d ∈ t.1, (m d.name).isNone = true ↔ (given cli d.name = [] ∧ given (fileOf cli disk) d.name = [] ∧ d.dflt = none) := by
    intro d hd
    rw [hg d hd]
    by_cases c1 : given cli d.name = [] <;> by_cases c2 : given (fileOf cli disk) d.name = [] <;> simp [c1, c2]
  rw [read, h, Outcome.bind_ok, notify]
  constructor
  · rintro ⟨x, hx⟩ n hnn
    split at hx
    · cases hx
    · rename_i hany
      obtain ⟨d, hd, rfl, hr, hdf⟩ := h1 n hnn
      by_contra hcon
      push Not at hcon
      exact hany (List.any_eq_true.2 ⟨d, hd, by rw [hr, (hnone d hd).2 ⟨hcon.1, hcon.2, hdf⟩]; rfl⟩)
  · intro hall
    rw [if_neg]
    · exact ⟨_, rfl⟩
    · intro hany
      obtain ⟨d, hd, hx⟩ := List.any_eq_true.1 hany
      rw [Bool.and_eq_true] at hx
      obtain ⟨c1, c2, c3⟩ := (hnone d hd).1 hx.2
      rcases hall d.name (h2 d hd hx.1 c3) with c | c
      · exact c c1
      · exact c c2

/-- The options of a match with the settings they are for and their defaults (help texts of options.cpp 1014-1213). -/
def matchSettings : List (String × String × List String) :=
  [("export-edges", "export_edges", ["false"]), ("join-merges", "join_merges", ["true"]), ("filename", "filename", ["matches.csv"]),
   ("console", "console", ["false"]), ("max-time", "max_time", ["0.0"]), ("filter-duplicates", "filter_duplicates", ["true"]),
   ("simplify-track", "simplify_track", ["true"]),
   ("simplify-track-distance-tolerance", "simplify_track_distance_tolerance", ["5.0"]),
   ("median-merge", "median_merge", ["true"]), ("median-merge-distance-tolerance", "median_merge_distance_tolerance", ["10.0"]),
   ("adaptive-median-merge", "adaptive_median_merge", ["true"]), ("a-star", "a_star", ["false"]),
   ("routing-max-distance-factor", "routing_max_distance_factor", ["5.0"]),
   ("candidate-adoption-siblings", "candidate_adoption_siblings", ["true"]),
   ("candidate-adoption-nearby", "candidate_adoption_nearby", ["true"]),
   ("candidate-adoption-reverse", "candidate_adoption_reverse", ["false"]), ("radius", "radius", ["200.0"]),
   ("adaptive-radius", "adaptive_radius", ["true"]), ("skip-errors", "skip_errors", ["true"]), ("state-size", "state_size", ["2"]),
   ("discount", "discount", ["0.99"]), ("mdp-distance-factor", "mdp_distance_factor", ["0.8"]),
   ("mdp-length-factor", "mdp_length_factor", ["0.3"]), ("mdp-azimuth-factor", "mdp_azimuth_factor", ["0.5"]),
   ("mdp-direction-factor", "mdp_direction_factor", ["0.6"]), ("mdp-turn-factor", "mdp_turn_factor", ["0.5"]),
   ("hmm-distance-factor", "hmm_distance_factor", ["0.8"]), ("hmm-length-factor", "hmm_length_factor", ["0.1"]),
   ("hmm-azimuth-factor", "hmm_azimuth_factor", ["0.2"]), ("hmm-direction-factor", "hmm_direction_factor", ["0.8"]),
   ("hmm-turn-factor", "hmm_turn_factor", ["0.6"]), ("threshold", "threshold", ["1e-3"]),
   ("learning-rate", "learning_rate", ["0.9"]), ("epsilon", "epsilon", ["0.5"]), ("early-stop-factor", "early_stop_factor", ["1.0"]),
   ("max-episodes", "episodes", ["1000000000"])]

/-- Helper: an option with its setting, found in table and assignments. -/
def fits (ds : List Described) (as : List Assign) (changed : List (String × String)) (t : String × String × List String) : Bool :=
  ds.any fun d => decide (d.name = t.1) && decide (d.dflt = some t.2.2) && decide ((t.2.1, d.field) ∈ as) && !decide (d.field ∈ changed)

theorem setting_of_fits {ds : List Described} (hds : ds ∈ [modeTable, prepareTable, matchTable, compareTable]) {as : List Assign}
    (has : (as.map Prod.fst).Nodup) {changed : List (String × String)} {t : String × String × List String}
    (ht : fits ds as changed t = true) {cli : Source} (hc : ∀ p ∈ cli, p.1 ∈ ds.map Described.name)
    {disk : String → Option Source} {init x : Data} (h : read ds false cli disk init = .ok x) (fix : Data)
    (start : String → List String) :
    assign as (correct changed fix x) start t.2.1 = expected cli (fileOf cli disk) t.1 t.2.2 := by
  rw [fits, List.any_eq_true] at ht
  obtain ⟨d, hd, hp⟩ := ht
  simp only [Bool.and_eq_true, decide_eq_true_eq, Bool.not_eq_true', decide_eq_false_iff_not] at hp
  obtain ⟨⟨⟨e1, e2⟩, e3⟩, e4⟩ := hp
  rw [assign_get has e3 _ start, correct, if_neg e4, member_value hds hc h hd, e1, e2]
  rfl

/-- Every setting of the matcher in the list is the value of its option: the command line, else the file, else the default in
the list. -/
theorem match_setting {cli : Source} (hc : ∀ p ∈ cli, p.1 ∈ matchTable.map Described.name) {disk : String → Option Source}
    {init x : Data} (h : read matchTable false cli disk init = .ok x) (fix : Data) (start : String → List String) :
    ∀ t ∈ matchSettings,
      assign matchAssigns (correct matchChanged fix x) start t.2.1 = expected cli (fileOf cli disk) t.1 t.2.2 := by
  intro t ht
  refine setting_of_fits (by simp) (by decide +kernel) ?_ hc h fix start
  have : ∀ t ∈ matchSettings, fits matchTable matchAssigns matchChanged t = true := by decide +kernel
  exact this t ht

/-- In every mode messages are left out or added only if the command line or the file asks for it. -/
theorem messages_setting {ds : List Described} (hds : ds ∈ [modeTable, prepareTable, matchTable, compareTable]) {cli : Source}
    (hc : ∀ p ∈ cli, p.1 ∈ ds.map Described.name) {disk : String → Option Source} {init x : Data}
    (h : read ds false cli disk init = .ok x) :
    x ("all", "quiet") = expected cli (fileOf cli disk) "quiet" ["false"] ∧
    x ("all", "verbose") = expected cli (fileOf cli disk) "verbose" ["false"] := by
  have hd : ∀ ds ∈ [modeTable, prepareTable, matchTable, compareTable],
      (⟨"quiet", none, .switch, some ["false"], false, ("all", "quiet")⟩ : Described) ∈ ds ∧
      (⟨"verbose", none, .switch, some ["false"], false, ("all", "verbose")⟩ : Described) ∈ ds := by
    decide +kernel
  exact ⟨member_value hds hc h (hd ds hds).1, member_value hds hc h (hd ds hds).2⟩

/-- A match that is asked to be quiet in the file. -/
example : ∃ x, read matchTable false [("match", "true"), ("input", "net")] (fun _ => some [("quiet", "true")]) (fun _ => []) = .ok x ∧
    x ("all", "quiet") = ["true"] ∧ x ("all", "verbose") = ["false"] := by
  have hr : (read matchTable false [("match", "true"), ("input", "net")] (fun _ => some [("quiet", "true")]) (fun _ => [])).map (fun _ => ()) =
      .ok () := by decide +kernel
  cases h : read matchTable false [("match", "true"), ("input", "net")] (fun _ => some [("quiet", "true")]) (fun _ => []) with
  | throws => rw [h] at hr; cases hr
  | ub => rw [h] at hr; cases hr
  | ok x =>
    obtain ⟨h1, h2⟩ := messages_setting (by simp) (by decide +kernel) h
    exact ⟨x, rfl, h1.trans (by decide +kernel), h2.trans (by decide +kernel)⟩

/-- The options of a comparison with the settings they are for and their defaults. -/
def compareSettings : List (String × String × List String) :=
  [("filename", "filename", ["comparison.csv"]), ("console", "console", ["false"]), ("ignore-non-existent", "ignore_non_existent", ["false"]),
   ("compare-simplify-distance-tolerance", "simplifying_tolerance", ["0.1"]),
   ("compare-simplify-reverse-tolerance", "simplifying_reverse_tolerance", ["0.1"]),
   ("compare-adoption-distance-tolerance", "adoption_distance_tolerance", ["0.1"]),
   ("compare-split-distance-tolerance", "split_distance_tolerance", ["1.0"]),
   ("compare-split-direction-tolerance", "split_direction_tolerance", ["90.0"])]

/-- Every setting of the comparator in the list is the value of its option. -/
theorem compare_setting {cli : Source} (hc : ∀ p ∈ cli, p.1 ∈ compareTable.map Described.name) {disk : String → Option Source}
    {init x : Data} (h : read compareTable false cli disk init = .ok x) (fix : Data) (start : String → List String) :
    ∀ t ∈ compareSettings,
      assign compareAssigns (correct compareChanged fix x) start t.2.1 = expected cli (fileOf cli disk) t.1 t.2.2 := by
  intro t ht
  refine setting_of_fits (by simp) (by decide +kernel) ?_ hc h fix start
  have : ∀ t ∈ compareSettings, fits compareTable compareAssigns compareChanged t = true := by decide +kernel
  exact this t ht

/-- The folder for results and the file for candidates have no default: if they are not given, the settings are what the
strings of the data are at first, that is empty. -/
theorem output_setting {cli : Source} (hc : ∀ p ∈ cli, p.1 ∈ matchTable.map Described.name) {disk : String → Option Source}
    {x : Data} (h : read matchTable false cli disk (fun _ => [""]) = .ok x) (fix : Data) (start : String → List String) :
    assign matchAssigns (correct matchChanged fix x) start "output" = expected cli (fileOf cli disk) "output" [""] ∧
    assign matchAssigns (correct matchChanged fix x) start "export_candidates" = expected cli (fileOf cli disk) "candidates" [""] := by
  have hn : (matchAssigns.map Prod.fst).Nodup := by decide +kernel
  constructor
  · rw [show "output" = (("output", ("match_output", "output")) : Assign).1 from rfl, assign_get hn (by decide +kernel), correct,
      if_neg (by decide +kernel)]
    exact member_value (by simp) hc h (d := ⟨"output", some 'o', .one, none, false, ("match_output", "output")⟩) (by decide +kernel)
  · rw [show "export_candidates" = (("export_candidates", ("expo", "candidates")) : Assign).1 from rfl, assign_get hn (by decide +kernel),
      correct, if_neg (by decide +kernel)]
    exact member_value (by simp) hc h (d := ⟨"candidates", none, .one, none, false, ("expo", "candidates")⟩) (by decide +kernel)

/-- The options for CSV files with the settings they are for and their defaults; `pre` is the prefix of the names. -/
def csvSettings (pre : String) : List (String × String × List String) :=
  [(pre ++ "delimiter", "delimiter", [","]), (pre ++ "grouped", "grouped", ["true"]), (pre ++ "no-header", "no_header", ["false"]),
   (pre ++ "no-id", "no_id", ["false"]), (pre ++ "no-id-whole-file", "no_id_whole_file", ["false"]), (pre ++ "wkt", "wkt", ["false"]),
   (pre ++ "skip-lines", "skip_lines", ["0"]), (pre ++ "id", "field_id", ["id"]), (pre ++ "x", "field_x", ["x"]),
   (pre ++ "y", "field_y", ["y"]), (pre ++ "geometry", "field_geometry", ["geometry"]), (pre ++ "id-aggregator", "id_aggregator", ["_"])]

/-- The options for times in CSV files with the settings they are for and their defaults. -/
def timeSettings : List (String × String × List String) :=
  [("no-parse-time", "no_parse_time", ["false"]), ("time", "field_time", ["time"]), ("time-aggregator", "time_aggregator", ["_"]),
   ("time-format", "time_format", ["%FT%T%Oz"])]

/-- The settings for reading the tracks of a match. -/
theorem csv_match_setting {cli : Source} (hc : ∀ p ∈ cli, p.1 ∈ matchTable.map Described.name) {disk : String → Option Source}
    {init x : Data} (h : read matchTable false cli disk init = .ok x) (fix : Data) (start : String → List String) :
    ∀ t ∈ csvSettings "" ++ timeSettings,
      assign (csvAssigns "csv" ++ timeAssigns "csv") (correct matchChanged fix x) start t.2.1 =
        expected cli (fileOf cli disk) t.1 t.2.2 := by
  intro t ht
  refine setting_of_fits (by simp) (by decide +kernel) ?_ hc h fix start
  have : ∀ t ∈ csvSettings "" ++ timeSettings, fits matchTable (csvAssigns "csv" ++ timeAssigns "csv") matchChanged t = true := by
    decide +kernel
  exact this t ht

/-- The settings for reading the matches and the ground truth of a comparison, each by the options with its own prefix. -/
theorem csv_compare_setting {cli : Source} (hc : ∀ p ∈ cli, p.1 ∈ compareTable.map Described.name) {disk : String → Option Source}
    {init x : Data} (h : read compareTable false cli disk init = .ok x) (fix : Data) (start : String → List String) :
    (∀ t ∈ csvSettings "match-", assign (csvAssigns "csv_match") (correct compareChanged fix x) start t.2.1 =
      expected cli (fileOf cli disk) t.1 t.2.2) ∧
    (∀ t ∈ csvSettings "compare-", assign (csvAssigns "csv_compare") (correct compareChanged fix x) start t.2.1 =
      expected cli (fileOf cli disk) t.1 t.2.2) := by
  constructor
  · intro t ht
    refine setting_of_fits (by simp) (by decide +kernel) ?_ hc h fix start
    have : ∀ t ∈ csvSettings "match-", fits compareTable (csvAssigns "csv_match") compareChanged t = true := by decide +kernel
    exact this t ht
  · intro t ht
    refine setting_of_fits (by simp) (by decide +kernel) ?_ hc h fix start
    have : ∀ t ∈ csvSettings "compare-", fits compareTable (csvAssigns "csv_compare") compareChanged t = true := by decide +kernel
    exact this t ht

/-- Non-trivial case: a command line and a file that are accepted; the radius is the one of the command line, the discount the
one of the file. -/
def exampleCli : Source := [("match", "true"), ("input", "net"), ("tracks", "a.csv"), ("tracks", "b.csv"), ("radius", "50")]

/-- The file of the example. -/
def exampleDisk : String → Option Source := fun p => if p = "options.conf" then some [("radius", "60"), ("discount", "0.5")] else none

/-- What is read in the example. -/
def exampleSetting (n : String) : Option (List String) :=
  match read matchTable false exampleCli exampleDisk (fun _ => []) with
  | .ok x => some (assign matchAssigns (correct matchChanged (fun _ => []) x) (fun _ => []) n)
  | _ => none

example : exampleSetting "radius" = some ["50"] ∧ exampleSetting "discount" = some ["0.5"] ∧
    exampleSetting "hmm_turn_factor" = some ["0.6"] ∧ ∀ p ∈ exampleCli, p.1 ∈ matchTable.map Described.name := by decide +kernel

/-- Without a network a match is refused. -/
example : ∃ m, load matchTable false [("match", "true")] (fun _ => none) = .ok m ∧
    ¬ ∃ x, read matchTable false [("match", "true")] (fun _ => none) (fun _ => []) = .ok x := by
  have hl : (load matchTable false [("match", "true")] (fun _ => none)).map (fun _ => ()) = .ok () := by decide +kernel
  cases h : load matchTable false [("match", "true")] (fun _ => none) with
  | throws => rw [h] at hl; cases hl
  | ub => rw [h] at hl; cases hl
  | ok m =>
    refine ⟨m, rfl, ?_⟩
    rw [needed (t := (matchTable, ["input"])) (by simp [neededOf]) (by decide +kernel) h]
    decide +kernel

theorem outer_part : ∀ ds ∈ [prepareTable, matchTable, compareTable], ∃ rest, ds = modeTable ++ rest ∧
    ∀ d ∈ rest, ∀ o ∈ modeTable, ¬ d.name.toList.isPrefixOf o.name.toList := by
  intro ds hds
  simp only [List.mem_cons, List.not_mem_nil, or_false] at hds
  rcases hds with rfl | rfl | rfl
  · exact ⟨prepareTable.drop modeTable.length, by decide +kernel, by decide +kernel⟩
  · exact ⟨matchTable.drop modeTable.length, by decide +kernel, by decide +kernel⟩
  · exact ⟨compareTable.drop modeTable.length, by decide +kernel, by decide +kernel⟩

/-- Where the mode is found out, names and abbreviations mean the same as in the mode: an option of the mode only is passed
over, an option of both is the same one.  No option of a mode is mistaken for a switch for another mode. -/
theorem outer_agrees {ds : List Described} (hds : ds ∈ [prepareTable, matchTable, compareTable]) {n : String} {d : Described}
    (h : resolve ds n = .ok (some d)) : resolve modeTable n = .ok (if d ∈ modeTable then some d else none) := by
  obtain ⟨rest, rfl, hrest⟩ := outer_part ds hds
  have hn := (tables_distinct _ (List.mem_cons_of_mem _ hds)).1
  rw [List.map_append, List.nodup_append] at hn
  obtain ⟨hn1, hn2, hn3⟩ := hn
  unfold resolve at h ⊢
  rw [List.filter_append] at h
  by_cases hf : (modeTable ++ rest).filter (fun x => x.name = n) = []
  · rw [List.filter_append, List.append_eq_nil_iff] at hf
    rw [hf.1, hf.2] at h
    rw [hf.1]
    simp only [List.append_nil, List.filter_append] at h ⊢
    generalize hA : modeTable.filter (fun x => n.toList.isPrefixOf x.name.toList) = A at *
    generalize hB : rest.filter (fun x => n.toList.isPrefixOf x.name.toList) = B at *
    match A, B with
    | [], [] => simp at h
    | [], [b] =>
      simp only [List.nil_append, Outcome.ok.injEq, Option.some.injEq] at h
      subst h
      have hb : b ∈ rest := List.mem_of_mem_filter (hB ▸ List.mem_singleton.mpr rfl)
      have : b ∉ modeTable := fun hm => hn3 b.name (List.mem_map_of_mem hm) b.name (List.mem_map_of_mem hb) rfl
      simp [this]
    | [a], [] =>
      simp only [List.append_nil, Outcome.ok.injEq, Option.some.injEq] at h
      subst h
      have ha : a ∈ modeTable := List.mem_of_mem_filter (hA ▸ List.mem_singleton.mpr rfl)
      simp [ha]
    | [], _ :: _ :: _ => simp at h
    | [_], _ :: _ => simp at h
    | _ :: _ :: _, _ => simp at h
  · obtain ⟨e, he⟩ := List.exists_mem_of_ne_nil _ hf
    rw [List.mem_filter, decide_eq_true_eq] at he
    obtain ⟨hem, rfl⟩ := he
    have hall : ((modeTable ++ rest).map Described.name).Nodup := by
      rw [List.map_append, List.nodup_append]
      exact ⟨hn1, hn2, hn3⟩
    rw [← List.filter_append, filter_of_mem hall hem] at h
    simp only [Outcome.ok.injEq, Option.some.injEq] at h
    subst h
    by_cases hm : e ∈ modeTable
    · rw [filter_of_mem hn1 hm]
      simp [hm]
    · have hr : e ∈ rest := (List.mem_append.mp hem).resolve_left hm
      have hnil : modeTable.filter (fun x => x.name = e.name) = [] := by
        rw [List.filter_eq_nil_iff]
        intro x hx
        simp only [decide_eq_true_eq]
        exact fun he => hn3 x.name (List.mem_map_of_mem hx) e.name (List.mem_map_of_mem hr) he
      have hnil' : modeTable.filter (fun x => e.name.toList.isPrefixOf x.name.toList) = [] := by
        rw [List.filter_eq_nil_iff]
        exact fun x hx => hrest e hr x hx
      rw [hnil]
      simp only [hnil', hm, if_false]

/-- Non-trivial case: `--rad` is ambiguous, `--sel` is the selector of tracks and passed over where the mode is found out. -/
example : resolve matchTable "rad" = .throws ∧ (∃ d, resolve matchTable "sel" = .ok (some d) ∧ d.name = "selector") ∧
    resolve modeTable "sel" = .ok none := by
  refine ⟨by decide +kernel, ⟨_, rfl, by decide +kernel⟩, by decide +kernel⟩

/-- False of the code: the configuration file can hold settings for all options (help text, options.cpp 386).  A file with an
option of another mode makes every run of this mode fail. -/
theorem shared_file_fails : ∃ (cli : Source) (file : Source),
    (∀ p ∈ file, p.1 ∈ matchTable.map Described.name ∨ p.1 ∈ compareTable.map Described.name) ∧
    (∀ init, ∃ x, read matchTable false cli (fun _ => none) init = .ok x) ∧
    ∀ init, read matchTable false cli (fun _ => some file) init = .throws := by
  refine ⟨[("match", "true"), ("input", "net"), ("tracks", "a.csv")], [("radius", "50"), ("compare-tracks", "b.csv")],
    by decide +kernel, ?_, ?_⟩
  · intro init
    have ht : (match load matchTable false [("match", "true"), ("input", "net"), ("tracks", "a.csv")] (fun _ => none) with
        | .ok m => !(matchTable.any fun d => d.required && (m d.name).isNone)
        | _ => false) = true := by decide +kernel
    rw [read]
    generalize load matchTable false _ _ = o at *
    cases o with
    | ok m =>
      simp only [Bool.not_eq_true'] at ht
      rw [Outcome.bind_ok, notify, ht]
      exact ⟨_, rfl⟩
    | throws => cases ht
    | ub => cases ht
  · intro init
    have ht : (match load matchTable false [("match", "true"), ("input", "net"), ("tracks", "a.csv")]
        (fun _ => some [("radius", "50"), ("compare-tracks", "b.csv")]) with
        | .throws => true
        | _ => false) = true := by decide +kernel
    rw [read]
    generalize load matchTable false _ _ = o at *
    cases o with
    | ok m => cases ht
    | throws => rfl
    | ub => cases ht

end MM.Settings
