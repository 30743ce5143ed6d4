import Verif.Model.Options
import Mathlib.Data.List.Basic
import Mathlib.Order.Basic
import Mathlib.Order.Lattice
import Mathlib.Tactic.SplitIfs

/-!
# C77: options given by the user take effect
-/

set_option autoImplicit false
set_option linter.unusedSectionVars false

namespace MM.Options

/-- The value of the first option in the list that was given, from the most special to the most general one. -/
def resolve (dflt : Bool) (chain : List (Opt Bool)) : Bool := ((chain.find? (·.given)).map (·.value)).getD dflt

/-- **C77, memory mapping.**  Each special option given takes effect; otherwise the most special of the more general ones given
does; otherwise it keeps its default. -/
theorem memory_resolved (m : PrepareMemory) :
    (memory m.toMemory).graph = resolve m.graph.value [m.graph, m.mapping] ∧
    (memory m.toMemory).indices = resolve m.indices.value [m.indices, m.mapping] ∧
    (memory m.toMemory).tags = resolve m.tags.value [m.tags, m.mapping] ∧
    (prepareMemory m).final = memory m.toMemory ∧
    (prepareMemory m).graphImport = resolve m.graphImport.value [m.graphImport, m.preparation, m.mapping] ∧
    (prepareMemory m).tagsImport = resolve m.tagsImport.value [m.tagsImport, m.preparation, m.mapping] ∧
    (prepareMemory m).indexBuild = resolve m.indexBuild.value [m.indexBuild, m.preparation, m.mapping] ∧
    (prepareMemory m).osmVertices = resolve m.osmVertices.value [m.osmVertices, m.preparation, m.mapping] ∧
    (prepareMemory m).osmTags = resolve m.osmTags.value [m.osmTags, m.preparation, m.mapping] := by
  have two : ∀ s g : Opt Bool, takeOver g s = resolve s.value [s, g] := by
    rintro ⟨sv, sg⟩ ⟨gv, gg⟩
    cases sv <;> cases sg <;> cases gv <;> cases gg <;> rfl
  have three : ∀ s : Opt Bool, takeOver (preparation m) s = resolve s.value [s, m.preparation, m.mapping] := by
    intro s
    unfold preparation
    generalize m.mapping = g
    generalize m.preparation = p
    rcases s with ⟨sv, sg⟩
    rcases g with ⟨gv, gg⟩
    rcases p with ⟨pv, pg⟩
    cases sv <;> cases sg <;> cases gv <;> cases gg <;> cases pv <;> cases pg <;> rfl
  exact ⟨two _ _, two _ _, two _ _, rfl, three _, three _, three _, three _, three _⟩

/-- `--memory-mapping off --memory-mapped-tags on --memory-mapped-osm-tags on` -/
example : prepareMemory ⟨⟨⟨false, true⟩, ⟨true, false⟩, ⟨true, false⟩, ⟨true, true⟩⟩, ⟨true, false⟩, ⟨true, false⟩, ⟨true, false⟩,
    ⟨true, false⟩, ⟨true, false⟩, ⟨true, true⟩⟩ = ⟨⟨false, false, true⟩, false, false, false, false, true⟩ := by decide

/-- **C77, search radius.**  After correction the radius lies between the limits; limits that already fit stay as they are. -/
theorem limits_good {R : Type} [LinearOrder R] (radius lower upper : R) :
    (limits radius lower upper).1 ≤ radius ∧ radius ≤ (limits radius lower upper).2 ∧ (limits radius lower upper).1 ≤ lower ∧
    upper ≤ (limits radius lower upper).2 ∧ (lower ≤ radius → (limits radius lower upper).1 = lower) ∧
    (radius ≤ upper → (limits radius lower upper).2 = upper) := by
  unfold limits
  refine ⟨?_, ?_, ?_, ?_, ?_, ?_⟩ <;> simp only <;> split_ifs with h
  · exact le_refl _
  · exact not_lt.1 h
  · exact le_refl _
  · exact not_lt.1 h
  · exact le_of_lt h
  · exact le_refl _
  · exact le_of_lt h
  · exact le_refl _
  · intro h'
    exact absurd h (not_lt.2 h')
  · intro _; rfl
  · intro h'
    exact absurd h (not_lt.2 h')
  · intro _; rfl

example : limits 50 200 10000 = (50, 10000) ∧ limits 20000 200 10000 = (200, 20000) ∧ limits 70 100 50 = (70, 70) := by decide

/-- **C77, turns within edges** are as given; if not given they are on exactly if no adoption is (or by default). -/
theorem turns_good (t : Opt Bool) (a b c : Bool) :
    (t.given = true → withinEdgeTurns t a b c = t.value) ∧
    (t.given = false → (withinEdgeTurns t a b c = true ↔ (a = false ∧ b = false ∧ c = false) ∨ t.value = true)) := by
  rcases t with ⟨v, g⟩
  cases v <;> cases g <;> cases a <;> cases b <;> cases c <;> decide

example : withinEdgeTurns ⟨false, false⟩ false false false = true ∧ withinEdgeTurns ⟨false, true⟩ false false false = false := by decide

/-- Names of the searches. -/
def Search.name : Search → String
  | .circle => "circle"
  | .nearest => "nearest"
  | .combined => "combined"
  | .next => "next"

/-- Names of the models. -/
def Model.name : Model → String
  | .policyIteration => "policy-iteration"
  | .valueIteration => "value-iteration"
  | .qLearning => "q-learning"
  | .viterbi => "viterbi"

/-- **C77, names.**  The search and the model are those named; every other name and every size of states other than 2 and 3 is
refused. -/
theorem names_good (n : String) :
    (∀ s, search n = .ok s ↔ n = s.name) ∧ ((∀ s : Search, n ≠ s.name) → search n = .throws) ∧
    (∀ k m j, model n k = .ok (m, j) ↔ n = m.name ∧ j = k ∧ (k = 2 ∨ k = 3)) ∧
    (∀ k, (∀ m : Model, ¬ (n = m.name ∧ (k = 2 ∨ k = 3))) → model n k = .throws) ∧
    (∀ k, search n = .ok .next → kNearest n k = 1) ∧ (∀ k, search n ≠ .ok .next → kNearest n k = k) := by
  have hs : ∀ s, search n = .ok s ↔ n = s.name := by
    intro s
    unfold search
    constructor
    · intro h
      split_ifs at h with h1 h2 h3 h4
      · cases h; exact h2
      · cases h; exact h3
      · cases h; exact h4
      · cases h
        by_contra h5
        exact h1 ⟨h2, h3, h4, h5⟩
    · rintro rfl
      cases s <;> simp [Search.name]
  have hm : ∀ k m j, model n k = .ok (m, j) ↔ n = m.name ∧ j = k ∧ (k = 2 ∨ k = 3) := by
    intro k m j
    unfold model
    constructor
    · intro h
      split_ifs at h with h1 h2 h3 h4 h5
      · cases h; exact ⟨h3, rfl, by omega⟩
      · cases h; exact ⟨h4, rfl, by omega⟩
      · cases h; exact ⟨h5, rfl, by omega⟩
      · cases h
        refine ⟨?_, rfl, by omega⟩
        by_contra h6
        exact h1 ⟨h3, h4, h5, h6⟩
    · rintro ⟨rfl, rfl, h | h⟩ <;> subst h <;> cases m <;> simp [Model.name]
  refine ⟨hs, ?_, hm, ?_, ?_, ?_⟩
  · intro h
    unfold search
    rw [if_pos ⟨h .circle, h .nearest, h .combined, h .next⟩]
  · intro k h
    unfold model
    split_ifs with h1 h2 h3 h4 h5
    · rfl
    · rfl
    · exact absurd ⟨h3, by omega⟩ (h .policyIteration)
    · exact absurd ⟨h4, by omega⟩ (h .valueIteration)
    · exact absurd ⟨h5, by omega⟩ (h .qLearning)
    · refine absurd ⟨?_, by omega⟩ (h .viterbi)
      by_contra h6
      exact h1 ⟨h3, h4, h5, h6⟩
  · intro k h
    rw [hs] at h
    unfold kNearest
    exact if_pos h
  · intro k h
    rw [Ne, hs] at h
    unfold kNearest
    exact if_neg h

example : search "next" = .ok .next ∧ search "nxet" = .throws ∧ model "viterbi" 2 = .ok (.viterbi, 2) ∧ model "viterbi" 1 = .throws := by
  decide

/-- **C77, duplicate nodes** are removed as given, and by default for Seattle. -/
theorem duplicates_good (format : String) (r : Opt Bool) :
    (r.given = true → removeDuplicateNodes format r = r.value) ∧
    (r.given = false → removeDuplicateNodes "seattle" r = true) ∧ (format ≠ "seattle" → removeDuplicateNodes format r = r.value) := by
  unfold removeDuplicateNodes
  refine ⟨?_, ?_, ?_⟩
  · intro h
    simp [h]
  · intro h
    simp [h]
  · intro h
    simp [h]

example : removeDuplicateNodes "seattle" ⟨false, true⟩ = false ∧ removeDuplicateNodes "osm" ⟨false, false⟩ = false := by decide

/-- **C77, files.**  Options are accepted only if the three files of a network are named and different. -/
theorem files_different (g i t : String) : filesOk g i t = true ↔ g ≠ "" ∧ i ≠ "" ∧ t ≠ "" ∧ [g, i, t].Nodup := by
  simp [filesOk, and_assoc]

example : filesOk "graph.bin" "index.bin" "tags.bin" = true ∧ filesOk "a" "b" "a" = false := by decide

/-- **C77 fails: temporary files.**  A temporary file may have the name of the file of the network: the graph is imported into the
file the finished graph is written to, and the temporary file is deleted in the end. -/
theorem temporary_fails : prepareFilesOk "graph.bin" "index.bin" "tags.bin" ["graph.bin"] = true ∧
    ¬ ("graph.bin" :: "index.bin" :: "tags.bin" :: ["graph.bin"]).Nodup := by decide

theorem extensions_nonempty (es : List String) (h : ∀ e ∈ es, e ≠ "") : ∀ first last : String, first ≠ "" →
    extensions es first last = if ∀ e ∈ es, e = first then .ok (es.getLast?.getD last) else .throws := by
  induction es with
  | nil => intro first last hf; simp [extensions]
  | cons e es ih =>
    intro first last hf
    rw [extensions, if_neg hf]
    by_cases he : e = first
    · subst he
      rw [if_neg (by simp), ih (fun x hx => h x (List.mem_cons_of_mem _ hx)) _ _ hf]
      congr 1
      · simp
      · cases es with
        | nil => rfl
        | cons x xs => simp [List.getLast?_eq_getLast_of_ne_nil]
    · rw [if_pos he, if_neg]
      intro h'
      exact he (h' e (by simp))

/-- **C77, types of track files (in part).**  A type that is given takes effect, whatever the names of the files; otherwise it is
the common extension of the files.  Unknown types are refused, and files with different extensions.  Files have extensions;
missing: see `no_extension_fails`, and `compare_type_fails` for the comparison. -/
theorem type_partial (lower : String → String) (type : Option String) (e : String) (es : List String) (he : ∀ x ∈ e :: es, x ≠ "") :
    (∀ t, type = some t → matchType lower false type (e :: es) = if lower t ∈ types then .ok (some (lower t)) else .throws) ∧
    (type = none → (∀ x ∈ es, x = e) →
      matchType lower false type (e :: es) = if lower (dropDot e) ∈ types then .ok (some (lower (dropDot e))) else .throws) ∧
    (type = none → (∃ x ∈ es, x ≠ e) → matchType lower false type (e :: es) = .throws) ∧
    matchType lower false type [] = .throws := by
  have hx : extensions (e :: es) "" "" = if ∀ x ∈ es, x = e then .ok e else .throws := by
    rw [extensions, if_pos rfl, if_neg (by simp), extensions_nonempty es (fun x hx => he x (List.mem_cons_of_mem _ hx)) e e (he e (by simp))]
    split_ifs with h
    · congr 1
      cases hl : es.getLast? with
      | none => rfl
      | some y => exact h y (List.mem_of_getLast? hl)
    · rfl
  refine ⟨?_, ?_, ?_, ?_⟩
  · rintro t rfl
    simp [matchType, fileType, Outcome.bind_ok]
  · rintro rfl h
    simp [matchType, fileType, hx, if_pos h, Outcome.bind_ok, Outcome.map]
  · rintro rfl ⟨x, h1, h2⟩
    have : ¬ ∀ x ∈ es, x = e := fun h => h2 (h x h1)
    simp [matchType, fileType, hx, if_neg this, Outcome.map]
  · simp [matchType, fileType]

/-- Lower case of the letters that occur in the types. -/
def low (s : String) : String := s.map Char.toLower

example : matchType low false none [".CSV", ".CSV"] = .ok (some "csv") ∧ matchType low false (some "gpx") [".txt"] = .ok (some "gpx") ∧
    matchType low false none [".csv", ".gpx"] = .throws ∧ matchType low false none [".txt"] = .throws := by decide +kernel

/-- **C77 fails: files without extension.**  Whether they are noticed depends on the order of the files. -/
theorem no_extension_fails : matchType low false none ["", ".csv"] = .ok (some "csv") ∧ matchType low false none [".csv", ""] = .throws := by
  decide +kernel

/-- **C77 fails: types given for a comparison.**  They are overwritten by the extensions of the files: other extensions are refused
although the type is given, and a file of the given type is read as another one. -/
theorem compare_type_fails : compareType low false (some "csv") [".txt"] = .throws ∧
    compareType low false (some "csv") [".gpx"] = .ok (some "gpx") ∧
    ∀ (lower : String → String) (t t' : Option String) (e : String) (es : List String),
      compareType lower false t (e :: es) = compareType lower false t' (e :: es) := by
  refine ⟨by decide +kernel, by decide +kernel, ?_⟩
  intro lower t t' e es
  simp [compareType, fileType]

/-- **C77, times of tracks.**  All options for the times of tracks take effect in the match mode. -/
theorem times_good (o : Times) : trackTimes o = o := rfl

example : trackTimes ⟨true, "%s", " ", ["date", "clock"]⟩ = ⟨true, "%s", " ", ["date", "clock"]⟩ := rfl

/-- **C77 fails: times in a comparison.**  No option for times has an effect on CSV files: the column is always `time`, which is
never parsed. -/
theorem compare_times_fails : (∀ o o', compareTimes o = compareTimes o') ∧ compareTimes ⟨false, "%s", " ", ["date"]⟩ = ⟨true, "%FT%T%Oz", "_", ["time"]⟩ :=
  ⟨fun _ _ => rfl, rfl⟩

end MM.Options
