import Verif.Model.CompareRun
import Verif.Props.Compare
import Verif.Props.Forwarder
import Verif.Props.Coordinator
import Verif.Props.MultiLine
import Verif.Props.Rows

/-!
# C109: a run of the comparison, from the tracks read to the file of results
-/

set_option autoImplicit false
set_option linter.unusedSectionVars false

namespace MM.CompareRun

open MM.Line Relation

variable {P R A : Type}

/-! ### What is compared -/

section Queued

/-- The first track with an identifier. -/
def firstOf (i : String) (ts : List (Track P)) : Option (Track P) := ts.find? (fun t => decide (t.id = i))

theorem passes_truths (i : String) (g : Track P) (ts : List (Track P)) (h : ∀ t ∈ ts, t.id = i)
    (log : List (String × Option (Track P) × Track P)) :
    (ts.map (fun t => Forwarder.Event.truth t.id t)).foldl Forwarder.pass ⟨[], [(i, g)], log⟩ = ⟨[], [(i, g)], log⟩ := by
  induction ts with
  | nil => rfl
  | cons t ts ih =>
    have ht := h t (by simp)
    rw [List.map_cons, List.foldl_cons]
    have : Forwarder.pass ⟨[], [(i, g)], log⟩ (.truth t.id t) = ⟨[], [(i, g)], log⟩ := by
      simp [Forwarder.pass, Forwarder.passCompare, Forwarder.find, Forwarder.emplace, ht]
    rw [this]
    exact ih fun t h' => h t (by simp [h'])

theorem passes_hits (ts : List (Track P)) (log : List (String × Option (Track P) × Track P)) :
    ∀ hits : List (String × Track P),
    ((ts.map (fun t => Forwarder.Event.hit t.id t)).foldl Forwarder.pass ⟨hits, [], log⟩).compares = [] ∧
    ((ts.map (fun t => Forwarder.Event.hit t.id t)).foldl Forwarder.pass ⟨hits, [], log⟩).log = log := by
  induction ts with
  | nil => intro hits; exact ⟨rfl, rfl⟩
  | cons t ts ih =>
    intro hits
    rw [List.map_cons, List.foldl_cons]
    have : Forwarder.pass ⟨hits, [], log⟩ (.hit t.id t) = ⟨Forwarder.emplace hits t.id t, [], log⟩ := by
      simp [Forwarder.pass, Forwarder.passMatch, Forwarder.find]
    rw [this]
    exact ih _

theorem filter_events (i : String) (truths hits : List (Track P)) :
    ((truths.map (fun t => Forwarder.Event.truth t.id t) ++ hits.map (fun t => Forwarder.Event.hit t.id t)).filter
      (fun e => decide (e.key = i))) =
    (truths.filter (fun t => decide (t.id = i))).map (fun t => Forwarder.Event.truth t.id t) ++
      (hits.filter (fun t => decide (t.id = i))).map (fun t => Forwarder.Event.hit t.id t) := by
  rw [List.filter_append, List.filter_map, List.filter_map]
  rfl

/-- **C109**, pairing: for each identifier the comparison queued is that of the first ground truth with the first match, or
with the empty match if there is none and that is not to be ignored; nothing is queued for identifiers without ground truth.
All ground truths and matches, also with repeated identifiers. -/
theorem queued_exact (ignore : Bool) (truths hits : List (Track P)) (i : String) :
    (queued ignore truths hits).filter (fun p => decide (p.truth.id = i)) =
      match firstOf i truths, firstOf i hits with
      | some g, some v => [⟨v, g⟩]
      | some g, none => if ignore then [] else [⟨⟨g.id, g.system, []⟩, g⟩]
      | none, _ => [] := by
  have hkey : ∀ e ∈ (Forwarder.finish ignore (Forwarder.run (truths.map (fun t => Forwarder.Event.truth t.id t) ++
      hits.map (fun t => Forwarder.Event.hit t.id t)))).log, e.2.2.id = e.1 := by
    rintro ⟨j, m, g⟩ he
    have h := ((Forwarder.nothing_else ignore _).1 j m g he).1
    simp only [List.mem_append, List.mem_map, Forwarder.Event.truth.injEq, reduceCtorEq, and_false, exists_false, or_false] at h
    obtain ⟨t, _, h1, h2⟩ := h
    rw [← h2, h1]
  have hlog := Forwarder.log_only i ignore (truths.map (fun t => Forwarder.Event.truth t.id t) ++
    hits.map (fun t => Forwarder.Event.hit t.id t))
  unfold queued
  rw [List.filter_map]
  have hf : (Forwarder.finish ignore (Forwarder.run (truths.map (fun t => Forwarder.Event.truth t.id t) ++
      hits.map (fun t => Forwarder.Event.hit t.id t)))).log.filter ((fun p : Pair P => decide (p.truth.id = i)) ∘ pairOf) =
      Forwarder.only i (Forwarder.finish ignore (Forwarder.run (truths.map (fun t => Forwarder.Event.truth t.id t) ++
      hits.map (fun t => Forwarder.Event.hit t.id t)))).log := by
    unfold Forwarder.only
    apply List.filter_congr
    intro e he
    have hk := hkey e he
    show decide (e.2.2.id = i) = decide (e.1 = i)
    simp only [hk]
  rw [hf, hlog, filter_events]
  have find_filter : ∀ ts : List (Track P), firstOf i ts = (ts.filter (fun t => decide (t.id = i))).head? := by
    intro ts
    unfold firstOf
    rw [List.head?_filter]
  rw [find_filter truths, find_filter hits]
  have ht : ∀ t ∈ truths.filter (fun t => decide (t.id = i)), t.id = i := fun t h => by simpa using (List.mem_filter.1 h).2
  have hh : ∀ t ∈ hits.filter (fun t => decide (t.id = i)), t.id = i := fun t h => by simpa using (List.mem_filter.1 h).2
  generalize truths.filter (fun t => decide (t.id = i)) = ts at ht ⊢
  generalize hits.filter (fun t => decide (t.id = i)) = hs at hh ⊢
  unfold Forwarder.run
  rw [List.foldl_append]
  cases ts with
  | nil =>
    obtain ⟨h1, h2⟩ := passes_hits hs [] []
    simp only [List.map_nil, List.foldl_nil, List.head?_nil]
    unfold Forwarder.finish
    rw [h1]
    cases ignore <;> simp [h2]
  | cons g ts =>
    have hg := ht g (by simp)
    have hstart : Forwarder.pass ⟨[], [], []⟩ (Forwarder.Event.truth g.id g) = ⟨[], [(i, g)], []⟩ := by
      simp [Forwarder.pass, Forwarder.passCompare, Forwarder.find, Forwarder.emplace, hg]
    rw [List.map_cons, List.foldl_cons, hstart, passes_truths i g ts (fun t h => ht t (by simp [h])) []]
    cases hs with
    | nil => cases ignore <;> simp [Forwarder.finish, pairOf, noMatch]
    | cons v hs =>
      have hv := hh v (by simp)
      have hnext : Forwarder.pass ⟨[], [(i, g)], []⟩ (Forwarder.Event.hit v.id v) = ⟨[], [], [(i, some v, g)]⟩ := by
        simp [Forwarder.pass, Forwarder.passMatch, Forwarder.find, Forwarder.erase, hv]
      obtain ⟨h1, h2⟩ := passes_hits hs [(i, some v, g)] []
      rw [List.map_cons, List.foldl_cons, hnext]
      unfold Forwarder.finish
      rw [h1]
      cases ignore <;> simp [h2, pairOf]

end Queued

/-! ### The rows -/

section Rows

variable [LinearOrder P] [Field R] [LinearOrder R] [IsStrictOrderedRing R]

/-- A step of the program that reads: `stop` is called when everything is queued (compare.cpp 100-116), and no task is accepted
between the two tests of the coordinator thread (see C37). -/
def Reading (c : Coordinator.Config) (s s' : Coordinator.State (Pair P)) : Prop :=
  Coordinator.Quiet c s s' ∧ (s.closed = false → s'.closed = true → s.producers.flatten = [])

theorem reading_closed {c : Coordinator.Config} {l : List (Pair P)} {s : Coordinator.State (Pair P)}
    (h : ReflTransGen (Reading c) (Coordinator.init c [l]) s) : s.closed = true → s.producers.flatten = [] ∧ s.refused = [] := by
  induction h with
  | refl => intro h; simp [Coordinator.init] at h
  | tail hpre hs ih =>
    rename_i b d
    have hr : ReflTransGen (Coordinator.Step c) (Coordinator.init c [l]) b := ReflTransGen.mono (fun _ _ h => h.1.1) _ _ hpre
    obtain ⟨⟨hstep, _⟩, hstop⟩ := hs
    intro hc
    cases hb : b.closed with
    | false =>
      have hp := hstop hb hc
      have href := (Coordinator.accepted_or_refused hr).2 hb
      cases hstep with
      | stop h' => exact ⟨hp, href⟩
      | _ => simp_all
    | true =>
      obtain ⟨h1, h2⟩ := ih hb
      cases hstep with
      | push before after t ts hp hc hs => simp_all
      | refuse before after t ts hp hc =>
        rw [hp] at h1
        simp at h1
      | _ => exact ⟨h1, h2⟩

/-- When `join` returns, what was queued has been executed, in some order. -/
theorem executed_all {c : Coordinator.Config} (hc : 1 ≤ c.threads) {l : List (Pair P)} {s : Coordinator.State (Pair P)}
    (h : ReflTransGen (Reading c) (Coordinator.init c [l]) s) (hd : s.pc = .done) : s.executed.Perm l := by
  have hq : ReflTransGen (Coordinator.Quiet c) (Coordinator.init c [l]) s := ReflTransGen.mono (fun _ _ h => h.1) _ _ h
  have hr : ReflTransGen (Coordinator.Step c) (Coordinator.init c [l]) s := ReflTransGen.mono (fun _ _ h => h.1.1) _ _ h
  have h1 := Coordinator.join_partial hc hq hd
  obtain ⟨h2, h3⟩ := reading_closed h ((Coordinator.inv hr).closed (.inr (.inr hd)))
  have h4 := (Coordinator.accepted_or_refused hr).1
  rw [h2, h3] at h4
  simp only [List.append_nil, List.flatten_cons, List.flatten_nil] at h4
  exact h1.trans h4

theorem compareLines_ends (G : Geo P R A) (T : Compare.Tools P R) (a b : List (List P)) : ∃ r, compareLines G T a b = .ok r :=
  Compare.compare_ends T _ _ _ _

theorem execute_same (G : Geo P R A) (T : Compare.Tools P R) (t : Pair P) (h : t.truth.system = t.hit.system) :
    ∃ r, compareLines G T t.truth.lines t.hit.lines = .ok r ∧ execute G T t = .ok ⟨t.hit, t.truth, r⟩ := by
  obtain ⟨r, hr⟩ := compareLines_ends G T t.truth.lines t.hit.lines
  exact ⟨r, hr, by rw [execute, if_pos h, hr, Outcome.map_ok]⟩

theorem passed_truth {G : Geo P R A} {T : Compare.Tools P R} {t : Pair P} {d : Done P R} (h : d ∈ passed (execute G T t)) :
    d.truth = t.truth ∧ d.hit = t.hit := by
  by_cases hs : t.truth.system = t.hit.system
  · obtain ⟨r, _, hr⟩ := execute_same G T t hs
    rw [hr] at h
    simp only [passed, List.mem_singleton] at h
    subst h
    exact ⟨rfl, rfl⟩
  · rw [execute, if_neg hs] at h
    simp [passed] at h

theorem results_filter (G : Geo P R A) (T : Compare.Tools P R) (l : List (Pair P)) (i : String) :
    (results G T l).filter (fun d => decide (d.truth.id = i)) = results G T (l.filter (fun p => decide (p.truth.id = i))) := by
  unfold results
  rw [List.filter_flatMap]
  induction l with
  | nil => rfl
  | cons t l ih =>
    rw [List.flatMap_cons, ih]
    by_cases h : t.truth.id = i
    · rw [List.filter_cons_of_pos (by simpa using h), List.flatMap_cons]
      congr 1
      rw [List.filter_eq_self]
      intro d hd
      simp [(passed_truth hd).1, h]
    · rw [List.filter_cons_of_neg (by simpa using h)]
      have : (passed (execute G T t)).filter (fun d => decide (d.truth.id = i)) = [] := by
        rw [List.filter_eq_nil_iff]
        intro d hd
        simp [(passed_truth hd).1, h]
      rw [this, List.nil_append]

/-- **C109**, rows.  When a run of the comparison ends, under every schedule, a ground truth of an identifier that occurs once has
exactly one result: the comparison with the first match of its identifier, or with the empty match, which is wrong altogether;
no result has an identifier without ground truth.
Missing from the full property: a match in another coordinate system than its ground truth (`systems_fails`), further ground
truths of the same identifier (`repeated_fails`), tasks accepted between the two tests of the coordinator thread (C37). -/
theorem rows_partial (G : Geo P R A) (T : Compare.Tools P R) {c : Coordinator.Config} (hc : 1 ≤ c.threads) (ignore : Bool)
    (truths hits : List (Track P)) {s : Coordinator.State (Pair P)}
    (h : ReflTransGen (Reading c) (Coordinator.init c [queued ignore truths hits]) s) (hd : s.pc = .done) (i : String) :
    (∀ g v, firstOf i truths = some g → firstOf i hits = some v → g.system = v.system →
      ∃ r, Compare.compare T (g.lines.flatMap segs) (v.lines.flatMap segs) (MultiLine.length G g.lines) (MultiLine.length G v.lines) = .ok r ∧
        (results G T s.executed).filter (fun d => decide (d.truth.id = i)) = [⟨v, g, r⟩]) ∧
    (∀ g, firstOf i truths = some g → firstOf i hits = none → ignore = false → (g.lines.flatMap segs) ≠ [] →
      ∃ d : Done P R, (results G T s.executed).filter (fun d => decide (d.truth.id = i)) = [d] ∧ d.truth = g ∧ d.hit.lines = [] ∧
        d.comparison.correctFraction = 0 ∧ d.comparison.errorFraction = some 1 ∧
        d.comparison.errorMissed = (MultiLine.length G g.lines).getD 0 ∧ d.comparison.parts = ⟨[], [], g.lines.flatMap segs⟩) ∧
    (firstOf i truths = none ∨ firstOf i hits = none ∧ ignore = true →
      (results G T s.executed).filter (fun d => decide (d.truth.id = i)) = []) := by
  have hp := (executed_all hc h hd).filter (fun p => decide (p.truth.id = i))
  rw [queued_exact] at hp
  rw [results_filter]
  refine ⟨?_, ?_, ?_⟩
  · intro g v hg hv hs
    rw [hg, hv] at hp
    rw [List.perm_singleton.1 hp]
    obtain ⟨r, h1, h2⟩ := execute_same G T ⟨v, g⟩ hs
    exact ⟨r, h1, by simp [results, h2, passed]⟩
  · intro g hg hv hi hl
    rw [hg, hv, hi] at hp
    simp only [Bool.false_eq_true, if_false] at hp
    rw [List.perm_singleton.1 hp]
    obtain ⟨t, l, hl⟩ := List.exists_cons_of_ne_nil hl
    obtain ⟨r, h1, h2⟩ := execute_same G T ⟨⟨g.id, g.system, []⟩, g⟩ rfl
    refine ⟨⟨⟨g.id, g.system, []⟩, g, r⟩, by simp [results, h2, passed], rfl, rfl, ?_⟩
    simp only [compareLines, segments, hl, List.flatMap_nil, Compare.compare, Outcome.ok.injEq] at h1
    rw [hl, ← h1]
    exact ⟨rfl, rfl, rfl, rfl⟩
  · rintro (hg | ⟨hv, hi⟩)
    · rw [hg] at hp
      rw [List.perm_nil.1 hp]
      rfl
    · rw [hv, hi] at hp
      cases hg : firstOf i truths with
      | none => rw [hg] at hp; rw [List.perm_nil.1 hp]; rfl
      | some g => rw [hg] at hp; rw [List.perm_nil.1 hp]; rfl

/-- **C109**, scores: whatever was compared, each result has a correct fraction between 0 and 1, which is 1 if there is no error,
and tracks of one coordinate system. -/
theorem scores_range (G : Geo P R A) (T : Compare.Tools P R) (executed : List (Pair P)) (d : Done P R) (hd : d ∈ results G T executed) :
    0 ≤ d.comparison.correctFraction ∧ d.comparison.correctFraction ≤ 1 ∧
    (d.comparison.errorFraction = some 0 → d.comparison.correctFraction = 1) ∧ d.truth.system = d.hit.system ∧
    ⟨d.hit, d.truth⟩ ∈ executed := by
  unfold results at hd
  rw [List.mem_flatMap] at hd
  obtain ⟨t, ht, hd⟩ := hd
  by_cases hs : t.truth.system = t.hit.system
  · obtain ⟨r, h1, h2⟩ := execute_same G T t hs
    rw [h2] at hd
    simp only [passed, List.mem_singleton] at hd
    subst hd
    obtain ⟨ha, hb, hc⟩ := Compare.correct_range T _ _ _ _ r h1
    exact ⟨ha, hb, hc, hs, ht⟩
  · rw [execute, if_neg hs] at hd
    simp [passed] at hd

theorem firstOf_self {ts : List (Track P)} (hn : (ts.map Track.id).Nodup) {t : Track P} (ht : t ∈ ts) : firstOf t.id ts = some t := by
  induction ts with
  | nil => simp at ht
  | cons u ts ih =>
    unfold firstOf
    rw [List.find?_cons]
    rw [List.map_cons, List.nodup_cons] at hn
    rcases List.mem_cons.1 ht with rfl | ht'
    · simp
    · have : u.id ≠ t.id := fun h => hn.1 (h ▸ List.mem_map_of_mem ht')
      simp only [this, decide_false]
      exact ih hn.2 ht'

/-- **C109**, tracks compared with themselves: each has one result, which is correct without error.
Missing from the full property: repeated identifiers, and lines with different points within the adoption tolerance after
simplification (`Compare.compare_same_fails`, C34). -/
theorem same_partial (G : Geo P R A) (T : Compare.Tools P R) (hq : ∀ S p, ∀ q ∈ T.query S p, q ∈ S) {c : Coordinator.Config}
    (hc : 1 ≤ c.threads) (ignore : Bool) (ts : List (Track P)) (hn : (ts.map Track.id).Nodup) {s : Coordinator.State (Pair P)}
    (h : ReflTransGen (Reading c) (Coordinator.init c [queued ignore ts ts]) s) (hd : s.pc = .done) (t : Track P) (ht : t ∈ ts)
    (hF : Compare.Apart T (Compare.pts (T.simplify (t.lines.flatMap segs)))) :
    ∃ d : Done P R, (results G T s.executed).filter (fun d => decide (d.truth.id = t.id)) = [d] ∧ d.truth = t ∧ d.hit = t ∧
      d.comparison.correctFraction = 1 ∧ d.comparison.errorFraction = some 0 := by
  have hf := firstOf_self hn ht
  obtain ⟨r, hr, hrow⟩ := (rows_partial G T hc ignore ts ts h hd t.id).1 t t hf hf rfl
  obtain ⟨r', hr', h1, h2, _⟩ := Compare.compare_same_partial T hq (t.lines.flatMap segs) (MultiLine.length G t.lines)
    (MultiLine.length G t.lines) hF
  rw [hr, Outcome.ok.injEq] at hr'
  subst hr'
  exact ⟨_, hrow, rfl, rfl, h1, h2⟩

/-- **C109**, division into parts: only the segments of ground truth and match count, not how they are divided into parts
(sums of lengths in exact arithmetic). -/
theorem parts_irrelevant (G : Geo P R A) (hG : MultiLine.Exact G.zeroR G.addR) (T : Compare.Tools P R) {a a' b b' : List (List P)}
    (ha : a.flatMap segs = a'.flatMap segs) (hb : b.flatMap segs = b'.flatMap segs) :
    compareLines G T a b = compareLines G T a' b' := by
  unfold compareLines segments
  rw [MultiLine.length_flat G hG a, MultiLine.length_flat G hG a', MultiLine.length_flat G hG b, MultiLine.length_flat G hG b', ha, hb]

/-- Cutting a line at one of its points does not change the segments. -/
theorem segs_cut (xs : List P) (p : P) (ys : List P) : segs (xs ++ p :: ys) = segs (xs ++ [p]) ++ segs (p :: ys) := by
  induction xs with
  | nil => simp [segs]
  | cons x xs ih =>
    cases xs with
    | nil => simp [segs]
    | cons y xs =>
      simp only [segs, List.cons_append, List.tail_cons, List.zip_cons_cons] at ih ⊢
      rw [ih]

/-- **C109**: a match in parts that meet scores like the same match in one part. -/
theorem cut_irrelevant (G : Geo P R A) (hG : MultiLine.Exact G.zeroR G.addR) (T : Compare.Tools P R) (truth pre post : List (List P))
    (xs ys : List P) (p : P) :
    compareLines G T truth (pre ++ (xs ++ [p]) :: (p :: ys) :: post) = compareLines G T truth (pre ++ (xs ++ p :: ys) :: post) := by
  apply parts_irrelevant G hG T rfl
  simp only [List.flatMap_append, List.flatMap_cons]
  rw [segs_cut xs p ys, List.append_assoc]

/-- **C109**: the two functions of the comparator agree on lines in one part. -/
theorem one_part (G : Geo P R A) (hG : ∀ r, G.addR G.zeroR r = r) (T : Compare.Tools P R) (a b : List P) :
    compareLines G T [a] [b] = compareLine G T a b := by
  unfold compareLines compareLine segments
  have h : ∀ l : List P, MultiLine.length G [l] = plainLength G l := by
    intro l
    unfold MultiLine.length MultiLine.total
    cases hl : plainLength G l with
    | none => simp [hl]
    | some x => simp [hl, hG]
  rw [h, h]
  simp

/-- What a column of the file says about a result. -/
def field (G : Geo P R A) (wkt : List (List P) → String) (took : Pair P → R) (text : List (P × P) → String) (num : Option R → String)
    (d : Done P R) (name : String) : Option String :=
  [("id", d.truth.id), ("duration", num (some (took ⟨d.hit, d.truth⟩))), ("match", wkt d.hit.lines), ("ground_truth", wkt d.truth.lines),
    ("match_length", num (some ((MultiLine.length G d.hit.lines).getD 0))),
    ("ground_truth_length", num (some ((MultiLine.length G d.truth.lines).getD 0))),
    ("correct_fraction", num (some d.comparison.correctFraction)), ("error_fraction", num d.comparison.errorFraction),
    ("correct", num (some d.comparison.correct)), ("error_added", num (some d.comparison.errorAdded)),
    ("error_missed", num (some d.comparison.errorMissed)), ("corrects", text d.comparison.parts.corrects),
    ("error_adds", text d.comparison.parts.adds), ("error_misses", text d.comparison.parts.misses)].lookup name

/-- **C109**, the file: a header and one row for each result, each field the value of its column, for known columns given once. -/
theorem file_partial (G : Geo P R A) (T : Compare.Tools P R) (wkt : List (List P) → String) (took : Pair P → R)
    (text : List (P × P) → String) (num : Option R → String) (columns : String)
    (hknown : ∀ n ∈ Rows.columnNames columns, n ∈ Rows.compareNames) (hnd : (Rows.columnNames columns).Nodup)
    (executed : List (Pair P)) :
    Rows.GoodFile (Rows.columnNames columns) (field G wkt took text num) (results G T executed)
      (Rows.compareFile text num (some 0) true columns ((results G T executed).map (rowOf G wkt took))).rows := by
  have hv : ∀ d : Done P R, field G wkt took text num d = Rows.compareValue text num (some 0) (rowOf G wkt took d) := by
    intro d
    funext n
    have hg : ∀ o : Option R, (o.map some).getD (some 0) = some (o.getD 0) := by intro o; cases o <;> rfl
    simp only [field, Rows.compareValue, rowOf, hg]
  rcases Rows.compare_partial text num (some 0) columns ((results G T executed).map (rowOf G wkt took)) hknown hnd with ⟨h1, h2⟩ | ⟨h1, body, h2, h3⟩
  · exact .inl ⟨List.map_eq_nil_iff.1 h1, h2⟩
  · refine .inr ⟨fun h => h1 (by rw [h]; rfl), body, h2, ?_⟩
    rw [List.forall₂_map_left_iff] at h3
    refine h3.imp ?_
    intro d r hr
    rw [hv d]
    exact hr

example : Rows.columnNames "id,correct_fraction,error_fraction" = ["id", "correct_fraction", "error_fraction"] ∧
    (∀ n ∈ Rows.columnNames "id,correct_fraction,error_fraction", n ∈ Rows.compareNames) := by decide

end Rows

/-- **C109**: other kinds of files are refused before anything is compared. -/
theorem refused_kinds (truthExt hitExt : String) (ignore : Bool) (truths hits : List (Track P)) :
    readCompares truthExt hitExt ignore truths hits =
      if (truthExt = "csv" ∨ truthExt = "gpx") ∧ (hitExt = "csv" ∨ hitExt = "gpx") then .ok (queued ignore truths hits) else .throws := by
  unfold readCompares readable
  by_cases h1 : truthExt = "csv" <;> by_cases h2 : truthExt = "gpx" <;> by_cases h3 : hitExt = "csv" <;> by_cases h4 : hitExt = "gpx" <;>
    simp [h1, h2, h3, h4]

/-! ### Cases -/

/-- Points on an axis. -/
def axisGeo : Geo Nat Rat Nat := ⟨fun a b => ((a - b + (b - a) : Nat) : Rat), fun _ _ => 0, fun _ _ => 0, id, 0, (· + ·), 0, (· + ·)⟩

theorem axis_exact : MultiLine.Exact axisGeo.zeroR axisGeo.addR := ⟨fun a b c => add_assoc a b c, zero_add, add_zero⟩

/-- Three ground truths, of which one has no match, and a match without ground truth. -/
def someTruths : List (Track Nat) :=
  [⟨"a", .geographic, [[0, 10, 20]]⟩, ⟨"b", .geographic, [[5, 9], [30, 40]]⟩, ⟨"c", .geographic, [[1, 2]]⟩]

/-- See `someTruths`. -/
def someHits : List (Track Nat) := [⟨"b", .geographic, [[5, 9]]⟩, ⟨"x", .geographic, [[1, 4]]⟩, ⟨"a", .geographic, [[0, 10], [10, 20]]⟩]

example : queued false someTruths someHits =
    [⟨⟨"b", .geographic, [[5, 9]]⟩, ⟨"b", .geographic, [[5, 9], [30, 40]]⟩⟩,
      ⟨⟨"a", .geographic, [[0, 10], [10, 20]]⟩, ⟨"a", .geographic, [[0, 10, 20]]⟩⟩,
      ⟨⟨"c", .geographic, []⟩, ⟨"c", .geographic, [[1, 2]]⟩⟩] := by decide

example : firstOf "b" someTruths = some ⟨"b", .geographic, [[5, 9], [30, 40]]⟩ ∧ firstOf "b" someHits = some ⟨"b", .geographic, [[5, 9]]⟩ ∧
    firstOf "c" someHits = none ∧ firstOf "x" someTruths = none ∧ (someTruths.map Track.id).Nodup := by decide

example : compareLines axisGeo (Compare.demo Rat) [[0, 10, 20]] [[0, 10], [10, 20]] =
    compareLines axisGeo (Compare.demo Rat) [[0, 10, 20]] [[0, 10, 20]] :=
  cut_irrelevant axisGeo axis_exact (Compare.demo Rat) [[0, 10, 20]] [] [] [0] [20] 10

example : Compare.Apart (Compare.demo Nat) (Compare.pts ((Compare.demo Nat).simplify ([[0, 10, 20], [30, 40]].flatMap segs))) := by
  unfold Compare.Apart
  decide

/-- A run of one worker that compares one pair. -/
theorem one_run {P : Type} (t : Pair P) : ReflTransGen (Reading (Coordinator.Config.ofThreads 1))
    (Coordinator.init (Coordinator.Config.ofThreads 1) [[t]])
    { producers := [[]], queue := [], closed := true, pc := .done, sem := 1, pool := [], poolClosed := true, running := [],
      releasing := 0, exited := 1, accepted := [t], refused := [], executed := [t] } := by
  refine .head ⟨⟨.push _ [] [] t [] rfl rfl Nat.zero_lt_one, by simp [Coordinator.init]⟩, by simp [Coordinator.init]⟩
    (.head ⟨⟨.stop _ rfl, by simp⟩, by simp⟩
    (.head ⟨⟨.start _ rfl, by simp⟩, by simp⟩ (.head ⟨⟨.notEmpty _ rfl (by simp [Coordinator.init]), by simp⟩, by simp⟩
    (.head ⟨⟨.pulled _ t [] rfl rfl, by simp⟩, by simp⟩ (.head ⟨⟨.acquired _ t rfl Nat.zero_lt_one, by simp⟩, by simp⟩
    (.head ⟨⟨.submitted _ t rfl, by simp⟩, by simp⟩ (.head ⟨⟨.empty _ rfl rfl, by simp⟩, by simp⟩
    (.head ⟨⟨.isClosed _ rfl rfl, by simp⟩, by simp⟩ (.head ⟨⟨.poolClose _ rfl, by simp⟩, by simp⟩
    (.head ⟨⟨.take _ t [] rfl Nat.zero_lt_one, by simp⟩, by simp⟩ (.head ⟨⟨.execute _ [] [] t rfl, by simp⟩, by simp⟩
    (.head ⟨⟨.release _ Nat.zero_lt_one, by simp⟩, by simp⟩ (.head ⟨⟨.exit _ rfl rfl Nat.zero_lt_one, by simp⟩, by simp⟩
    (.head ⟨⟨.poolJoined _ rfl rfl, by simp⟩, by simp⟩ ?_))))))))))))))
  exact .refl

/-- The result of that run: a track compared with itself. -/
example : ∃ d : Done Nat Rat, (results axisGeo (Compare.demo Rat) [⟨⟨"a", .cartesian, [[0, 10, 20]]⟩, ⟨"a", .cartesian, [[0, 10, 20]]⟩⟩]).filter
      (fun d => decide (d.truth.id = "a")) = [d] ∧ d.comparison.correctFraction = 1 := by
  obtain ⟨d, h, _, _, h1, _⟩ := same_partial axisGeo (Compare.demo Rat) (fun _ _ _ h => h) (c := Coordinator.Config.ofThreads 1)
    (by decide) false [⟨"a", .cartesian, [[0, 10, 20]]⟩] (by decide) (one_run ⟨⟨"a", .cartesian, [[0, 10, 20]]⟩, ⟨"a", .cartesian, [[0, 10, 20]]⟩⟩) rfl
    ⟨"a", .cartesian, [[0, 10, 20]]⟩ (by simp) (by
      intro p hp q hq hne
      simp only [Compare.demo, Compare.pts, segs, List.flatMap_cons, List.flatMap_nil, List.tail_cons, List.zip_cons_cons, List.zip_nil_right,
        List.append_nil, List.cons_append, List.nil_append, List.mem_cons, List.not_mem_nil, or_false] at hp hq
      rcases hp with rfl | rfl | rfl | rfl <;> rcases hq with rfl | rfl | rfl | rfl <;> simp_all [Compare.demo])
  exact ⟨d, h, h1⟩

/-- **C109 fails** for a match in another coordinate system than its ground truth: the pair is queued and executed, and there is
neither a result nor a message. -/
theorem systems_fails : queued false [⟨"a", .geographic, [[0, 10]]⟩] [⟨"a", .cartesian, [[0, 10]]⟩] =
      [(⟨⟨"a", .cartesian, [[0, 10]]⟩, ⟨"a", .geographic, [[0, 10]]⟩⟩ : Pair Nat)] ∧
    results axisGeo (Compare.demo Rat) [⟨⟨"a", .cartesian, [[0, 10]]⟩, ⟨"a", .geographic, [[0, 10]]⟩⟩] = [] :=
  ⟨by decide, rfl⟩

/-- **C109 fails** for a second ground truth of an identifier: it is left out, and so is a second match, although it would be the
match of the second ground truth. -/
theorem repeated_fails : queued false [⟨"a", .geographic, [[0, 10]]⟩, ⟨"a", .geographic, [[20, 30]]⟩]
      [⟨"a", .geographic, [[0, 10]]⟩, ⟨"a", .geographic, [[20, 30]]⟩] =
    [(⟨⟨"a", .geographic, [[0, 10]]⟩, ⟨"a", .geographic, [[0, 10]]⟩⟩ : Pair Nat)] := by decide

end MM.CompareRun
