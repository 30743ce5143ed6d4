import Verif.Model.Report
import Verif.Props.Compare
import Mathlib.Algebra.BigOperators.Group.List.Basic
import Mathlib.Algebra.Order.BigOperators.Group.List
import Mathlib.Algebra.BigOperators.Ring.List
import Mathlib.Data.List.Zip

/-!
# C84: what a run prints and leaves in its file
-/

set_option autoImplicit false
set_option linter.unusedSectionVars false

namespace MM.Report

variable {R S : Type}

/-! ### Tracks -/

theorem tracks_fold (rs : List TrackIn) : ∀ (c n : Nat) (l : List TrackLine),
    (rs.map (trackTask ⟨false, true⟩)).foldl (trackStep ⟨false, true⟩) ((c, n), l) =
      ((c + rs.length, n + (rs.map TrackIn.points).sum), l ++ (rs.zipIdx (c + 1)).map fun x => .line x.2 x.1.id x.1.points) := by
  induction rs with
  | nil => intro c n l; simp
  | cons r rs ih =>
    intro c n l
    rw [List.map_cons, List.foldl_cons]
    have h : trackStep ⟨false, true⟩ ((c, n), l) (trackTask ⟨false, true⟩ r) = ((c + 1, n + r.points), l ++ [.line (c + 1) r.id r.points]) := rfl
    rw [h, ih]
    simp only [List.length_cons, List.map_cons, List.sum_cons, List.zipIdx_cons, List.append_assoc, List.singleton_append]
    rw [Nat.add_assoc c 1, Nat.add_comm 1, Nat.add_assoc n]

/-- **C84, tracks.**  With messages wanted, one line for each track, numbered from one, then a line with their number and the sum
of their points; none of these without tracks. -/
theorem tracks_reported (rs : List TrackIn) : trackLines ⟨false, true⟩ rs =
    ((rs.zipIdx 1).map fun x => .line x.2 x.1.id x.1.points) ++
      (if rs = [] then [] else [.summary rs.length (rs.map TrackIn.points).sum]) := by
  unfold trackLines trackEnd
  rw [tracks_fold]
  cases rs with
  | nil => rfl
  | cons r rs => simp [Flags.active]

/-- **C84, tracks on the console.**  Their texts in order and nothing else; without console and messages nothing. -/
theorem tracks_console (verbose : Bool) (rs : List TrackIn) :
    trackLines ⟨true, verbose⟩ rs = ((rs.map TrackIn.wkt).filter fun s => !s.isEmpty).map .text ∧ trackLines ⟨false, false⟩ rs = [] := by
  have h1 : ∀ (rs : List TrackIn) (l : List TrackLine),
      (rs.map (trackTask ⟨true, verbose⟩)).foldl (trackStep ⟨true, verbose⟩) ((0, 0), l) =
        ((0, 0), l ++ ((rs.map TrackIn.wkt).filter fun s => !s.isEmpty).map .text) := by
    intro rs
    induction rs with
    | nil => intro l; simp
    | cons r rs ih =>
      intro l
      rw [List.map_cons, List.foldl_cons]
      have h : trackStep ⟨true, verbose⟩ ((0, 0), l) (trackTask ⟨true, verbose⟩ r) =
          ((0, 0), l ++ (if !r.wkt.isEmpty then [r.wkt] else []).map .text) := by
        simp [trackStep, trackTask, printText, Flags.active]
      rw [h, ih, List.map_cons, List.filter_cons]
      split_ifs <;> simp
  have h2 : ∀ (rs : List TrackIn) (s : (Nat × Nat) × List TrackLine),
      (rs.map (trackTask ⟨false, false⟩)).foldl (trackStep ⟨false, false⟩) s = s := by
    intro rs
    induction rs with
    | nil => intro s; rfl
    | cons r rs ih => intro s; rw [List.map_cons, List.foldl_cons]; exact ih s
  unfold trackLines
  rw [h1, h2]
  exact ⟨by simp [trackEnd], rfl⟩

example : trackLines ⟨false, true⟩ [⟨"a", "LINESTRING(0 0,1 1)", 2⟩, ⟨"b", "LINESTRING(0 0,1 1,2 2)", 3⟩] =
    [.line 1 "a" 2, .line 2 "b" 3, .summary 2 5] ∧
    trackLines ⟨true, true⟩ [⟨"a", "LINESTRING(0 0,1 1)", 2⟩, ⟨"b", "LINESTRING(0 0,1 1,2 2)", 3⟩] =
    [.text "LINESTRING(0 0,1 1)", .text "LINESTRING(0 0,1 1,2 2)"] := by decide +kernel

/-! ### Matches -/

theorem foldl_add (l : List Nat) : ∀ n : Nat, l.foldl (· + ·) n = n + l.sum := by
  induction l with
  | nil => intro n; rfl
  | cons a l ih => intro n; rw [List.foldl_cons, ih, List.sum_cons, Nat.add_assoc]

/-- **C84, combinations.**  The number of combinations of a hidden Markov model is that of the states of the first point and of
the pairs of states of neighbouring points. -/
theorem hmm_combinations (ns : List Nat) {k : Nat} (h : ns.length ≤ k) :
    hmmStates k none 0 ns = ns.headD 0 + (List.zipWith (· * ·) ns ns.tail).sum := by
  have hgen : ∀ (ns : List Nat) (m i : Nat), i + ns.length ≤ k →
      hmmStates k (some m) i ns = (List.zipWith (· * ·) (m :: ns) ns).sum := by
    intro ns
    induction ns with
    | nil => intro m i _; rfl
    | cons n ns ih =>
      intro m i hi
      rw [List.length_cons] at hi
      unfold hmmStates
      rw [if_pos (by omega), ih n (i + 1) (by omega)]
      simp only [List.zipWith_cons_cons, List.sum_cons]
      rw [Nat.mul_comm]
  cases ns with
  | nil => rfl
  | cons n ns =>
    rw [List.length_cons] at h
    unfold hmmStates
    rw [if_pos (by omega), hgen ns n 1 (by omega)]
    rfl

/-- Three points with 2, 3 and 1 states: 2 + 2 * 3 + 3 * 1. -/
example : hmmStates 3 none 0 [2, 3, 1] = 11 := by decide

/-- **C84, numbers of a match.**  Candidates and combinations of a match are the sums over all points of all its parts. -/
theorem match_counts (parts : List (List Nat × List Nat)) {V : Type} (id wkt : String) (a b : Nat) (x : Bool) (d : V) :
    ∃ t, matchTask ⟨false, true⟩ ⟨id, wkt, a, b, parts.map fun p => (edgesOf p.1, mdpStates p.2), x, d⟩ = t ∧
      t.id = id ∧ t.trackPoints = a ∧ t.preparedPoints = b ∧ t.aborted = x ∧ t.duration = d ∧
      t.edges = (parts.map fun p => p.1.sum).sum ∧ t.combinations = (parts.map fun p => p.2.sum).sum := by
  have h : ∀ (parts : List (List Nat × List Nat)) (n m : Nat),
      (parts.map fun p => (edgesOf p.1, mdpStates p.2)).foldl (fun n p => n + p.1) n = n + (parts.map fun p => p.1.sum).sum ∧
      (parts.map fun p => (edgesOf p.1, mdpStates p.2)).foldl (fun n p => n + p.2) m = m + (parts.map fun p => p.2.sum).sum := by
    intro parts
    induction parts with
    | nil => intro n m; exact ⟨rfl, rfl⟩
    | cons p ps ih =>
      intro n m
      simp only [List.map_cons, List.foldl_cons, List.sum_cons]
      rw [(ih _ 0).1, (ih 0 _).2]
      simp only [edgesOf, mdpStates, foldl_add, Nat.zero_add, Nat.add_assoc, and_self]
  refine ⟨_, rfl, rfl, rfl, rfl, rfl, rfl, ?_, ?_⟩
  · show (parts.map fun p => (edgesOf p.1, mdpStates p.2)).foldl (fun n p => n + p.1) 0 = _
    rw [(h parts 0 0).1, Nat.zero_add]
  · show (parts.map fun p => (edgesOf p.1, mdpStates p.2)).foldl (fun n p => n + p.2) 0 = _
    rw [(h parts 0 0).2, Nat.zero_add]

example : (matchTask ⟨false, true⟩ ⟨"a", "", 9, 7, [([2, 3], [4]), ([1], [5, 6])].map (fun p => (edgesOf p.1, mdpStates p.2)), false, (1 : Rat)⟩).edges = 6 := by
  decide +kernel

/-- The numbers printed for a match. -/
def matchNumbers (r : MatchIn R) : MatchTask R :=
  ⟨r.id, "", r.trackPoints, r.preparedPoints, (r.parts.map Prod.fst).sum, (r.parts.map Prod.snd).sum, r.aborted, r.duration⟩

theorem matchTask_numbers (r : MatchIn R) : matchTask ⟨false, true⟩ r = matchNumbers r := by
  have h : ∀ (parts : List (Nat × Nat)) (n m : Nat), parts.foldl (fun n p => n + p.1) n = n + (parts.map Prod.fst).sum ∧
      parts.foldl (fun n p => n + p.2) m = m + (parts.map Prod.snd).sum := by
    intro parts
    induction parts with
    | nil => intro n m; exact ⟨rfl, rfl⟩
    | cons p ps ih =>
      intro n m
      simp only [List.map_cons, List.foldl_cons, List.sum_cons]
      rw [(ih _ 0).1, (ih 0 _).2, Nat.add_assoc, Nat.add_assoc]
      exact ⟨rfl, rfl⟩
  simp only [matchTask, matchNumbers, Flags.active, Bool.or_true, if_true, Bool.false_eq_true, if_false, (h r.parts 0 0).1, (h r.parts 0 0).2,
    Nat.zero_add]

theorem matches_fold [AddCommMonoid R] (rs : List (MatchIn R)) : ∀ (s : MatchSums R) (l : List (MatchLine R)),
    (rs.map (matchTask ⟨false, true⟩)).foldl (matchStep ⟨false, true⟩) (s, l) =
      (⟨s.count + rs.length, s.duration + (rs.map MatchIn.duration).sum, s.trackPoints + (rs.map MatchIn.trackPoints).sum,
        s.preparedPoints + (rs.map MatchIn.preparedPoints).sum, s.edges + (rs.map fun r => (r.parts.map Prod.fst).sum).sum,
        s.combinations + (rs.map fun r => (r.parts.map Prod.snd).sum).sum⟩,
      l ++ (rs.zipIdx (s.count + 1)).map fun x => .line x.2 (matchNumbers x.1)) := by
  induction rs with
  | nil => intro s l; simp
  | cons r rs ih =>
    intro s l
    rw [List.map_cons, List.foldl_cons, matchTask_numbers]
    have h : matchStep ⟨false, true⟩ (s, l) (matchNumbers r) =
      (⟨s.count + 1, s.duration + r.duration, s.trackPoints + r.trackPoints, s.preparedPoints + r.preparedPoints,
        s.edges + (r.parts.map Prod.fst).sum, s.combinations + (r.parts.map Prod.snd).sum⟩,
        l ++ [.line (s.count + 1) (matchNumbers r)]) := rfl
    rw [h, ih]
    simp only [List.length_cons, List.map_cons, List.sum_cons, List.zipIdx_cons, List.append_assoc, List.singleton_append, add_assoc,
      Nat.add_comm rs.length 1]

/-- **C84, matches.**  With messages wanted, one line for each match, numbered from one, with its numbers, then a line with the
number of matches and the sums of all numbers; none of these without matches. -/
theorem matches_reported [AddCommMonoid R] (rs : List (MatchIn R)) : matchLines ⟨false, true⟩ rs =
    ((rs.zipIdx 1).map fun x => .line x.2 (matchNumbers x.1)) ++ (if rs = [] then [] else
      [.summary ⟨rs.length, (rs.map MatchIn.duration).sum, (rs.map MatchIn.trackPoints).sum, (rs.map MatchIn.preparedPoints).sum,
        (rs.map fun r => (r.parts.map Prod.fst).sum).sum, (rs.map fun r => (r.parts.map Prod.snd).sum).sum⟩]) := by
  unfold matchLines matchEnd
  rw [matches_fold]
  cases rs with
  | nil => rfl
  | cons r rs => simp [Flags.active]

/-- **C84, matches on the console.** -/
theorem matches_console [AddCommMonoid R] (verbose : Bool) (rs : List (MatchIn R)) :
    matchLines ⟨true, verbose⟩ rs = ((rs.map MatchIn.wkt).filter fun s => !s.isEmpty).map .text ∧ matchLines ⟨false, false⟩ rs = [] := by
  have h1 : ∀ (rs : List (MatchIn R)) (s : MatchSums R) (l : List (MatchLine R)),
      (rs.map (matchTask ⟨true, verbose⟩)).foldl (matchStep ⟨true, verbose⟩) (s, l) =
        (s, l ++ ((rs.map MatchIn.wkt).filter fun s => !s.isEmpty).map .text) := by
    intro rs
    induction rs with
    | nil => intro s l; simp
    | cons r rs ih =>
      intro s l
      rw [List.map_cons, List.foldl_cons]
      have h : matchStep ⟨true, verbose⟩ (s, l) (matchTask ⟨true, verbose⟩ r) =
          (s, l ++ (if !r.wkt.isEmpty then [r.wkt] else []).map .text) := by
        simp [matchStep, matchTask, printText, Flags.active]
      rw [h, ih, List.map_cons, List.filter_cons]
      split_ifs <;> simp
  have h2 : ∀ (rs : List (MatchIn R)) (s : MatchSums R × List (MatchLine R)),
      (rs.map (matchTask ⟨false, false⟩)).foldl (matchStep ⟨false, false⟩) s = s := by
    intro rs
    induction rs with
    | nil => intro s; rfl
    | cons r rs ih => intro s; rw [List.map_cons, List.foldl_cons]; exact ih s
  unfold matchLines
  rw [h1, h2]
  exact ⟨by simp [matchEnd], rfl⟩

example : matchLines ⟨false, true⟩ [⟨"a", "x", 9, 7, [(3, 4), (1, 2)], false, (1 : Rat)⟩, ⟨"b", "y", 5, 5, [(1, 1)], true, 2⟩] =
    [.line 1 ⟨"a", "", 9, 7, 4, 6, false, 1⟩, .line 2 ⟨"b", "", 5, 5, 1, 1, true, 2⟩, .summary ⟨2, 3, 14, 12, 5, 7⟩] := by
  decide +kernel

/-! ### Comparisons -/

variable [Field R] [LinearOrder R] [IsStrictOrderedRing R]

/-- The numbers printed for a comparison. -/
def compareNumbers (r : CompareIn R S) : CompareTask R :=
  ⟨r.id, "", "", "", r.matchPoints, r.truthPoints, r.duration, r.matchLength.getD 0, r.truthLength.getD 0, r.correctFraction,
    r.errorFraction, r.correct, r.errorAdded, r.errorMissed⟩

/-- The sums over all comparisons; the sum of the errors is infinite if one is. -/
structure Totals (rs : List (CompareIn R S)) (s : Sums R) : Prop where
  count : s.count = rs.length
  duration : s.duration = (rs.map CompareIn.duration).sum
  truthPoints : s.truthPoints = (rs.map CompareIn.truthPoints).sum
  matchPoints : s.matchPoints = (rs.map CompareIn.matchPoints).sum
  matchLength : s.matchLength = (rs.map fun r => r.matchLength.getD 0).sum
  truthLength : s.truthLength = (rs.map fun r => r.truthLength.getD 0).sum
  correctFraction : s.correctFraction = (rs.map CompareIn.correctFraction).sum
  finite : ∀ l : List R, rs.map CompareIn.errorFraction = l.map some → s.errorFraction = some l.sum
  infinite : (∃ r ∈ rs, r.errorFraction = none) → s.errorFraction = none
  correct : s.correct = (rs.map CompareIn.correct).sum
  errorAdded : s.errorAdded = (rs.map CompareIn.errorAdded).sum
  errorMissed : s.errorMissed = (rs.map CompareIn.errorMissed).sum

theorem compares_fold (wkt : S → String) (rs : List (CompareIn R S)) : ∀ (before : List (CompareIn R S)) (s : Sums R)
    (l : List (CompareLine R)), Totals before s → ∃ s', Totals (before ++ rs) s' ∧
    (rs.map (compareTask ⟨false, true⟩ wkt)).foldl (compareStep ⟨false, true⟩) (s, l) =
      (s', l ++ (rs.zipIdx (before.length + 1)).map fun x => .line x.2 (compareNumbers x.1)) := by
  induction rs with
  | nil => intro before s l h; exact ⟨s, by simpa using h, by simp⟩
  | cons r rs ih =>
    intro before s l h
    rw [List.map_cons, List.foldl_cons]
    have hs : compareStep ⟨false, true⟩ (s, l) (compareTask ⟨false, true⟩ wkt r) =
      (s.add (compareNumbers r), l ++ [.line (s.count + 1) (compareNumbers r)]) := rfl
    have ht : Totals (before ++ [r]) (s.add (compareNumbers r)) := by
      constructor
      · simp [Sums.add, h.count]
      · simp [Sums.add, h.duration, compareNumbers]
      · simp [Sums.add, h.truthPoints, compareNumbers]
      · simp [Sums.add, h.matchPoints, compareNumbers]
      · simp [Sums.add, h.matchLength, compareNumbers]
      · simp [Sums.add, h.truthLength, compareNumbers]
      · simp [Sums.add, h.correctFraction, compareNumbers]
      · intro e he
        rw [List.map_append] at he
        obtain ⟨e1, e2, rfl, h1, h2⟩ := List.append_eq_map_iff.1 he
        obtain ⟨x, rfl⟩ : ∃ x, e2 = [x] := by
          have := congrArg List.length h2
          simp only [List.length_map, List.length_cons, List.length_nil] at this
          exact List.length_eq_one_iff.1 this
        simp only [List.map_cons, List.map_nil, List.cons.injEq, and_true] at h2
        simp [Sums.add, h.finite e1 h1.symm, compareNumbers, ← h2, addInf]
      · rintro ⟨q, hq, hn⟩
        rcases List.mem_append.1 hq with hq | hq
        · simp [Sums.add, h.infinite ⟨q, hq, hn⟩, addInf]
        · rw [List.mem_singleton] at hq
          subst hq
          simp only [Sums.add, compareNumbers, hn]
          cases s.errorFraction <;> rfl
      · simp [Sums.add, h.correct, compareNumbers]
      · simp [Sums.add, h.errorAdded, compareNumbers]
      · simp [Sums.add, h.errorMissed, compareNumbers]
    obtain ⟨s', h1, h2⟩ := ih (before ++ [r]) _ (l ++ [.line (s.count + 1) (compareNumbers r)]) ht
    refine ⟨s', by simpa using h1, ?_⟩
    rw [hs, h2, h.count]
    simp

/-- **C84, comparisons.**  With messages wanted, one line for each comparison, numbered from one, with its numbers, then a line
with the number of comparisons, the sums of all numbers, the means, and the weighted means; none of these without comparisons. -/
theorem compares_reported (wkt : S → String) (rs : List (CompareIn R S)) : ∃ s : Sums R, Totals rs s ∧
    compareLines ⟨false, true⟩ wkt rs = ((rs.zipIdx 1).map fun x => .line x.2 (compareNumbers x.1)) ++
      (if rs = [] then [] else [.summary ⟨s, (rs.map CompareIn.correctFraction).sum / rs.length, weightedCorrect s,
        s.errorFraction.map (· / rs.length), weightedError s⟩]) := by
  obtain ⟨s, h1, h2⟩ := compares_fold wkt rs [] (Sums.none : Sums R) [] (by
    constructor <;> try rfl
    · intro l hl
      have : l = [] := by simpa using hl.symm
      subst this
      rfl
    · simp)
  refine ⟨s, h1, ?_⟩
  unfold compareLines compareEnd
  rw [h2]
  rw [List.nil_append] at h1
  simp only [h1.count, List.nil_append, List.length_nil]
  cases rs with
  | nil => rfl
  | cons r rs =>
    rw [if_pos (by simp [Flags.active]), if_neg (by simp)]
    simp only [summary, h1.count, h1.correctFraction]

theorem totals_unique {rs rs' : List (CompareIn R S)} (hp : rs.Perm rs') {s s' : Sums R} (h : Totals rs s) (h' : Totals rs' s') :
    s = s' := by
  have he : s.errorFraction = s'.errorFraction := by
    by_cases hi : ∃ r ∈ rs, r.errorFraction = none
    · rw [h.infinite hi]
      obtain ⟨r, h1, h2⟩ := hi
      rw [h'.infinite ⟨r, hp.mem_iff.1 h1, h2⟩]
    · have hf : ∀ r ∈ rs, r.errorFraction = some (r.errorFraction.getD 0) := by
        intro r hr
        cases hx : r.errorFraction with
        | none => exact absurd ⟨r, hr, hx⟩ hi
        | some x => rfl
      have hf' : ∀ r ∈ rs', r.errorFraction = some (r.errorFraction.getD 0) := fun r hr => hf r (hp.mem_iff.2 hr)
      rw [h.finite (rs.map fun r => r.errorFraction.getD 0) (by rw [List.map_map]; exact List.map_congr_left hf),
        h'.finite (rs'.map fun r => r.errorFraction.getD 0) (by rw [List.map_map]; exact List.map_congr_left hf'),
        (hp.map _).sum_eq]
  cases s; cases s'
  simp only [Sums.mk.injEq]
  refine ⟨?_, ?_, ?_, ?_, ?_, ?_, ?_, he, ?_, ?_, ?_⟩
  · exact h.count.trans (hp.length_eq.trans h'.count.symm)
  · exact h.duration.trans ((hp.map _).sum_eq.trans h'.duration.symm)
  · exact h.truthPoints.trans ((hp.map _).sum_eq.trans h'.truthPoints.symm)
  · exact h.matchPoints.trans ((hp.map _).sum_eq.trans h'.matchPoints.symm)
  · exact h.matchLength.trans ((hp.map _).sum_eq.trans h'.matchLength.symm)
  · exact h.truthLength.trans ((hp.map _).sum_eq.trans h'.truthLength.symm)
  · exact h.correctFraction.trans ((hp.map _).sum_eq.trans h'.correctFraction.symm)
  · exact h.correct.trans ((hp.map _).sum_eq.trans h'.correct.symm)
  · exact h.errorAdded.trans ((hp.map _).sum_eq.trans h'.errorAdded.symm)
  · exact h.errorMissed.trans ((hp.map _).sum_eq.trans h'.errorMissed.symm)

/-- **C84, any order.**  The last line does not depend on the order in which the comparisons end (in exact arithmetic). -/
theorem compares_order (wkt : S → String) {rs rs' : List (CompareIn R S)} (hp : rs.Perm rs') :
    (compareLines ⟨false, true⟩ wkt rs).getLast? = (compareLines ⟨false, true⟩ wkt rs').getLast? := by
  obtain ⟨s, h1, h2⟩ := compares_reported wkt rs
  obtain ⟨s', h1', h2'⟩ := compares_reported wkt rs'
  have hs := totals_unique hp h1 h1'
  subst hs
  rw [h2, h2']
  by_cases hn : rs = []
  · subst hn
    have h3 : rs' = [] := hp.nil_eq.symm
    subst h3
    rfl
  · have hn' : rs' ≠ [] := fun h => hn (by rw [h] at hp; exact hp.eq_nil)
    rw [if_neg hn, if_neg hn', List.getLast?_concat, List.getLast?_concat, hp.length_eq, (hp.map CompareIn.correctFraction).sum_eq]

theorem printText_pos {f : Flags} {t : String} (hf : f.active = true) (h : t ≠ "") : printText f t = [t] := by
  unfold printText
  rw [if_pos]
  rw [hf, Bool.true_and, Bool.not_eq_true', ← Bool.not_eq_true, String.isEmpty_iff]
  exact h

theorem compareText_ne (t : CompareTask R) : compareText t ≠ "" := by
  intro h
  have := congrArg String.length h
  unfold compareText at this
  simp only [String.length_append] at this
  have h2 : "\n".length = 1 := rfl
  have h3 : "".length = 0 := rfl
  omega

theorem wktLines_join (wkt : S → String) (l : List S) : wktLines wkt l = String.join (l.map fun x => wkt x ++ "\n") := by
  unfold wktLines String.join
  rw [List.foldl_map]
  congr 1
  funext a b
  rw [String.append_assoc]

/-- **C84, comparisons on the console.**  Their texts in order and nothing else. -/
theorem compares_console (verbose : Bool) (wkt : S → String) (rs : List (CompareIn R S)) :
    compareLines ⟨true, verbose⟩ wkt rs = rs.map (fun r => .text ("Comparison '" ++ r.id ++ "':\nCorrects:\n" ++ String.join (r.corrects.map fun x => wkt x ++ "\n") ++
      "Error Adds:\n" ++ String.join (r.adds.map fun x => wkt x ++ "\n") ++ "Error Misses:" ++ String.join (r.misses.map fun x => wkt x ++ "\n") ++ "\n")) ∧
    compareLines (R := R) ⟨false, false⟩ wkt rs = [] := by
  have h1 : ∀ (rs : List (CompareIn R S)) (s : Sums R) (l : List (CompareLine R)),
      (rs.map (compareTask ⟨true, verbose⟩ wkt)).foldl (compareStep ⟨true, verbose⟩) (s, l) =
        (s, l ++ rs.map (fun r => .text ("Comparison '" ++ r.id ++ "':\nCorrects:\n" ++ String.join (r.corrects.map fun x => wkt x ++ "\n") ++
      "Error Adds:\n" ++ String.join (r.adds.map fun x => wkt x ++ "\n") ++ "Error Misses:" ++ String.join (r.misses.map fun x => wkt x ++ "\n") ++ "\n"))) := by
    intro rs
    induction rs with
    | nil => intro s l; simp
    | cons r rs ih =>
      intro s l
      rw [List.map_cons, List.foldl_cons]
      have h : compareStep ⟨true, verbose⟩ (s, l) (compareTask ⟨true, verbose⟩ wkt r) =
          (s, l ++ [.text ("Comparison '" ++ r.id ++ "':\nCorrects:\n" ++ String.join (r.corrects.map fun x => wkt x ++ "\n") ++
      "Error Adds:\n" ++ String.join (r.adds.map fun x => wkt x ++ "\n") ++ "Error Misses:" ++ String.join (r.misses.map fun x => wkt x ++ "\n") ++ "\n")]) := by
        have h3 : compareStep ⟨true, verbose⟩ (s, l) (compareTask ⟨true, verbose⟩ wkt r) =
          (s, l ++ (printText ⟨true, verbose⟩ (compareText (compareTask ⟨true, verbose⟩ wkt r))).map .text) := rfl
        rw [h3, printText_pos rfl (compareText_ne _), ← wktLines_join, ← wktLines_join, ← wktLines_join]
        rfl
      rw [h, ih]
      simp
  have h2 : ∀ (rs : List (CompareIn R S)) (s : Sums R × List (CompareLine R)),
      (rs.map (compareTask ⟨false, false⟩ wkt)).foldl (compareStep ⟨false, false⟩) s = s := by
    intro rs
    induction rs with
    | nil => intro s; rfl
    | cons r rs ih => intro s; rw [List.map_cons, List.foldl_cons]; exact ih s
  unfold compareLines
  rw [h1, h2]
  exact ⟨by simp [compareEnd, Sums.none], rfl⟩

/-- **C84, false in general.**  On the console every title is to stand on a line of its own; that of the missed parts does not. -/
theorem misses_title_fails : ∃ t : CompareTask Rat, "\nCorrects:\n".toList <:+: (compareText t).toList ∧
    "\nError Adds:\n".toList <:+: (compareText t).toList ∧ ¬ "\nError Misses:\n".toList <:+: (compareText t).toList :=
  ⟨⟨"a", "x\n", "y\n", "z\n", 0, 0, 0, 0, 0, 0, none, 0, 0, 0⟩, by decide +kernel, by decide +kernel, by decide +kernel⟩

/-! ### Weighted means -/

/-- **C84, range.**  The weighted correct fraction is between 0 and 1, and 1 without errors. -/
theorem weighted_range (s : Sums R) : 0 ≤ weightedCorrect s ∧ weightedCorrect s ≤ 1 ∧
    (s.errorAdded = 0 → s.errorMissed = 0 → weightedCorrect s = 1 ∧ weightedError s = some 0) := by
  refine ⟨?_, ?_, ?_⟩
  · unfold weightedCorrect
    by_cases h : weightedError s = some 0
    · rw [if_pos h]; exact zero_le_one
    · rw [if_neg h]; exact le_min zero_le_one (le_max_left _ _)
  · unfold weightedCorrect
    by_cases h : weightedError s = some 0
    · rw [if_pos h]
    · rw [if_neg h]; exact min_le_left _ _
  · intro h1 h2
    have h : weightedError s = some 0 := by
      unfold weightedError
      rw [if_neg (by simp [h1, h2])]
    exact ⟨by unfold weightedCorrect; rw [if_pos h], h⟩

/-- **C84, one comparison.**  For a single comparison both means are the fractions of that comparison.  Left out are lines
that have segments but no length if the other line has none (`weighted_single_fails`). -/
theorem weighted_single_partial {P : Type} [LinearOrder P] (T : Compare.Tools P R) (a b : List (P × P)) (gt cmp : Option R)
    (hgt : a ≠ [] → b = [] → 0 < gt.getD 0) (hcmp : a = [] → b ≠ [] → 0 < cmp.getD 0) (hgt0 : a = [] → gt.getD 0 = 0)
    (hcmp0 : b = [] → cmp.getD 0 = 0) {res : Compare.Result P R}
    (h : Compare.compare T a b gt cmp = .ok res) (r : CompareIn R S) (hr1 : r.correctFraction = res.correctFraction)
    (hr2 : r.errorFraction = res.errorFraction) (hr3 : r.correct = res.correct) (hr4 : r.errorAdded = res.errorAdded)
    (hr5 : r.errorMissed = res.errorMissed) (hr6 : r.truthLength = gt) (hr7 : r.matchLength = cmp) (wkt : S → String) :
    ∃ s : Sums R, compareLines ⟨false, true⟩ wkt [r] = [.line 1 (compareNumbers r),
      .summary ⟨s, res.correctFraction, res.correctFraction, res.errorFraction, res.errorFraction⟩] := by
  obtain ⟨s, h1, h2⟩ := compares_reported (R := R) wkt [r]
  have e1 : s.matchLength = cmp.getD 0 := by simpa [hr7] using h1.matchLength
  have e2 : s.truthLength = gt.getD 0 := by simpa [hr6] using h1.truthLength
  have e3 : s.correct = res.correct := by simpa [hr3] using h1.correct
  have e4 : s.errorAdded = res.errorAdded := by simpa [hr4] using h1.errorAdded
  have e5 : s.errorMissed = res.errorMissed := by simpa [hr5] using h1.errorMissed
  have e6 : s.errorFraction.map (· / (([r].length : Nat) : R)) = res.errorFraction := by
    cases hx : res.errorFraction with
    | none => rw [h1.infinite ⟨r, List.mem_singleton_self r, hr2.trans hx⟩]; rfl
    | some x => rw [h1.finite [x] (by simp [hr2, hx])]; simp
  have hw : weightedError s = res.errorFraction ∧ weightedCorrect s = res.correctFraction := by
    rcases Compare.compare_cases T a b gt cmp res h with ⟨ha, hb, rfl⟩ | ⟨ha, hb, rfl⟩ | ⟨ha, hb, rfl⟩ | ⟨_, _, p, _, rfl⟩
    · have := (weighted_range s).2.2 e4 e5
      exact ⟨this.2, this.1⟩
    · have hc := hcmp ha hb
      have hg := hgt0 ha
      have hwe : weightedError s = none := by
        unfold weightedError
        rw [if_pos (by left; rw [e4]; exact ne_of_gt hc), if_neg (by rw [e2, hg]; exact lt_irrefl _)]
      refine ⟨hwe, ?_⟩
      unfold weightedCorrect
      rw [if_neg (by rw [hwe]; simp), if_neg (by rw [e2, hg]; simp), if_neg (by rw [e1]; intro hx; exact ne_of_gt hc hx.2)]
      simp
    · have hg := hgt ha hb
      have hc := hcmp0 hb
      have hwe : weightedError s = some 1 := by
        unfold weightedError
        rw [if_pos (by right; rw [e5]; exact ne_of_gt hg), if_pos (by rw [e2]; exact hg), e4, e5, e2]
        simp [div_self (ne_of_gt hg)]
      refine ⟨hwe, ?_⟩
      unfold weightedCorrect
      rw [if_neg (by rw [hwe]; simp), if_neg (by rw [e1, hc]; simp), if_neg (by rw [e2]; intro hx; exact ne_of_gt hg hx.1)]
      simp
    · simp only [Compare.score] at e3 e4 e5 ⊢
      have hwe : weightedError s = Compare.errorFraction gt (Compare.total T p.adds) (Compare.total T p.misses) := by
        unfold weightedError Compare.errorFraction
        rw [e4, e5, e2]
        cases gt with
        | none => simp
        | some g => simp
      refine ⟨hwe, ?_⟩
      unfold weightedCorrect Compare.correctFraction Compare.rawCorrect
      rw [hwe, e3, e2, e1, max_comm (cmp.getD 0)]
  refine ⟨s, ?_⟩
  rw [h2, if_neg (by simp), e6, hw.1, hw.2]
  simp [hr1]

theorem sum_bounds (l : List (CompareIn R S)) (f g : CompareIn R S → R) (c : R) (h : ∀ r ∈ l, c * g r ≤ f r) :
    c * (l.map g).sum ≤ (l.map f).sum := by
  induction l with
  | nil => simp
  | cons a l ih =>
    rw [List.map_cons, List.map_cons, List.sum_cons, List.sum_cons, mul_add]
    exact add_le_add (h a List.mem_cons_self) (ih fun r hr => h r (List.mem_cons_of_mem _ hr))

theorem sum_bounds' (l : List (CompareIn R S)) (f g : CompareIn R S → R) (c : R) (h : ∀ r ∈ l, f r ≤ c * g r) :
    (l.map f).sum ≤ c * (l.map g).sum := by
  induction l with
  | nil => simp
  | cons a l ih =>
    rw [List.map_cons, List.map_cons, List.sum_cons, List.sum_cons, mul_add]
    exact add_le_add (h a List.mem_cons_self) (ih fun r hr => h r (List.mem_cons_of_mem _ hr))

theorem sum_pos (l : List (CompareIn R S)) (g : CompareIn R S → R) (hn : l ≠ []) (h : ∀ r ∈ l, 0 < g r) : 0 < (l.map g).sum := by
  cases l with
  | nil => exact absurd rfl hn
  | cons a l =>
    rw [List.map_cons, List.sum_cons]
    refine add_pos_of_pos_of_nonneg (h a List.mem_cons_self) (List.sum_nonneg ?_)
    intro x hx
    obtain ⟨r, hr, rfl⟩ := List.mem_map.1 hx
    exact le_of_lt (h r (List.mem_cons_of_mem _ hr))

/-- **C84, weighted error.**  If every ground truth has a length, the weighted error lies between the least and the greatest
error of the comparisons. -/
theorem weighted_error_mean (rs : List (CompareIn R S)) (hn : rs ≠ []) {s : Sums R} (hs : Totals rs s) (lo hi : R)
    (h : ∀ r ∈ rs, ∃ g, r.truthLength = some g ∧ 0 < g ∧ 0 ≤ r.errorAdded ∧ 0 ≤ r.errorMissed ∧
      r.errorFraction = some ((r.errorAdded + r.errorMissed) / g) ∧ lo ≤ (r.errorAdded + r.errorMissed) / g ∧
      (r.errorAdded + r.errorMissed) / g ≤ hi) :
    ∃ e, weightedError s = some e ∧ lo ≤ e ∧ e ≤ hi := by
  have hg : 0 < (rs.map fun r => r.truthLength.getD 0).sum := by
    refine sum_pos rs _ hn fun r hr => ?_
    obtain ⟨g, h1, h2, _⟩ := h r hr
    rw [h1]; exact h2
  have hsum : (rs.map CompareIn.errorAdded).sum + (rs.map CompareIn.errorMissed).sum =
      (rs.map fun r => r.errorAdded + r.errorMissed).sum := by
    rw [← List.sum_map_add]
  have h1 : lo * (rs.map fun r => r.truthLength.getD 0).sum ≤ (rs.map fun r => r.errorAdded + r.errorMissed).sum := by
    refine sum_bounds rs _ _ lo fun r hr => ?_
    obtain ⟨g, h1, h2, _, _, _, h3, _⟩ := h r hr
    rw [h1]
    exact (le_div_iff₀ h2).1 h3
  have h2 : (rs.map fun r => r.errorAdded + r.errorMissed).sum ≤ hi * (rs.map fun r => r.truthLength.getD 0).sum := by
    refine sum_bounds' rs _ _ hi fun r hr => ?_
    obtain ⟨g, h1, h2, _, _, _, _, h3⟩ := h r hr
    rw [h1]
    exact (div_le_iff₀ h2).1 h3
  have he : weightedError s = some ((s.errorAdded + s.errorMissed) / s.truthLength) := by
    unfold weightedError
    by_cases hx : s.errorAdded ≠ 0 ∨ s.errorMissed ≠ 0
    · rw [if_pos hx, if_pos (by rw [hs.truthLength]; exact hg)]
    · rw [if_neg hx]
      push Not at hx
      rw [hx.1, hx.2]
      simp
  refine ⟨_, he, ?_, ?_⟩
  · rw [hs.errorAdded, hs.errorMissed, hs.truthLength, hsum]
    exact (le_div_iff₀ hg).2 h1
  · rw [hs.errorAdded, hs.errorMissed, hs.truthLength, hsum]
    exact (div_le_iff₀ hg).2 h2

/-- **C84, weighted correct fraction.**  It is not less than the least share of correct length in the longer line.
(But it may be greater than all of them, `weighted_correct_fails`.) -/
theorem weighted_correct_partial (rs : List (CompareIn R S)) (hn : rs ≠ []) {s : Sums R} (hs : Totals rs s) (lo : R) (hlo : lo ≤ 1)
    (h : ∀ r ∈ rs, ∃ g m, r.truthLength = some g ∧ r.matchLength = some m ∧ 0 < g ∧ 0 < m ∧ lo ≤ r.correct / max g m)
    (h0 : 0 ≤ lo) : lo ≤ weightedCorrect s := by
  have hg : 0 < s.truthLength := by
    rw [hs.truthLength]
    refine sum_pos rs _ hn fun r hr => ?_
    obtain ⟨g, m, h1, _, h2, _⟩ := h r hr
    rw [h1]; exact h2
  have hm : 0 < s.matchLength := by
    rw [hs.matchLength]
    refine sum_pos rs _ hn fun r hr => ?_
    obtain ⟨g, m, _, h1, _, h2, _⟩ := h r hr
    rw [h1]; exact h2
  unfold weightedCorrect
  by_cases hw : weightedError s = some 0
  · rw [if_pos hw]; exact hlo
  · rw [if_neg hw, if_pos ⟨hg, hm⟩]
    refine le_min hlo (le_trans ?_ (le_max_right _ _))
    rw [le_div_iff₀ (lt_max_of_lt_left hm), hs.correct]
    have k1 : lo * s.matchLength ≤ (rs.map CompareIn.correct).sum := by
      rw [hs.matchLength]
      refine sum_bounds rs _ _ lo fun r hr => ?_
      obtain ⟨g, m, h1, h2, h3, h4, h5⟩ := h r hr
      rw [h2]
      exact le_trans (mul_le_mul_of_nonneg_left (le_max_right g m) h0) ((le_div_iff₀ (lt_max_of_lt_left h3)).1 h5)
    have k2 : lo * s.truthLength ≤ (rs.map CompareIn.correct).sum := by
      rw [hs.truthLength]
      refine sum_bounds rs _ _ lo fun r hr => ?_
      obtain ⟨g, m, h1, h2, h3, h4, h5⟩ := h r hr
      rw [h1]
      exact le_trans (mul_le_mul_of_nonneg_left (le_max_left g m) h0) ((le_div_iff₀ (lt_max_of_lt_left h3)).1 h5)
    rcases max_choice s.matchLength s.truthLength with h5 | h5
    · rw [h5]; exact k1
    · rw [h5]; exact k2

/-- Two comparisons: a match that misses two thirds, and one that adds two thirds. -/
def sampleCompares : List (CompareIn Rat Unit) :=
  [⟨"a", 2, 2, some 1, some 3, 1, 1 / 3, some (2 / 3), 1, 0, 2, [], [], []⟩, ⟨"b", 2, 2, some 3, some 1, 1, 1 / 3, some 2, 1, 2, 0, [], [], []⟩]

def sampleSums : Sums Rat := ⟨2, 2, 4, 4, 4, 4, 2 / 3, some (8 / 3), 2, 2, 2⟩

theorem sampleSums_total : Totals sampleCompares sampleSums := by
  constructor
  all_goals try decide +kernel
  intro l hl
  have h2 : l.length = 2 := by have := congrArg List.length hl; simpa [sampleCompares] using this.symm
  obtain ⟨a, b, rfl⟩ := List.length_eq_two.1 h2
  simp only [sampleCompares, List.map_cons, List.map_nil, List.cons.injEq, Option.some.injEq, and_true] at hl
  rw [← hl.1, ← hl.2]
  decide +kernel

example : ∃ e : Rat, weightedError sampleSums = some e ∧ 2 / 3 ≤ e ∧ e ≤ 2 :=
  weighted_error_mean sampleCompares (by decide) sampleSums_total _ _ (by
    intro r hr
    simp only [sampleCompares, List.mem_cons, List.not_mem_nil, or_false] at hr
    rcases hr with rfl | rfl
    · exact ⟨3, rfl, by decide +kernel, by decide +kernel, by decide +kernel, by decide +kernel, by decide +kernel, by decide +kernel⟩
    · exact ⟨1, rfl, by decide +kernel, by decide +kernel, by decide +kernel, by decide +kernel, by decide +kernel, by decide +kernel⟩)

example : 1 / 3 ≤ weightedCorrect sampleSums :=
  weighted_correct_partial sampleCompares (by decide) sampleSums_total _ (by decide +kernel) (by
    intro r hr
    simp only [sampleCompares, List.mem_cons, List.not_mem_nil, or_false] at hr
    rcases hr with rfl | rfl
    · exact ⟨3, 1, rfl, rfl, by decide +kernel, by decide +kernel, by decide +kernel⟩
    · exact ⟨1, 3, rfl, rfl, by decide +kernel, by decide +kernel, by decide +kernel⟩) (by decide +kernel)

/-- **C84, false in general.**  A mean, weighted or not, is not greater than the greatest value.  Of two comparisons with correct
fraction 1/3 each, the weighted mean is 1/2. -/
theorem weighted_correct_fails : ∃ s : Sums Rat, compareLines ⟨false, true⟩ (fun _ => "") sampleCompares =
    (sampleCompares.zipIdx 1).map (fun x => .line x.2 (compareNumbers x.1)) ++ [.summary ⟨s, 1 / 3, 1 / 2, some (4 / 3), some 1⟩] ∧
    ∀ r ∈ sampleCompares, r.correctFraction = 1 / 3 ∧
      r.correctFraction = Compare.correctFraction r.truthLength r.matchLength r.correct r.errorFraction :=
  ⟨sampleSums, by decide +kernel, by decide +kernel⟩

/-- Tools for comparing lines of numbers without tolerances. -/
def plainTools : Compare.Tools Nat Rat where
  simplify := id
  dist a b := if a = b then 0 else 1
  tolerance := 0
  query S _ := S
  splits _ _ := false
  len s := if s.1 = s.2 then none else some 1

/-- A ground truth 0 - 1 - 2 and a match 0 - 1 - 3: one of two segments is correct, in the means as well. -/
example : ∃ s : Sums Rat, compareLines ⟨false, true⟩ (fun _ : Unit => "")
    [⟨"a", 3, 3, some 2, some 2, 1, 1 / 2, some 1, 1, 1, 1, [], [], []⟩] =
    [.line 1 ⟨"a", "", "", "", 3, 3, 1, 2, 2, 1 / 2, some 1, 1, 1, 1⟩, .summary ⟨s, 1 / 2, 1 / 2, some 1, some 1⟩] :=
  weighted_single_partial plainTools [(0, 1), (1, 2)] [(0, 1), (1, 3)] (some 2) (some 2) (by simp) (by simp) (by simp) (by simp)
    (res := ⟨1 / 2, some 1, 1, 1, 1, ⟨[(0, 1)], [(1, 3)], [(1, 2)]⟩⟩) (by decide +kernel)
    ⟨"a", 3, 3, some 2, some 2, 1, 1 / 2, some 1, 1, 1, 1, [], [], []⟩ rfl rfl rfl rfl rfl rfl rfl _

/-- **C84, false in general.**  A match of a segment without length compared with an empty ground truth is not correct at all,
with infinite error, but the weighted means say that all is correct, without error. -/
theorem weighted_single_fails : ∃ (res : Compare.Result Nat Rat) (s : Sums Rat),
    Compare.compare plainTools [] [(0, 0)] none none = .ok res ∧ res.correctFraction = 0 ∧ res.errorFraction = none ∧
    compareLines ⟨false, true⟩ (fun _ : Unit => "") [⟨"a", 2, 0, none, none, 1, res.correctFraction, res.errorFraction, res.correct,
      res.errorAdded, res.errorMissed, [], [], []⟩] =
      [.line 1 ⟨"a", "", "", "", 2, 0, 1, 0, 0, 0, none, 0, 0, 0⟩, .summary ⟨s, 0, 1, none, some 0⟩] :=
  ⟨⟨0, none, 0, 0, 0, ⟨[], [(0, 0)], []⟩⟩, ⟨1, 1, 0, 2, 0, 0, 0, none, 0, 0, 0⟩, by decide +kernel, rfl, rfl, by decide +kernel⟩

/-! ### The file -/

theorem writeResults_rows (names : List String) (rows : List (List String)) :
    (rows.foldl (Rows.writeResult true names) ⟨false, []⟩).rows = if rows = [] then [] else names :: rows := by
  have h : ∀ (rows : List (List String)) (l : List (List String)), (rows.foldl (Rows.writeResult true names) ⟨true, l⟩).rows = l ++ rows := by
    intro rows
    induction rows with
    | nil => intro l; simp
    | cons r rows ih =>
      intro l
      rw [List.foldl_cons]
      have : Rows.writeResult true names ⟨true, l⟩ r = ⟨true, l ++ [r]⟩ := by simp [Rows.writeResult]
      rw [this, ih]
      simp
  cases rows with
  | nil => rfl
  | cons r rows =>
    rw [List.foldl_cons]
    have : Rows.writeResult true names ⟨false, []⟩ r = ⟨true, [names, r]⟩ := by simp [Rows.writeResult]
    rw [this, h]
    simp

theorem outputPath_ne {output filename : String} (h : filename ≠ "") : outputPath output filename ≠ "" := by
  unfold outputPath
  split_ifs
  · exact h
  · intro hc
    have := congrArg String.toList hc
    simp [String.toList_append] at this

/-- **C84, the file.**  Without the console, in a file that can be opened: the names of the columns and one row for each result,
whatever was there before. -/
theorem file_written (verbose : Bool) (output filename : String) (hf : filename ≠ "") (names : List String)
    (rows : List (List String)) (before : Option (List (List String))) (hr : rows ≠ []) :
    (resultFile ⟨false, verbose⟩ output filename names rows ⟨before, true⟩).content = some (names :: rows) := by
  simp only [resultFile, openFile, if_neg (outputPath_ne (output := output) hf), if_true, writeRows, Bool.false_eq_true, if_false]
  rw [writeResults_rows, if_neg hr]
  rfl

/-- **C84, where the file is.**  In the current folder if no folder is given, else in the folder; all other files stay as they are. -/
theorem file_at (verbose : Bool) (output filename : String) (hf : filename ≠ "") (names : List String)
    (rows : List (List String)) (hr : rows ≠ []) (fs : String → Disk) (hw : ∀ p, (fs p).writable = true) :
    (output = "" → (resultFiles ⟨false, verbose⟩ output filename names rows fs filename).content = some (names :: rows)) ∧
    (output ≠ "" →
      (resultFiles ⟨false, verbose⟩ output filename names rows fs (output ++ "/" ++ filename)).content = some (names :: rows)) ∧
    ∀ p, (output = "" → p ≠ filename) → (output ≠ "" → p ≠ output ++ "/" ++ filename) →
      resultFiles ⟨false, verbose⟩ output filename names rows fs p = fs p := by
  have key : (resultFile ⟨false, verbose⟩ output filename names rows (fs (outputPath output filename))).content =
      some (names :: rows) := by
    have := file_written verbose output filename hf names rows (fs (outputPath output filename)).content hr
    have e : (⟨(fs (outputPath output filename)).content, true⟩ : Disk) = fs (outputPath output filename) := by
      rw [← hw (outputPath output filename)]
    rwa [e] at this
  unfold resultFiles
  by_cases h : output = ""
  · have ho : outputPath output filename = filename := by simp [outputPath, h]
    rw [ho] at key ⊢
    exact ⟨fun _ => by simpa using key, fun hn => absurd h hn, fun p hp _ => by simp [Function.update_of_ne (hp h)]⟩
  · have ho : outputPath output filename = output ++ "/" ++ filename := by simp [outputPath, h]
    rw [ho] at key ⊢
    exact ⟨fun hn => absurd hn h, fun _ => by simpa using key, fun p _ hp => by simp [Function.update_of_ne (hp h)]⟩

example : (resultFiles ⟨false, true⟩ "out" "matches.csv" ["id"] [["a"]] (fun _ => ⟨none, true⟩) "out/matches.csv").content =
    some [["id"], ["a"]] :=
  (file_at true "out" "matches.csv" (by decide) ["id"] [["a"]] (by simp) _ (fun _ => rfl)).2.1 (by decide)

/-- **C84, the file of tracks.**  Identifier and line of every track. -/
theorem tracks_file (verbose : Bool) (output filename : String) (hf : filename ≠ "") (rs : List TrackIn) (hr : rs ≠ [])
    (before : Option (List (List String))) :
    (trackFile ⟨false, verbose⟩ output filename rs ⟨before, true⟩).content = some (["id", "track"] :: rs.map fun r => [r.id, r.wkt]) := by
  have h1 : Rows.columnNames "id,track" = ["id", "track"] := by decide +kernel
  unfold trackFile
  rw [file_written verbose output filename hf _ _ _ (by simpa using hr), h1]
  simp only [openFile, if_neg (outputPath_ne (output := output) hf), if_true]
  rfl

example : (trackFile ⟨false, true⟩ "out" "tracks.csv" [⟨"a", "LINESTRING(0 0,1 1)", 2⟩] ⟨some [["old"]], true⟩).content =
    some [["id", "track"], ["a", "LINESTRING(0 0,1 1)"]] :=
  tracks_file true "out" "tracks.csv" (by decide) _ (by simp) _

/-- **C84, the file and the console.**  With the console no result is written to the file. -/
theorem console_no_rows (verbose : Bool) (output filename : String) (names : List String) (rows : List (List String)) (d : Disk) :
    (resultFile ⟨true, verbose⟩ output filename names rows d).content = d.content ∨
    (resultFile ⟨true, verbose⟩ output filename names rows d).content = some [] := by
  simp only [resultFile, openFile, writeRows, if_true]
  split_ifs <;> first | exact .inl rfl | exact .inr rfl | simp_all

/-- **C84, false in general.**  The console is said to override the files of results.  But a file of an earlier run, of the default
name in the current folder if no folder is given, is emptied. -/
theorem console_fails (verbose : Bool) (names : List String) (rows old : List (List String)) :
    (resultFile ⟨true, verbose⟩ "" "matches.csv" names rows ⟨some old, true⟩).content = some [] := by
  simp only [resultFile, openFile, writeRows, if_neg (outputPath_ne (output := "") (filename := "matches.csv") (by decide)), if_true]
  rfl

/-- **C84, false in general.**  If the file cannot be opened (no permission, a missing folder in its name), all results are lost, and
without messages wanted no line about any of them is printed. -/
theorem file_lost_fails (output filename : String) (names : List String) (rows : List (List String)) (before : Option (List (List String)))
    (rs : List (MatchIn Rat)) : (resultFile ⟨false, false⟩ output filename names rows ⟨before, false⟩).content = before ∧
      matchLines ⟨false, false⟩ rs = [] := by
  refine ⟨?_, (matches_console false rs).2⟩
  simp only [resultFile, openFile, writeRows]
  split_ifs <;> first | rfl | simp_all

/-- **C84, false in general.**  Without results the file has not even the names of the columns. -/
theorem no_header_fails (verbose : Bool) (names : List String) (before : Option (List (List String))) :
    (resultFile ⟨false, verbose⟩ "out" "matches.csv" names [] ⟨before, true⟩).content = some [] := by
  simp only [resultFile, openFile, writeRows, if_neg (outputPath_ne (output := "out") (filename := "matches.csv") (by decide)), if_true]
  rfl

end MM.Report
