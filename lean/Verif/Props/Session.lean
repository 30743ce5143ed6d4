import Verif.Model.Session
import Verif.Props.TwoRuns
import Verif.Props.Recorded
import Verif.Props.Rows
import Verif.Props.Lifetime
import Verif.Props.TrackFiles
import Verif.Props.ExportEdges

/-!
# C114: a session from files to rows
-/

set_option autoImplicit false
set_option linter.unusedSectionVars false

namespace MM.Session

open Relation MM.Line MM.Route MM.Matcher MM.Pipe MM.TwoRuns MM.Prepare MM.MatchRoute

variable {T P : Type} [DecidableEq P] [Inhabited P]

/-! ### One task -/

theorem waits_good {α : Type} (good : α → Prop) {stop : α} (hs : good stop) (n : Nat) {m : Matcher.Asks α}
    (hm : ∀ c : Clock ℝ, good (exec m c).1) : ∀ c : Clock ℝ, good (exec (waits stop n m) c).1 := by
  induction n with
  | zero => exact hm
  | succ n ih =>
    intro c
    rw [waits, exec]
    cases c.ask.1 with
    | true => exact hs
    | false => simpa using ih c.ask.2

/-- A part that can be matched is prepared without an exception, whatever the clock says. -/
theorem set_ok {w : Rig Nat P ℝ ℝ} {u : List P} {r : Route P} (h : w.alone u = .ok r) (c : Clock ℝ) :
    ∃ s, (exec (w.set u) c).1 = .ok s := by
  unfold Rig.alone Prep.line at h
  unfold Rig.set
  revert c
  cases h1 : w.prep.first u with
  | throws => rw [h1] at h; simp at h
  | ub => rw [h1] at h; simp at h
  | ok a =>
    rw [h1, Outcome.bind_ok] at h
    refine waits_good (fun o : Pipe.State P ℝ => ∃ s, o = .ok s) ⟨_, rfl⟩ _ ?_
    cases h2 : w.prep.second a with
    | throws => rw [h2] at h; simp at h
    | ub => rw [h2] at h; simp at h
    | ok b =>
      rw [h2, Outcome.bind_ok] at h
      refine waits_good (fun o : Pipe.State P ℝ => ∃ s, o = .ok s) ⟨_, rfl⟩ _ ?_
      cases h3 : w.prep.third b with
      | throws => rw [h3] at h; simp at h
      | ub => rw [h3] at h; simp at h
      | ok l =>
        rw [h3, Outcome.bind_ok] at h
        refine waits_good (fun o : Pipe.State P ℝ => ∃ s, o = .ok s) ⟨_, rfl⟩ _ ?_
        refine waits_good (fun o : Pipe.State P ℝ => ∃ s, o = .ok s) ⟨_, rfl⟩ _ ?_
        cases h4 : w.sought l with
        | throws => rw [h4] at h; simp at h
        | ub => rw [h4] at h; simp at h
        | ok cs =>
          refine waits_good (fun o : Pipe.State P ℝ => ∃ s, o = .ok s) ⟨_, rfl⟩ _ ?_
          exact waits_good (fun o : Pipe.State P ℝ => ∃ s, o = .ok s) ⟨_, rfl⟩ _ fun c => ⟨_, rfl⟩

/-- What is collected of a part: everything, or no policy. -/
def Got (w : Rig Nat P ℝ ℝ) (us : List (List P)) (q : Pipe.State P ℝ × List Router.Entry) : Prop :=
  ∃ u ∈ us, q = full w.engine u ∨ (q.2 = [] ∧ ∃ c : Clock ℝ, q.1 = (exec (w.set u) c).1)

theorem part_state (w : Rig Nat P ℝ ℝ) (u : List P) (c : Clock ℝ) : (matchPart w.engine u c).1.1 = (exec (w.set u) c).1 := by
  unfold matchPart
  split_ifs <;> rfl

theorem loop_got (w : Rig Nat P ℝ ℝ) (x : Export P) (us : List (List P)) :
    ∀ (vs : List (List P)) (k : Collected (Pipe.State P ℝ) (List Router.Entry) P) (c : Clock ℝ), Fresh c → (∀ v ∈ vs, v ∈ us) →
      k.prepared.length = k.policies.length → (∀ q ∈ k.prepared.zip k.policies, Got w us q) →
      ∀ q ∈ (matchLoop w.engine x vs k c).prepared.zip (matchLoop w.engine x vs k c).policies, Got w us q := by
  intro vs
  induction vs with
  | nil => intro k c _ _ _ hk; exact hk
  | cons v vs ih =>
    intro k c hc hv hl hk
    have hadd : ∀ q ∈ (k.add w.engine x (matchPart w.engine v c).1.1 (matchPart w.engine v c).1.2).prepared.zip
        (k.add w.engine x (matchPart w.engine v c).1.1 (matchPart w.engine v c).1.2).policies, Got w us q := by
      intro q hq
      simp only [Collected.add] at hq
      rw [List.zip_append hl, List.mem_append] at hq
      rcases hq with hq | hq
      · exact hk q hq
      · simp only [List.zip_cons_cons, List.zip_nil_right, List.mem_singleton] at hq
        refine ⟨v, hv v (by simp), ?_⟩
        rcases part_decided (rig_decided w) v hc with h | h
        · left; rw [hq, h]
        · right
          rw [hq]
          exact ⟨h, c, part_state w v c⟩
    rw [matchLoop]
    split_ifs with hr
    · exact hadd
    · rcases part_cases w.engine v hc with h | ⟨_, h2⟩
      · exact absurd (reached_of h) hr
      · exact ih _ _ (reached_fresh h2).2 (fun a ha => hv a (List.mem_cons_of_mem _ ha)) (by simp [Collected.add, hl]) hadd

theorem full_state {w : Rig Nat P ℝ ℝ} {u : List P} {r : Route P} (h : w.alone u = .ok r) :
    ∃ l cs, w.prep.line u = .ok l ∧ (full w.engine u).1 = .ok (l, cs) ∧
      candidatesRoute (w.job l cs).setting (full w.engine u).2 = .ok r := by
  have hset := calm_set w u
  unfold Rig.alone at h
  cases hl : w.prep.line u with
  | throws => rw [hl] at h; simp at h
  | ub => rw [hl] at h; simp at h
  | ok l =>
    rw [hl, Outcome.bind_ok] at h
    rw [hl, Outcome.bind_ok] at hset
    cases hc : w.sought l with
    | throws => rw [hc] at h; simp at h
    | ub => rw [hc] at h; simp at h
    | ok cs =>
      rw [hc, Outcome.bind_ok, Job.run] at h
      rw [hc, Outcome.map_ok] at hset
      refine ⟨l, cs, rfl, hset, ?_⟩
      show candidatesRoute _ (calm (w.learn (calm (w.set u)))) = _
      rw [hset, Rig.learn, calm_waits, calm]
      exact h

theorem prepared_ok {w : Rig Nat P ℝ ℝ} {us : List (List P)} {alone : List P → Route P} (h : ∀ u ∈ us, w.alone u = .ok (alone u)) :
    ∀ qs : List (Pipe.State P ℝ × List Router.Entry), (∀ q ∈ qs, Got w us q) → ∃ ps, prepared w qs = .ok ps := by
  intro qs
  induction qs with
  | nil => intro _; exact ⟨[], rfl⟩
  | cons q qs ih =>
    intro hq
    obtain ⟨ps, hps⟩ := ih fun q h => hq q (List.mem_cons_of_mem _ h)
    obtain ⟨u, hu, hg⟩ := hq q (by simp)
    obtain ⟨s, p⟩ := q
    rcases hg with hg | ⟨hg, c, hs⟩
    · obtain ⟨l, cs, _, h2, h3⟩ := full_state (h u hu)
      rw [← hg] at h2 h3
      simp only at h2 h3
      rw [h2, prepared, h3, Outcome.bind_ok, hps]
      exact ⟨_, rfl⟩
    · obtain ⟨⟨l, cs⟩, h2⟩ := set_ok (h u hu) c
      simp only at hg hs
      rw [hs, h2, hg, prepared, empty_bad, Outcome.bind_ok, hps]
      exact ⟨_, rfl⟩

theorem prepared_full {w : Rig Nat P ℝ ℝ} {alone : List P → Route P} : ∀ us : List (List P),
    (∀ u ∈ us, (∃ l, w.prep.line u = .ok l ∧ Drawn w.prep u l) ∧ w.alone u = .ok (alone u)) →
    ∃ ps, prepared w (us.map (full w.engine)) = .ok ps ∧ List.Forall₂ (Drawn w.prep) us ps := by
  intro us
  induction us with
  | nil => intro _; exact ⟨[], rfl, .nil⟩
  | cons u us ih =>
    intro h
    obtain ⟨ps, h1, h2⟩ := ih fun u hu => h u (List.mem_cons_of_mem _ hu)
    obtain ⟨⟨l, h3, h4⟩, h5⟩ := h u (by simp)
    obtain ⟨l', cs, h6, h7, h8⟩ := full_state h5
    rw [h3, Outcome.ok.injEq] at h6
    subst h6
    refine ⟨l :: ps, ?_, .cons h4 h2⟩
    rw [List.map_cons, show full w.engine u = ((full w.engine u).1, (full w.engine u).2) from rfl, h7, prepared, h8, Outcome.bind_ok, h1,
      Outcome.map_ok]

theorem multi_length {R A : Type} [AddCommMonoid R] {G : Geo P R A} (hG : Adds G) (ls : List (List P)) :
    (MultiLine.length G ls).getD 0 = segmentSum G.len ls := by
  unfold MultiLine.length MultiLine.total
  rw [List.filterMap_map, Function.id_comp, ← filterMap_sum hG]
  split_ifs with h
  · rw [List.isEmpty_iff.1 h]; rfl
  · rw [Option.getD_some, hG.1, hG.2, foldl_add, zero_add]

/-- The segments that lead somewhere. -/
def going (ls : List (List P)) : List (P × P) := (ls.flatMap segs).filter fun s => decide (s.1 ≠ s.2)

theorem going_append (a b : List (List P)) : going (a ++ b) = going a ++ going b := by
  unfold going; rw [List.flatMap_append, List.filter_append]

theorem going_moves (rs : List (Route P)) : going ((rs.filter moves).flatMap Route.lines) = rs.flatMap fun r => going r.lines := by
  induction rs with
  | nil => rfl
  | cons r rs ih =>
    rw [List.flatMap_cons, List.filter_cons]
    by_cases hm : moves r = true
    · rw [if_pos hm, List.flatMap_cons, going_append, ih]
    · rw [if_neg hm, ih]
      have : going r.lines = [] := by
        unfold going
        rw [List.filter_eq_nil_iff]
        intro s hs
        obtain ⟨l, hl, hs⟩ := List.mem_flatMap.1 hs
        intro hne
        exact hm (List.any_eq_true.2 ⟨l, hl, List.any_eq_true.2 ⟨s, hs, hne⟩⟩)
      rw [this, List.nil_append]

/-- What a row should say of its task: identifier, track and duration; `aborted` only if the clock passed the limit; a match whose
segments are roads and which consists of the matches of the first parts (of all if not aborted), each as if it were the only one;
if not aborted, the lines drawn from the parts and the identifiers of the edges of all parts; lengths are sums over segments. -/
structure Right (m : Matching P) (alone : List P → Route P) (Road : P → P → Prop) (t : Task P) (r : Rows.MatchResult ℝ) : Prop where
  id : r.id = t.id
  track : r.trackWkt = m.out.text t.parts
  trackLength : r.trackLength.getD 0 = segmentSum m.rig.hunt.env.G.len t.parts
  duration : r.duration = t.duration
  late : r.aborted = true → 0 < m.max ∧ ∃ k, m.max ≤ t.reading k - t.reading 0
  ids : r.aborted = false → r.edgeIds = (t.parts.flatMap fun u => if m.exported.ids then m.exported.idsOf (m.exported.list (alone u)) else []).map toString
  prepared : ∃ ps, r.preparedWkt = m.out.text ps ∧ r.preparedLength.getD 0 = segmentSum m.rig.hunt.env.G.len ps ∧
    (r.aborted = false → List.Forall₂ (Drawn m.rig.prep) t.parts ps)
  matched : ∃ ls pre post, r.matchWkt = m.out.text ls ∧ r.matchLength.getD 0 = segmentSum m.rig.hunt.env.G.len ls ∧
    t.parts = pre ++ post ∧ (r.aborted = false → post = []) ∧ going ls = (pre.flatMap fun u => going (alone u).lines) ∧
    ∀ s ∈ going ls, Road s.1 s.2

/-- **C114, one task.** -/
theorem task_right {m : Matching P} {alone : List P → Route P} {Road : P → P → Prop} {t : Task P} (hG : Adds m.rig.hunt.env.G)
    (hx : m.exported.edges = false)
    (h : ∀ u ∈ t.parts, (∃ l, m.rig.prep.line u = .ok l ∧ Drawn m.rig.prep u l) ∧ m.rig.alone u = .ok (alone u) ∧
      (alone u = Route.bad ∨ Sound m.rig.Refers (alone u)) ∧ ∀ s ∈ going (alone u).lines, Road s.1 s.2) :
    ∃ r, m.execute t = .ok r ∧ Right m alone Road t r := by
  have halone : ∀ u ∈ t.parts, m.rig.alone u = .ok (alone u) := fun u hu => (h u hu).2.1
  obtain ⟨pre, post, tail, h1, h2, h3, h4, h5⟩ := recorded_prefix (w := m.rig) hx halone m.max t.reading
  obtain ⟨r, k1, _, _, k4⟩ := matched_lines m.next (net := m.rig.Refers) (rs := pre.map alone) (tail := tail) (by
    intro r hr
    obtain ⟨u, hu, rfl⟩ := List.mem_map.1 hr
    exact (h u (by rw [h1]; exact List.mem_append_left _ hu)).2.2.1) h3
  rw [← h2] at k1
  obtain ⟨ls, k5, k6⟩ := ExportEdges.multiLine_segs r
  obtain ⟨ps, k7⟩ := prepared_ok halone _ (loop_got m.rig m.exported t.parts t.parts Collected.none _ (start_fresh m.max t.reading)
    (fun _ h => h) rfl (by simp [Collected.none]))
  have hex : m.execute t = .ok (m.result t ps r ls) := by
    unfold Matching.execute
    rw [show prepared m.rig ((m.collected t).prepared.zip (m.collected t).policies) = .ok ps from k7, Outcome.bind_ok,
      show matchRoute m.next (m.collected t).matched = .ok r from k1, Outcome.bind_ok, k5, Outcome.map_ok]
  have hgo : going ls = going r.lines := by unfold going; rw [k6]
  have hgo2 : going r.lines = pre.flatMap fun u => going (alone u).lines := by
    rw [k4, going_moves, List.flatMap_map]
  have hsum : segmentSum m.rig.hunt.env.G.len ls = segmentSum m.rig.hunt.env.G.len r.lines := by unfold segmentSum; rw [k6]
  have hcalm := loop_spec m.rig.engine m.exported t.parts Collected.none _ (start_fresh m.max t.reading) rfl
  rw [show matchLoop m.rig.engine m.exported t.parts Collected.none ⟨TimeLimit.make m.max (t.reading 0), t.reading, 1⟩ = m.collected t from rfl]
    at hcalm
  refine ⟨_, hex, ⟨rfl, rfl, multi_length hG _, rfl, h5, ?_, ⟨ps, rfl, multi_length hG _, ?_⟩,
    ⟨ls, pre, post, rfl, ?_, h1, fun ha => (h4 ha).1, by rw [hgo, hgo2], ?_⟩⟩⟩
  · intro ha
    rcases hcalm with ⟨_, _, _, _, hids⟩ | ⟨ha', _⟩
    · show List.map toString _ = _
      rw [hids]
      simp only [Collected.none, List.nil_append]
      congr 1
      refine List.flatMap_congr fun u hu => ?_
      rw [full_route (halone u hu)]
      unfold storedIds
      cases m.exported.ids <;> rfl
    · exact absurd (ha'.symm.trans ha) (by simp)
  · intro ha
    rcases hcalm with ⟨_, hp, hq, _, _⟩ | ⟨ha', _⟩
    · replace k7 : prepared m.rig ((m.collected t).prepared.zip (m.collected t).policies) = .ok ps := k7
      rw [hp, hq] at k7
      simp only [Collected.none, List.nil_append] at k7
      obtain ⟨ps', e1, e2⟩ := prepared_full (w := m.rig) t.parts fun u hu => ⟨(h u hu).1, (h u hu).2.1⟩
      have : (t.parts.map fun u => (full m.rig.engine u).1).zip (t.parts.map fun u => (full m.rig.engine u).2) =
          t.parts.map (full m.rig.engine) := by
        rw [List.zip_map']
      rw [this, e1, Outcome.ok.injEq] at k7
      subst k7
      exact e2
    · exact absurd (ha'.symm.trans ha) (by simp)
  · show (routeLength _ r.lines).getD 0 = _
    rw [routeLength_sum hG, hsum]
  · intro s hs
    rw [hgo, hgo2] at hs
    obtain ⟨u, hu, hs⟩ := List.mem_flatMap.1 hs
    exact (h u (by rw [h1]; exact List.mem_append_left _ hu)).2.2.2 s hs

/-! ### All tasks -/

theorem left_ok {α : Type} {o : Outcome α} {a : α} (h : o = .ok a) : left o = some a := by rw [h]; rfl

theorem getElems (ts : List (Task P)) : (List.range ts.length).filterMap (fun i => ts[i]?) = ts := by
  induction ts using List.reverseRecOn with
  | nil => rfl
  | append_singleton ts t ih =>
    rw [List.length_append, List.length_singleton, List.range_succ, List.filterMap_append]
    congr 1
    · exact (List.filterMap_congr fun i hi => List.getElem?_append_left (List.mem_range.1 hi)).trans ih
    · simp

theorem failing_not {m : Matching P} {ts : List (Task P)} {result : Task P → Rows.MatchResult ℝ} (h : ∀ t ∈ ts, m.execute t = .ok (result t))
    {i : Nat} (hi : i < ts.length) : m.failing ts i = false := by
  unfold Matching.failing Matching.resultOf
  rw [List.getElem?_eq_getElem hi, Option.bind_some, left_ok (h _ (List.getElem_mem hi))]
  rfl

/-- At the end of a session whose tasks do not throw, and whose coordinators lose none: the file has a header and a row for each task. -/
theorem all_written {m : Matching P} {ts : List (Task P)} {result : Task P → Rows.MatchResult ℝ} (h : ∀ t ∈ ts, m.execute t = .ok (result t))
    (hcols : ∀ n ∈ Rows.columnNames m.out.columns, n ∈ Rows.matchNames) {co ce : Coordinator.Config} (ho : 1 ≤ co.threads) (he : 1 ≤ ce.threads)
    {s : Lifetime.Sys Nat} (hs : ReflTransGen (Lifetime.Quiet co ce (m.failing ts)) (begins co ce ts) s) (hg : s.main = .gone) (hn : s.threw = none) :
    ∃ done : List (Task P), done.Perm ts ∧
      Rows.GoodFile (Rows.columnNames m.out.columns) (Rows.matchValue m.out.num 0) (done.map result) (m.file ts s.exporter.executed).rows := by
  have hres : ∀ i, m.resultOf ts i = (ts[i]?).map result := by
    intro i
    unfold Matching.resultOf
    cases ht : ts[i]? with
    | none => rfl
    | some t => exact left_ok (h t (List.mem_of_getElem? ht))
  have hp := Lifetime.rows_partial ho he hs hg hn
  have hall : (List.range ts.length).filter (fun i => !m.failing ts i) = List.range ts.length := by
    rw [List.filter_eq_self]
    intro i hi
    rw [failing_not h (List.mem_range.1 hi)]
    rfl
  rw [hall] at hp
  refine ⟨s.exporter.executed.filterMap (fun i => ts[i]?), ?_, ?_⟩
  · have := hp.filterMap (fun i => ts[i]?)
    rwa [getElems] at this
  · have e : s.exporter.executed.filterMap (m.resultOf ts) = (s.exporter.executed.filterMap (fun i => ts[i]?)).map result := by
      rw [List.map_filterMap]
      exact List.filterMap_congr fun i _ => hres i
    rw [← e]
    exact Rows.match_partial m.out.num 0 m.out.columns _ hcols

/-- **C114, a session.**  A network was prepared from files by an earlier run and is opened; tracks, each of any number of parts, are
matched by any number of threads, with any readings of their clocks.  The network can be opened; with enough rounds for the searches,
each part has a match of its own; and when the program has ended, however the threads took turns, the file has one row for each track,
in the order in which they were finished, which says what it should (`Right`): the match consists of pieces of passages that the
files permit, in the permitted direction, the matches of the parts one after the other, and parts are only left out if the row
says so and the clock passed the limit.
Missing: as in C107 and C110; tasks accepted by a queue between the two tests of its coordinator (C78); trimmed turns, whole edges. -/
theorem session_partial {o : First T P} {es : List (Osm.Element P)} {d d' : Files T P} (hrun : o.run es d = .ok d')
    (hfile : Function.Injective o.file) (hw : ∀ p, o.writable (o.file p) = true) (hd : ∀ a b, Permits o.filters es a b → a.2 ≠ b.2)
    {q : TwoRuns.Asks P ℝ} {meets : P → ℝ → P × P → Bool} {far : P → P × P → ℝ} {k : Nat} (hq : Truthful q meets far k)
    {m : Matching P} (hx : m.exported.edges = false) (hsane : m.rig.prep.Sane) (hwithin : m.rig.within = false)
    (hcols : ∀ n ∈ Rows.columnNames m.out.columns, n ∈ Rows.matchNames) (hplane : Plane m.rig.hunt.env.G) {ts : List (Task P)}
    (hs : ∀ c, Prepare.prepare o.filters o.steps es = .ok c → ∀ t ∈ ts, ∀ u ∈ t.parts, ∀ l, m.rig.prep.line u = .ok l →
      Setting c meets { m.rig.hunt with track := l }) :
    ∃ m', start o.me o.cs o.mapped.final o.file q m d' = .ok m' ∧
      ((m.rig.joins = true → m'.rig.hunt.Even m.rig.turn) → ∀ bounds : (ℝ → Bool) → Prop,
        (∀ a b, Answer (m'.rig.hunt.net.graph m.rig.hunt.env.G) bounds a b (m.rig.found a b)) →
        ∃ (alone : List P → Route P) (K : Nat), ∀ n, K ≤ n → ∃ M : Matching P, M = { m' with rig := { m'.rig with fuel := n } } ∧
          (∀ t ∈ ts, ∀ u ∈ t.parts, M.rig.alone u = .ok (alone u)) ∧ (∀ i, i < ts.length → M.failing ts i = false) ∧
          ∀ (co ce : Coordinator.Config), 1 ≤ co.threads → 1 ≤ ce.threads → ∀ s : Lifetime.Sys Nat,
            ReflTransGen (Lifetime.Quiet co ce (M.failing ts)) (begins co ce ts) s → s.main = .gone → s.threw = none →
            ∃ done rs, done.Perm ts ∧ List.Forall₂ (Right M alone (OnPassage m.rig.hunt.env.G o.filters es)) done rs ∧
              Rows.GoodFile (Rows.columnNames m.out.columns) (Rows.matchValue m.out.num 0) rs (M.file ts s.exporter.executed).rows) := by
  obtain ⟨c, h1, h2⟩ := second_exact hrun hfile hw q m.rig.hunt
  refine ⟨{ m with rig := { m.rig with hunt := searching q c m.rig.hunt } }, by unfold start; rw [h2]; rfl, fun heven bounds hfound => ?_⟩
  obtain ⟨alone, K, hK⟩ := recorded_parts_partial (w := { m.rig with hunt := searching q c m.rig.hunt }) hsane hfound (fun h => ⟨hwithin, heven h⟩)
    (pos := fun v => (nodeAt c v).2) (ts := ts.flatMap Task.parts) (fun u hu l hl => by
      obtain ⟨t, ht, hu⟩ := List.mem_flatMap.1 hu
      exact second_finds hrun hfile hw hd hq (h := { m.rig.hunt with track := l }) (fun c hc => hs c hc t ht u hu l hl) h1)
  have hmem : ∀ t ∈ ts, ∀ u ∈ t.parts, u ∈ ts.flatMap Task.parts := fun t ht u hu => List.mem_flatMap.2 ⟨t, ht, hu⟩
  refine ⟨alone, K, fun n hn => ⟨_, rfl, fun t ht u hu => (hK u (hmem t ht u hu)).2.2.2 n hn, ?_⟩⟩
  have hone : ∀ t, ∃ r, t ∈ ts → _ := fun t => by
    by_cases ht : t ∈ ts
    · obtain ⟨r, k1, k2⟩ := task_right (m := { m with rig := { m.rig with hunt := searching q c m.rig.hunt, fuel := n } })
        (Road := OnPassage m.rig.hunt.env.G o.filters es) (alone := alone) (t := t) (adds hplane.toMetric) hx (fun u hu => by
          obtain ⟨a1, a2, a3, a4⟩ := hK u (hmem t ht u hu)
          refine ⟨a1, a4 n hn, ?_, ?_⟩
          · exact a3
          · intro sg hsg
            rcases a2 with a2 | ⟨_, a2⟩
            · rw [a2] at hsg; simp [going, Route.bad, Route.lines] at hsg
            · obtain ⟨hsg, hne⟩ := List.mem_filter.1 hsg
              obtain ⟨l, hl, hsg⟩ := List.mem_flatMap.1 hsg
              exact onPassage (j := ({ m.rig with hunt := searching q c m.rig.hunt } : Rig Nat P ℝ ℝ).job [] []) h1 rfl
                (a2 hwithin l hl sg hsg (by simpa using hne)))
      exact ⟨r, fun _ => And.intro k1 k2⟩
    · exact ⟨⟨"", "", "", "", none, none, none, [], false, 0⟩, fun h => absurd h ht⟩
  choose result hresult using hone
  refine ⟨fun i hi => failing_not (fun t ht => (hresult t ht).1) hi, ?_⟩
  intro co ce ho he s hs' hg hnone
  obtain ⟨done, h3, h4⟩ := all_written (fun t ht => (hresult t ht).1) hcols ho he hs' hg hnone
  refine ⟨done, done.map result, h3, ?_, h4⟩
  rw [List.forall₂_map_right_iff, List.forall₂_same]
  exact fun t ht => (hresult t (h3.subset ht)).2

/-! ### Two sessions -/

/-- Without a limit, what is collected does not depend on the clock. -/
theorem collected_same {m : Matching P} (hmax : m.max ≤ 0) {t t' : Task P} (h : t.parts = t'.parts) : m.collected t = m.collected t' := by
  have key : ∀ t : Task P, m.collected t = ⟨t.parts.map (fun u => (full m.rig.engine u).1), t.parts.map (fun u => (full m.rig.engine u).2),
      routes m.rig.engine m.exported t.parts,
      t.parts.flatMap fun u => storedIds m.exported (m.rig.engine.result (full m.rig.engine u).1 (full m.rig.engine u).2), false⟩ := by
    intro t
    rcases loop_spec m.rig.engine m.exported t.parts Collected.none _ (start_fresh m.max t.reading) rfl with ⟨a, b, c, d, e⟩ | ⟨ha, _⟩
    · unfold Matching.collected matchTrack
      generalize matchLoop m.rig.engine m.exported t.parts Collected.none ⟨TimeLimit.make m.max (t.reading 0), t.reading, 1⟩ = k at *
      obtain ⟨k1, k2, k3, k4, k5⟩ := k
      simp only [Collected.none, List.nil_append] at a b c d e
      subst a b c d e
      rfl
    · exact absurd (aborted_late m.rig.engine m.exported m.max t.reading t.parts ha).1 (not_lt.2 hmax)
  rw [key, key, h]

/-- A result without its duration. -/
def timeless (r : Rows.MatchResult ℝ) : Rows.MatchResult ℝ := { r with duration := 0 }

theorem execute_same {m : Matching P} (hmax : m.max ≤ 0) {t t' : Task P} (hid : t.id = t'.id) (h : t.parts = t'.parts) :
    (m.execute t).map timeless = (m.execute t').map timeless := by
  have hc := collected_same hmax h
  unfold Matching.execute
  rw [hc]
  cases prepared m.rig ((m.collected t').prepared.zip (m.collected t').policies) with
  | throws => rfl
  | ub => rfl
  | ok ps =>
    rw [Outcome.bind_ok, Outcome.bind_ok]
    cases matchRoute m.next (m.collected t').matched with
    | throws => rfl
    | ub => rfl
    | ok r =>
      rw [Outcome.bind_ok, Outcome.bind_ok]
      cases r.multiLine with
      | throws => rfl
      | ub => rfl
      | ok ls =>
        rw [Outcome.map_ok, Outcome.map_ok, Outcome.map_ok, Outcome.map_ok]
        unfold timeless Matching.result
        rw [hc, hid, h]

theorem left_map {α β : Type} (f : α → β) (o : Outcome α) : left (o.map f) = (left o).map f := by cases o <;> rfl

theorem results_same {m : Matching P} (hmax : m.max ≤ 0) {ts ts' : List (Task P)}
    (h : ts.map (fun t => (t.id, t.parts)) = ts'.map fun t => (t.id, t.parts)) (i : Nat) :
    (m.resultOf ts i).map timeless = (m.resultOf ts' i).map timeless := by
  have hi : (ts.map (fun t => (t.id, t.parts)))[i]? = (ts'.map fun t => (t.id, t.parts))[i]? := by rw [h]
  rw [List.getElem?_map, List.getElem?_map] at hi
  unfold Matching.resultOf
  cases ht : ts[i]? with
  | none => rw [ht] at hi; cases ht' : ts'[i]? with
    | none => rfl
    | some t' => rw [ht'] at hi; cases hi
  | some t => rw [ht] at hi; cases ht' : ts'[i]? with
    | none => rw [ht'] at hi; cases hi
    | some t' =>
      rw [ht'] at hi
      simp only [Option.map_some, Option.some.injEq, Prod.mk.injEq] at hi
      rw [Option.bind_some, Option.bind_some, ← left_map, ← left_map, execute_same hmax hi.1 hi.2]

/-- The results of two sessions without a time limit are the same but for the durations. -/
theorem results_perm {m : Matching P} (hmax : m.max ≤ 0) {ts ts' : List (Task P)}
    (h : ts.map (fun t => (t.id, t.parts)) = ts'.map fun t => (t.id, t.parts))
    {co ce co' ce' : Coordinator.Config} (ho : 1 ≤ co.threads) (he : 1 ≤ ce.threads) (ho' : 1 ≤ co'.threads) (he' : 1 ≤ ce'.threads)
    {s s' : Lifetime.Sys Nat}
    (hs : ReflTransGen (Lifetime.Quiet co ce (m.failing ts)) (begins co ce ts) s) (hg : s.main = .gone) (hn : s.threw = none)
    (hs' : ReflTransGen (Lifetime.Quiet co' ce' (m.failing ts')) (begins co' ce' ts') s') (hg' : s'.main = .gone) (hn' : s'.threw = none) :
    ((s.exporter.executed.filterMap (m.resultOf ts)).map timeless).Perm ((s'.exporter.executed.filterMap (m.resultOf ts')).map timeless) := by
  have hfail : m.failing ts = m.failing ts' := by
    funext i
    have := congrArg Option.isNone (results_same hmax h i)
    simpa [Matching.failing] using this
  have hlen : ts.length = ts'.length := by simpa using congrArg List.length h
  have hp := Lifetime.rows_partial ho he hs hg hn
  have hp' := Lifetime.rows_partial ho' he' hs' hg' hn'
  rw [hfail, hlen] at hp
  have hpp : s.exporter.executed.Perm s'.exporter.executed := hp.trans hp'.symm
  rw [List.map_filterMap, List.map_filterMap]
  simp only [results_same hmax h]
  exact hpp.filterMap _

/-- A row without the column `duration` does not depend on the duration. -/
theorem row_timeless (num : ℝ → String) {names : List String} (hn : "duration" ∉ names) (r : Rows.MatchResult ℝ) :
    Rows.matchRow num (names.map Rows.matchCol) (Rows.matchTask 0 true (names.map Rows.matchCol) r) =
      Rows.matchRow num (names.map Rows.matchCol) (Rows.matchTask 0 true (names.map Rows.matchCol) (timeless r)) := by
  have hfill : ∀ (cs : List Rows.MatchCol) (t : Rows.MatchTask ℝ),
      cs.foldl (Rows.fillMatch (timeless r)) { t with duration := 0 } = { cs.foldl (Rows.fillMatch r) t with duration := 0 } := by
    intro cs
    induction cs with
    | nil => intro t; rfl
    | cons c cs ih =>
      intro t
      rw [List.foldl_cons, List.foldl_cons, ← ih]
      congr 1
      cases c <;> simp only [Rows.fillMatch, timeless] <;> first | rfl | (by_cases he : r.edgeIds.isEmpty = true <;> simp [he]) | (split <;> rfl)
  have hrow : ∀ t : Rows.MatchTask ℝ, Rows.matchRow num (names.map Rows.matchCol) t =
      Rows.matchRow num (names.map Rows.matchCol) { t with duration := 0 } := by
    intro t
    unfold Rows.matchRow
    refine List.flatMap_congr fun c hc => ?_
    obtain ⟨n, hn', rfl⟩ := List.mem_map.1 hc
    have hd : Rows.matchCol n ≠ .duration := by
      unfold Rows.matchCol
      intro h
      split_ifs at h with h1 h2 h3
      exact hn (h3 ▸ hn')
    revert hd
    generalize Rows.matchCol n = c
    intro hd
    cases c <;> first | rfl | exact absurd rfl hd
  have hf := hfill (names.map Rows.matchCol) ⟨r.id, "", "", "", "", r.aborted, r.duration, 0, 0, 0⟩
  unfold Rows.matchTask
  simp only [if_true]
  rw [hrow]
  exact (congrArg _ hf).symm

/-- **C114, the same matches.**  Without a time limit, and unless durations are written: sessions on the same tracks write the same
rows, up to their order, whatever the numbers of threads and the sizes of the queues, however the threads took turns and whatever
the clocks said.  Missing: tasks accepted by a queue between the two tests of its coordinator (C78). -/
theorem session_same_partial {m : Matching P} (hmax : m.max ≤ 0) (hdur : "duration" ∉ Rows.columnNames m.out.columns) {ts ts' : List (Task P)}
    (h : ts.map (fun t => (t.id, t.parts)) = ts'.map fun t => (t.id, t.parts))
    {co ce co' ce' : Coordinator.Config} (ho : 1 ≤ co.threads) (he : 1 ≤ ce.threads) (ho' : 1 ≤ co'.threads) (he' : 1 ≤ ce'.threads)
    {s s' : Lifetime.Sys Nat}
    (hs : ReflTransGen (Lifetime.Quiet co ce (m.failing ts)) (begins co ce ts) s) (hg : s.main = .gone) (hn : s.threw = none)
    (hs' : ReflTransGen (Lifetime.Quiet co' ce' (m.failing ts')) (begins co' ce' ts') s') (hg' : s'.main = .gone) (hn' : s'.threw = none) :
    (m.file ts s.exporter.executed).rows.Perm (m.file ts' s'.exporter.executed).rows := by
  have hpp := results_perm hmax h ho he ho' he' hs hg hn hs' hg' hn'
  have hrows : ∀ (ts : List (Task P)) (done : List Nat), (m.file ts done).rows =
      let rows := ((done.filterMap (m.resultOf ts)).map timeless).map fun r =>
        Rows.matchRow m.out.num ((Rows.columnNames m.out.columns).map Rows.matchCol)
          (Rows.matchTask 0 true ((Rows.columnNames m.out.columns).map Rows.matchCol) r)
      if rows = [] then [] else Rows.columnNames m.out.columns :: rows := by
    intro ts done
    unfold Matching.file Rows.matchFile
    rw [← List.foldl_map, Rows.writeAll_active]
    rw [List.map_map]
    have e : (done.filterMap (m.resultOf ts)).map (fun r => Rows.matchRow m.out.num ((Rows.columnNames m.out.columns).map Rows.matchCol)
        (Rows.matchTask 0 true ((Rows.columnNames m.out.columns).map Rows.matchCol) r)) = _ :=
      List.map_congr_left fun r _ => row_timeless m.out.num hdur r
    rw [e]
    rfl
  rw [hrows, hrows]
  dsimp only
  have hq := hpp.map fun r =>
    Rows.matchRow m.out.num ((Rows.columnNames m.out.columns).map Rows.matchCol)
      (Rows.matchTask 0 true ((Rows.columnNames m.out.columns).map Rows.matchCol) r)
  split_ifs with h1 h2 h2
  · exact .refl _
  · rw [h1] at hq; exact absurd hq.symm.eq_nil h2
  · rw [h2] at hq; exact absurd hq.eq_nil h1
  · exact hq.cons _

/-! ### Tracks from GPX files -/

/-- **C114, names.**  If the tracks come from GPX files in which all tracks have names: the identifiers of the rows are the names of
the tracks that were selected, each as often as there are such tracks, and the row for a track is about its points. -/
theorem gpx_rows {m : Matching P} {alone : List P → Route P} {Road : P → P → Prop} {ts done : List (Task P)} {rs : List (Rows.MatchResult ℝ)}
    (hp : done.Perm ts) (hr : List.Forall₂ (Right m alone Road) done rs)
    {sort : List (Nat × P) → List (Nat × P)} {s : Gpx.Settings} {proj : P → P} {files : List (Gpx.File P)}
    (hread : ts.map (fun t => (t.id, t.parts)) = Gpx.readFiles sort s proj 0 files) (hno : s.noId = false)
    (hnamed : ∀ x ∈ Gpx.allTracks files, x.2.name ≠ "") :
    (rs.map fun r => (r.id, r.trackWkt)).Perm
      (((Gpx.allTracks files).filter fun x => s.sel x.2.name).map fun x =>
        (x.2.name, m.out.text (x.2.segments.map (Gpx.segment sort s.noParse proj)))) := by
  have h1 : (rs.map fun r => (r.id, r.trackWkt)) = done.map fun t => (t.id, m.out.text t.parts) := by
    clear hp
    induction hr with
    | nil => rfl
    | cons h _ ih => rw [List.map_cons, List.map_cons, ih, h.id, h.track]
  have h2 : (ts.map fun t => (t.id, m.out.text t.parts)) = (Gpx.readFiles sort s proj 0 files).map fun x => (x.1, m.out.text x.2) := by
    rw [← hread, List.map_map]; rfl
  rw [h1]
  refine (hp.map _).trans (List.Perm.of_eq ?_)
  rw [h2, Gpx.readFiles_eq, hno, Gpx.allIds_all_named 0 files hnamed]
  generalize Gpx.allTracks files = xs
  induction xs with
  | nil => rfl
  | cons x xs ih =>
    simp only [List.map_cons, List.zip_cons_cons, List.filter_cons]
    split_ifs <;> simp [ih]

/-! ### A session in the town -/

set_option maxRecDepth 10000 in
/-- One track is read, matched and written before everything is destroyed. -/
theorem one_track {fails : Nat → Bool} (hf : fails 0 = false) : ReflTransGen (Lifetime.Quiet Lifetime.one Lifetime.one fails)
    (Lifetime.init Lifetime.one Lifetime.one [0])
    ⟨Lifetime.ended [] [0] [0] [[]], Lifetime.ended [] [0] [0] [], .gone, [], none, false⟩ := by
  refine .head ⟨.read _ _ rfl (.push _ [] [] 0 [] rfl rfl (by decide)) (by decide), by decide, by decide⟩ (.head ⟨.outer _ _ ⟨.notEmpty _ rfl (by decide), rfl, rfl, by decide⟩ rfl, by decide, by decide⟩ (.head ⟨.outer _ _ ⟨.pulled _ 0 [] rfl rfl, rfl, rfl, by decide⟩ rfl, by decide, by decide⟩ (
    .head ⟨.outer _ _ ⟨.acquired _ 0 rfl (by decide), rfl, rfl, by decide⟩ rfl, by decide, by decide⟩ (.head ⟨.outer _ _ ⟨.submitted _ 0 rfl, rfl, rfl, by decide⟩ rfl, by decide, by decide⟩ (.head ⟨.stop _ rfl rfl, by decide, by decide⟩ (
    .head ⟨.outer _ _ ⟨.empty _ rfl rfl, rfl, rfl, by decide⟩ rfl, by decide, by decide⟩ (.head ⟨.outer _ _ ⟨.isClosed _ rfl rfl, rfl, rfl, by decide⟩ rfl, by decide, by decide⟩ (.head ⟨.outer _ _ ⟨.poolClose _ rfl, rfl, rfl, by decide⟩ rfl, by decide, by decide⟩ (
    .head ⟨.outer _ _ ⟨.take _ 0 [] rfl (by decide), rfl, rfl, by decide⟩ rfl, by decide, by decide⟩ (.head ⟨.write _ _ 0 ⟨.execute _ [] [] 0 rfl, rfl, rfl, by decide⟩ rfl hf rfl rfl (by decide), by decide, by decide⟩ (.head ⟨.outer _ _ ⟨.release _ (by decide), rfl, rfl, by decide⟩ rfl, by decide, by decide⟩ (
    .head ⟨.outer _ _ ⟨.exit _ rfl rfl (by decide), rfl, rfl, by decide⟩ rfl, by decide, by decide⟩ (.head ⟨.outer _ _ ⟨.poolJoined _ rfl rfl, rfl, rfl, by decide⟩ rfl, by decide, by decide⟩ (.head ⟨.joined _ rfl rfl, by decide, by decide⟩ (
    .head ⟨.exporter _ _ ⟨.notEmpty _ rfl (by decide), rfl, rfl, by decide⟩, by decide, by decide⟩ (.head ⟨.exporter _ _ ⟨.pulled _ 0 [] rfl rfl, rfl, rfl, by decide⟩, by decide, by decide⟩ (.head ⟨.exporter _ _ ⟨.acquired _ 0 rfl (by decide), rfl, rfl, by decide⟩, by decide, by decide⟩ (
    .head ⟨.exporter _ _ ⟨.submitted _ 0 rfl, rfl, rfl, by decide⟩, by decide, by decide⟩ (.head ⟨.exporterStop _ rfl, by decide, by decide⟩ (.head ⟨.exporter _ _ ⟨.empty _ rfl rfl, rfl, rfl, by decide⟩, by decide, by decide⟩ (
    .head ⟨.exporter _ _ ⟨.isClosed _ rfl rfl, rfl, rfl, by decide⟩, by decide, by decide⟩ (.head ⟨.exporter _ _ ⟨.poolClose _ rfl, rfl, rfl, by decide⟩, by decide, by decide⟩ (.head ⟨.exporter _ _ ⟨.take _ 0 [] rfl (by decide), rfl, rfl, by decide⟩, by decide, by decide⟩ (
    .head ⟨.exporter _ _ ⟨.execute _ [] [] 0 rfl, rfl, rfl, by decide⟩, by decide, by decide⟩ (.head ⟨.exporter _ _ ⟨.release _ (by decide), rfl, rfl, by decide⟩, by decide, by decide⟩ (.head ⟨.exporter _ _ ⟨.exit _ rfl rfl (by decide), rfl, rfl, by decide⟩, by decide, by decide⟩ (
    .head ⟨.exporter _ _ ⟨.poolJoined _ rfl rfl, rfl, rfl, by decide⟩, by decide, by decide⟩ (.head ⟨.exporterJoined _ rfl rfl, by decide, by decide⟩ (.head ⟨.baseClose _ rfl, by decide, by decide⟩ (
    .head ⟨.baseJoined _ rfl rfl, by decide, by decide⟩ (?_)))))))))))))))))))))))))))))))
  exact .refl

set_option maxRecDepth 10000 in
/-- **C114 fails** for a track that is queued between the two tests of its coordinator: the program ends normally, and there is not
even a header (compare `MM.Lifetime.row_lost_fails`). -/
theorem row_lost_fails (m : Matching P) (t : Task P) : ∃ s : Lifetime.Sys Nat,
    ReflTransGen (Lifetime.SysStep Lifetime.one Lifetime.one (m.failing [t])) (begins Lifetime.one Lifetime.one [t]) s ∧
      s.main = .gone ∧ s.threw = none ∧ (m.file [t] s.exporter.executed).rows = [] := by
  refine ⟨⟨Lifetime.ended [0] [0] [] [[]], Lifetime.ended [] [] [] [], .gone, [], none, false⟩, ?_, rfl, rfl, rfl⟩
  show ReflTransGen _ (Lifetime.init Lifetime.one Lifetime.one [0]) _
  refine .head (.outer _ _ ⟨.empty _ rfl rfl, rfl, rfl, by decide⟩ rfl) (.head (.read _ _ rfl (.push _ [] [] 0 [] rfl rfl (by decide)) (by decide)) (.head (.stop _ rfl rfl) (
    .head (.outer _ _ ⟨.isClosed _ rfl rfl, rfl, rfl, by decide⟩ rfl) (.head (.outer _ _ ⟨.poolClose _ rfl, rfl, rfl, by decide⟩ rfl) (.head (.outer _ _ ⟨.exit _ rfl rfl (by decide), rfl, rfl, by decide⟩ rfl) (
    .head (.outer _ _ ⟨.poolJoined _ rfl rfl, rfl, rfl, by decide⟩ rfl) (.head (.joined _ rfl rfl) (.head (.exporterStop _ rfl) (
    .head (.exporter _ _ ⟨.empty _ rfl rfl, rfl, rfl, by decide⟩) (.head (.exporter _ _ ⟨.isClosed _ rfl rfl, rfl, rfl, by decide⟩) (.head (.exporter _ _ ⟨.poolClose _ rfl, rfl, rfl, by decide⟩) (
    .head (.exporter _ _ ⟨.exit _ rfl rfl (by decide), rfl, rfl, by decide⟩) (.head (.exporter _ _ ⟨.poolJoined _ rfl rfl, rfl, rfl, by decide⟩) (.head (.exporterJoined _ rfl rfl) (
    .head (.baseClose _ rfl) (.head (.baseJoined _ rfl rfl) (?_)))))))))))))))))
  exact .refl

/-- The town, matched by boxes. -/
noncomputable def townMatching (text : List (List Int) → String) (found : Nat → Nat → Option (List Nat)) (max : ℝ) (columns : String) : Matching Int :=
  ⟨townRig found, plainExport, max, 100, ⟨text, fun _ => "1", columns⟩⟩

/-- A ride in two parts. -/
noncomputable def ride : Task Int := ⟨"ride", [[2, 2, 13], [13, 13]], fun n => (n : ℝ), 3⟩

theorem ride_setting (text : List (List Int) → String) (found : Nat → Nat → Option (List Nat)) (max : ℝ) (columns : String) (c : Graph Int)
    (hc : Prepare.prepare Osm.defaults plainly town = .ok c) (t : Task Int) (ht : t ∈ [ride]) (u : List Int) (hu : u ∈ t.parts) (l : List Int)
    (hl : (townMatching text found max columns).rig.prep.line u = .ok l) :
    Setting c (fun p r s => decide (Pipe.streetGap p [s.1, s.2] ≤ r)) { (townMatching text found max columns).rig.hunt with track := l } := by
  obtain rfl := List.mem_singleton.1 ht
  have hu' : ∀ p ∈ u, p = 2 ∨ p = 13 := by
    simp only [ride, List.mem_cons, List.not_mem_nil, or_false] at hu
    rcases hu with rfl | rfl <;> intro p hp <;> simp only [List.mem_cons, List.not_mem_nil, or_false] at hp <;> tauto
  obtain ⟨l', h1, h2⟩ := prepared_drawn townPrep_sane u
  have : l' = l := Outcome.ok.inj (h1.symm.trans hl)
  subst this
  have hmem := h2.subset (by
    intro ps m hm
    cases ps with
    | nil => cases hm
    | cons p ps => cases hm; simp)
  have hset := town_setting c hc
  refine ⟨hset.plane, hset.covers, hset.radius, ?_⟩
  intro i p e x hp hx hg
  rcases hu' p (hmem p (List.mem_of_getElem? hp)) with rfl | rfl
  · exact hset.clear 0 2 e x rfl hx hg
  · exact hset.clear 1 13 e x rfl hx hg

/-- `session_partial`, `task_right`, `all_written`: the ride is matched along the roads of the town. -/
theorem town_session (text : List (List Int) → String) (max : ℝ) {columns : String} (hcols : ∀ x ∈ Rows.columnNames columns, x ∈ Rows.matchNames) :
    ∃ d' found M alone, townFirst.run town villageDisk = .ok d' ∧
      start ⟨1, 1⟩ .cartesian ⟨true, false, false⟩ NetDisk.demoFile streetAsks (townMatching text found max columns) d' = .ok M ∧
      ∃ n, ∃ N : Matching Int, N = { M with rig := { M.rig with fuel := n } } ∧ N.max = max ∧ N.out.text = text ∧ N.out.columns = columns ∧
        N.failing [ride] 0 = false ∧ ∃ done rs, done.Perm [ride] ∧
          List.Forall₂ (Right N alone (OnPassage Pipe.streetGeo Osm.defaults town)) done rs ∧
          Rows.GoodFile (Rows.columnNames columns) (Rows.matchValue (fun _ => "1") 0) rs (N.file [ride] [0]).rows := by
  obtain ⟨d', hd'⟩ := town_first
  choose found hfound using prepared_answers townNet Pipe.streetGeo
  obtain ⟨M, h1, h2⟩ := session_partial hd' NetDisk.demoFile_injective (fun _ => rfl) (fun _ _ => town_apart) street_truthful
    (m := townMatching text found max columns) rfl townPrep_sane rfl hcols Pipe.street_plane (ts := [ride]) (ride_setting text found max columns)
  obtain ⟨c, k1, k2⟩ := second_exact hd' NetDisk.demoFile_injective (fun _ => rfl) streetAsks townHunt
  rw [show townFirst.filters = Osm.defaults from rfl, show townFirst.steps = plainly from rfl, town_plain, Outcome.ok.injEq] at k1
  subst k1
  have h1' := h1
  unfold start at h1'
  rw [show second townFirst.me townFirst.cs townFirst.mapped.final townFirst.file streetAsks (townMatching text found max columns).rig.hunt d' = _ from k2,
    Outcome.map_ok, Outcome.ok.injEq] at h1'
  subst h1'
  obtain ⟨alone, K, h3⟩ := h2 (fun h => by cases h) _ hfound
  obtain ⟨M', hM', h4, hf, h5⟩ := h3 K le_rfl
  subst hM'
  exact ⟨d', found, _, alone, hd', h1, K, _, rfl, rfl, rfl, rfl, hf 0 (by simp),
    h5 Lifetime.one Lifetime.one le_rfl le_rfl _ (one_track (hf 0 (by simp))) rfl rfl⟩

/-- There is a row. -/
example : ∃ M : Matching Int, (M.file [ride] [0]).rows.length = 2 := by
  obtain ⟨_, _, _, alone, _, _, n, N, _, _, _, _, _, done, rs, h6, h7, h8⟩ := town_session (fun _ => "LINESTRING") 5 (columns := "id,match,duration") (by decide)
  have hl : rs.length = 1 := by rw [← h7.length_eq, h6.length_eq]; rfl
  refine ⟨N, ?_⟩
  rcases h8 with ⟨h, _⟩ | ⟨_, rows, h9, h10⟩
  · rw [h] at hl; cases hl
  · rw [h9, List.length_cons, ← h10.length_eq, hl]

/-- `session_same_partial`: the ride on a slower machine. -/
noncomputable def slower : Task Int := { ride with reading := fun n => 10 * (n : ℝ), duration := 30 }

example : ∃ N : Matching Int, N.failing [ride] 0 = false ∧ (N.file [ride] [0]).rows.Perm (N.file [slower] [0]).rows := by
  obtain ⟨_, _, _, alone, _, _, n, N, _, h0, _, h1, hf, _⟩ := town_session (fun _ => "LINESTRING") 0 (columns := "id,aborted,match") (by decide)
  have hf' : N.failing [slower] 0 = false := by
    have := congrArg Option.isNone (results_same (m := N) h0.le (ts := [ride]) (ts' := [slower]) rfl 0)
    rw [Option.isNone_map, Option.isNone_map] at this
    exact this.symm.trans hf
  exact ⟨N, hf, session_same_partial (m := N) h0.le (by rw [h1]; decide) (ts := [ride]) (ts' := [slower]) rfl (le_refl 1) (le_refl 1) (le_refl 1) (le_refl 1)
    (one_track hf) rfl rfl (one_track hf') rfl rfl⟩

/-- `gpx_rows`: the ride was read from a file, together with one that is not selected. -/
example (sort : List (Nat × Int) → List (Nat × Int)) (hs : Gpx.Lawful sort) :
    ∃ (N : Matching Int) (rs : List (Rows.MatchResult ℝ)), N.failing [ride] 0 = false ∧
      (rs.map fun r => (r.id, r.trackWkt)).Perm [("ride", N.out.text [[2, 2, 13], [13, 13]])] := by
  obtain ⟨_, _, _, alone, _, _, n, N, _, _, _, _, hf, done, rs, h6, h7, _⟩ := town_session (fun _ => "LINESTRING") 5 (columns := "id,match") (by decide)
  refine ⟨N, rs, hf, ?_⟩
  have := gpx_rows h6 h7 (sort := sort) (s := ⟨false, false, fun x => decide (x = "ride")⟩) (proj := id)
    (files := [⟨"day", [⟨"walk", [[⟨none, 2⟩]]⟩]⟩, ⟨"", [⟨"ride", [[⟨none, 2⟩, ⟨none, 2⟩, ⟨none, 13⟩], [⟨none, 13⟩, ⟨none, 13⟩]]⟩]⟩])
    (by simp [Gpx.readFiles, Gpx.fileTracks, Gpx.trackId, Gpx.order_untimed hs, ride]) rfl (by simp [Gpx.allTracks])
  simpa [Gpx.allTracks, Gpx.order_untimed hs] using this

end MM.Session
