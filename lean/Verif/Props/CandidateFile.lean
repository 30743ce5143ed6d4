import Verif.Model.CandidateFile
import Verif.Props.Session
import Verif.Props.TourBounded

/-!
# C121: the file of candidates tells of which candidates a match consists
-/

set_option autoImplicit false
set_option linter.unusedSectionVars false

namespace MM.Session

open MM.Line MM.Route MM.Router MM.Matcher MM.Pipe MM.TwoRuns MM.Prepare MM.MatchRoute

variable {P : Type} [DecidableEq P] [Inhabited P]

/-! ### What a file of candidates says -/

/-- There is a row for the candidate `k` of the point `j` of the part `i`, and it is about `e`. -/
def Lists (r : Rows.CandResult ℝ) (i j k : Nat) (e : Rows.CandEdge ℝ) : Prop :=
  ∃ c ∈ Rows.cells r, c.result = r ∧ c.part = i ∧ c.set_ = j ∧ c.cand = k ∧ c.edge = e

/-- The row of this candidate says that it belongs to the result. -/
def Marks (num : ℝ → String) (r : Rows.CandResult ℝ) (i j k : Nat) : Prop :=
  ∃ c ∈ Rows.cells r, c.part = i ∧ c.set_ = j ∧ c.cand = k ∧ Rows.candValue num c "is_result" = some "1"

theorem mem_cells (r : Rows.CandResult ℝ) (c : Rows.Cell ℝ) : c ∈ Rows.cells r ↔
    c.result = r ∧ ∃ part set_, r.parts[c.part]? = some part ∧ part[c.set_]? = some set_ ∧ set_[c.cand]? = some c.edge := by
  unfold Rows.cells
  constructor
  · intro h
    obtain ⟨⟨p, i⟩, hp, h⟩ := List.mem_flatMap.1 h
    obtain ⟨⟨s, j⟩, hs, h⟩ := List.mem_flatMap.1 h
    obtain ⟨⟨e, k⟩, he, rfl⟩ := List.mem_map.1 h
    exact ⟨rfl, p, s, List.mem_zipIdx_iff_getElem?.1 hp, List.mem_zipIdx_iff_getElem?.1 hs, List.mem_zipIdx_iff_getElem?.1 he⟩
  · rintro ⟨h, part, set_, h1, h2, h3⟩
    refine List.mem_flatMap.2 ⟨(part, c.part), List.mem_zipIdx_iff_getElem?.2 h1, List.mem_flatMap.2
      ⟨(set_, c.set_), List.mem_zipIdx_iff_getElem?.2 h2, List.mem_map.2 ⟨(c.edge, c.cand), List.mem_zipIdx_iff_getElem?.2 h3, ?_⟩⟩⟩
    rw [← h]

theorem lists_iff {r : Rows.CandResult ℝ} {i j k : Nat} {e : Rows.CandEdge ℝ} {part : List (List (Rows.CandEdge ℝ))}
    (hp : r.parts[i]? = some part) : Lists r i j k e ↔ ∃ s, part[j]? = some s ∧ s[k]? = some e := by
  constructor
  · rintro ⟨c, hc, _, rfl, rfl, rfl, rfl⟩
    obtain ⟨_, part', s, h1, h2, h3⟩ := (mem_cells r c).1 hc
    rw [hp, Option.some.injEq] at h1
    subst h1
    exact ⟨s, h2, h3⟩
  · rintro ⟨s, h1, h2⟩
    exact ⟨⟨r, i, j, k, e⟩, (mem_cells r _).2 ⟨rfl, part, s, hp, h1, h2⟩, rfl, rfl, rfl, rfl, rfl⟩

theorem is_result_value (num : ℝ → String) (c : Rows.Cell ℝ) : Rows.candValue num c "is_result" = some "1" ↔
    (c.set_, c.cand) ∈ (c.result.policies[c.part]?).getD [] := by
  unfold Rows.candValue
  simp only [List.lookup_cons]
  by_cases h : (c.set_, c.cand) ∈ (c.result.policies[c.part]?).getD []
  · simp [h]
  · simp [h]

theorem marks_iff (num : ℝ → String) {r : Rows.CandResult ℝ} {i j k : Nat} : Marks num r i j k ↔
    (∃ e, Lists r i j k e) ∧ (j, k) ∈ (r.policies[i]?).getD [] := by
  constructor
  · rintro ⟨c, hc, rfl, rfl, rfl, h⟩
    have hr := ((mem_cells r c).1 hc).1
    refine ⟨⟨c.edge, c, hc, hr, rfl, rfl, rfl, rfl⟩, ?_⟩
    rw [is_result_value, hr] at h
    exact h
  · rintro ⟨⟨e, c, hc, hr, rfl, rfl, rfl, rfl⟩, h⟩
    refine ⟨c, hc, rfl, rfl, rfl, ?_⟩
    rw [is_result_value, hr]
    exact h

/-! ### What is collected -/

/-- What is collected of the parts in order: of the first ones everything; of one more, if the time is over, no policy. -/
theorem loop_kept {R T S Pol Q : Type} [LinearOrder R] [Sub R] [Zero R] {E : Engine T S Pol Q} (hE : AllOrNone (R := R) E) (x : Export Q)
    (ts : List T) : ∀ (k : Collected S Pol Q) (c : Clock R), Fresh c → k.aborted = false →
    ∃ pre post, ts = pre ++ post ∧ ((matchLoop E x ts k c).aborted = false → post = []) ∧
      (((matchLoop E x ts k c).prepared = k.prepared ++ pre.map (fun t => (full E t).1) ∧
          (matchLoop E x ts k c).policies = k.policies ++ pre.map (fun t => (full E t).2) ∧
          (matchLoop E x ts k c).matched = k.matched ++ routes E x pre) ∨
        ∃ t rest, post = t :: rest ∧ ∃ c', (matchLoop E x ts k c).prepared = k.prepared ++ pre.map (fun t => (full E t).1) ++ [(exec (E.set t) (c' : Clock R)).1] ∧
          (matchLoop E x ts k c).policies = k.policies ++ pre.map (fun t => (full E t).2) ++ [E.empty] ∧
          ∃ s, (matchLoop E x ts k c).matched = k.matched ++ routes E x pre ++ [stored x (E.result s E.empty)]) := by
  induction ts with
  | nil => intro k c _ _; exact ⟨[], [], rfl, fun _ => rfl, .inl (by simp [matchLoop, routes])⟩
  | cons t ts ih =>
    intro k c hc hk
    rw [matchLoop]
    rcases part_cases E t hc with h | ⟨h1, h2⟩
    · rw [if_pos (reached_of h)]
      rcases part_decided hE t hc with h3 | h3
      · refine ⟨[t], ts, rfl, by simp, .inl ?_⟩
        rw [h3]
        simp [Collected.add, routes, final_eq]
      · refine ⟨[], t :: ts, rfl, by simp, .inr ⟨t, ts, rfl, c, ?_⟩⟩
        rw [h3]
        have : (matchPart E t c).1.1 = (exec (E.set t) c).1 := by unfold matchPart; split_ifs <;> rfl
        rw [this]
        refine ⟨by simp [Collected.add], by simp [Collected.add], (exec (E.set t) c).1, by simp [Collected.add, routes, final_eq]⟩
    · obtain ⟨h3, h4⟩ := reached_fresh h2
      rw [if_neg (by rw [h3]; simp), h1]
      obtain ⟨pre, post, e, ha, hh⟩ := ih (k.add E x (full E t).1 (full E t).2) (matchPart E t c).2.reached.2 h4 hk
      refine ⟨t :: pre, post, by rw [e]; rfl, ha, ?_⟩
      rcases hh with ⟨hh1, hh2, hh3⟩ | ⟨u, rest, e2, c', hh1, hh2, s, hh3⟩
      · left; rw [hh1, hh2, hh3]; simp [Collected.add, routes, final_eq]
      · right
        exact ⟨u, rest, e2, c', by rw [hh1]; simp [Collected.add], by rw [hh2]; simp [Collected.add], s, by
          rw [hh3]; simp [Collected.add, routes, final_eq]⟩

theorem parts_ok (o : CandOutput P) : ∀ ss : List (Pipe.State P ℝ), (∀ s ∈ ss, ∃ l cs, s = .ok (l, cs)) →
    ∃ ps, o.parts ss = .ok ps ∧ ps.length = ss.length ∧ ∀ (i : Nat) l cs, ss[i]? = some (.ok (l, cs)) → ps[i]? = some (o.sets l cs) := by
  intro ss
  induction ss with
  | nil => intro _; exact ⟨[], rfl, rfl, by simp⟩
  | cons s ss ih =>
    intro h
    obtain ⟨ps, h1, h2, h3⟩ := ih fun s hs => h s (List.mem_cons_of_mem _ hs)
    obtain ⟨l, cs, rfl⟩ := h s (by simp)
    refine ⟨o.sets l cs :: ps, by rw [CandOutput.parts, h1, Outcome.map_ok], by simp [h2], ?_⟩
    intro i l' cs' hi
    cases i with
    | zero =>
      simp only [List.getElem?_cons_zero, Option.some.injEq, Outcome.ok.injEq, Prod.mk.injEq] at hi
      rw [hi.1, hi.2]; rfl
    | succ i => exact h3 i l' cs' (by simpa using hi)

/-! ### Parts -/

/-- Of these candidates, searched for the line of a part, the rows that are marked say of which its match consists.  `found t0 σ` says that
a route was found from each candidate chosen by `σ` to the next, from the point `t0` on.  The match is invalid, none is marked and there
is no such choice; or exactly one candidate of each point is marked, from the first point that has candidates on, a route was
found from each to the next, no other such choice surpasses it in the sum of weights, and the match is the route through them: it is
connected and, if they are not all at one place, leads from the projection of the first to that of the last. -/
def Consists (j : Job Nat P ℝ ℝ) (f : Weights.Factors) (found : Nat → (Nat → Nat) → Prop) (r : Route P) (marked : Nat → Nat → Prop) : Prop :=
  (r = Route.bad ∧ (∀ i k, ¬ marked i k) ∧ ∀ t0, Starts j t0 → ¬ ∃ σ, found t0 σ) ∨
    ∃ t0 σ pts, Starts j t0 ∧ found t0 σ ∧
      (∀ σ', found t0 σ' → Weights.score f j.dists j.legOf t0 σ' (j.cands.length - 1) ≤
        Weights.score f j.dists j.legOf t0 σ (j.cands.length - 1)) ∧
      (∀ i k, marked i k ↔ (t0 ≤ i ∧ i < j.cands.length) ∧ k = σ i) ∧
      r.isConnected = true ∧ r.richLine = .ok pts ∧
      ((∃ t, t0 < t ∧ t < j.cands.length ∧ (j.cand (t - 1, σ (t - 1))).proj ≠ (j.cand (t, σ t)).proj) → r.invalid = false ∧
        pts.head? = some (j.cand (t0, σ t0)).proj ∧
        pts.getLast? = some (j.cand (j.cands.length - 1, σ (j.cands.length - 1))).proj)

theorem starts_unique {j : Job Nat P ℝ ℝ} {a b : Nat} (ha : Starts j a) (hb : Starts j b) : a = b := by
  rcases lt_trichotomy a b with h | h | h
  · exact absurd (hb.none a h) ha.some
  · exact h
  · exact absurd (ha.none b h) hb.some

theorem job_consists {j : Job Nat P ℝ ℝ} {pos : Nat → P} {bounds : (ℝ → Bool) → Prop} (hj : Ready j pos bounds)
    (hstr : j.joins = true → j.within = false ∧ Straight j.setting (OnEdge j) j.env.G.len) (f : Weights.Factors) {r : Route P}
    (hr : j.run f = .ok r) : Consists j f (Weights.Path j.dists j.legOf) r
      fun i k => (j.cands[i]?.bind fun s => s[k]?).isSome = true ∧ (i, k) ∈ j.policy f := by
  rcases none_or_starts j with h | ⟨t0, ht⟩
  · obtain ⟨h1, h2⟩ := match_empty j f h
    rw [h2, Outcome.ok.injEq] at hr
    refine .inl ⟨hr.symm, fun i k hik => ?_, fun t0 ht => absurd (h t0) ht.some⟩
    rw [h1] at hik; simp at hik
  · have hlen : j.dists.length = j.cands.length := by simp [Job.dists]
    by_cases hp : ∃ σ, Weights.Path j.dists j.legOf t0 σ
    · obtain ⟨σ, h1, h2, h3⟩ := Weights.decoded_best f j.dists j.legOf t0 (by rw [hlen]; exact ht.lt)
        (by rw [dists_getD]; simpa using ht.some) (by intro s hs; rw [dists_getD, ht.none s hs]; rfl) hp
      obtain ⟨r', pts, k1, _, k3, k4, k5, _⟩ := path_route hj hstr ht.lt h2
      have hrun : j.run f = .ok r' := by rw [Job.run, Job.policy, h1, hlen]; exact k1
      rw [hrun, Outcome.ok.injEq] at hr
      subst hr
      have hc := (path_choice hj).1 h2
      refine .inr ⟨t0, σ, pts, ht, h2, fun σ' h => ?_, fun i k => ?_, k3, k4, k5⟩
      · rw [← hlen]; exact h3 σ' h
      · have e : j.policy f = (List.range' t0 (j.cands.length - t0)).map (fun t => (t, σ t)) := by rw [Job.policy, h1, hlen]
        have hm : (i, k) ∈ j.policy f ↔ (t0 ≤ i ∧ i < j.cands.length) ∧ k = σ i := by
          rw [e, List.mem_map]
          constructor
          · rintro ⟨t, h, he⟩
            obtain ⟨rfl, rfl⟩ := Prod.mk.inj he
            obtain ⟨a1, a2⟩ := List.mem_range'_1.1 h
            exact ⟨⟨a1, by omega⟩, rfl⟩
          · rintro ⟨⟨a1, a2⟩, rfl⟩
            exact ⟨i, List.mem_range'_1.2 ⟨a1, by have := ht.lt; omega⟩, rfl⟩
        show _ ∧ (i, k) ∈ j.policy f ↔ _
        rw [hm]
        refine ⟨fun h => h.2, fun h => ⟨?_, h⟩⟩
        obtain ⟨⟨a1, a2⟩, rfl⟩ := h
        have := (hc i a1 a2).1
        rw [List.getD_eq_getElem?_getD, List.getElem?_eq_getElem a2, Option.getD_some] at this
        rw [List.getElem?_eq_getElem a2, Option.bind_some, List.getElem?_eq_getElem this]
        rfl
    · have h := Weights.decoded_none f j.dists j.legOf t0 (by rw [hlen]; exact ht.lt)
        (by rw [dists_getD]; simpa using ht.some) (by intro s hs; rw [dists_getD, ht.none s hs]; rfl) hp
      have h2 : j.run f = .ok Route.bad := by rw [Job.run, Job.policy, h, empty_bad]
      rw [h2, Outcome.ok.injEq] at hr
      refine .inl ⟨hr.symm, fun i k hik => ?_, fun t1 h => starts_unique ht h ▸ hp⟩
      rw [Job.policy, h] at hik; simp at hik

/-- What the rows of a part say: there is one for each candidate of each point of the prepared line, with point and projection, the two
pieces of the edge, distance and edge; and the marks say of which the match of the part consists.  Where a route was found, one can
go there (`Choice`); if the searches are without a bound (`free`), then one was found wherever one can go. -/
def Tells (m : Matching P) (free : Prop) (o : CandOutput P) (r : Rows.CandResult ℝ) (i : Nat) (u : List P) (route : Route P) : Prop :=
  ∃ l cs, m.rig.prep.line u = .ok l ∧ m.rig.sought l = .ok cs ∧ cs.length = l.length ∧
    (∀ j k e, Lists r i j k e ↔ ∃ p s c, l[j]? = some p ∧ cs[j]? = some s ∧ s[k]? = some c ∧ e.projection = o.segment p c.2.proj ∧
      e.from_ = o.line c.2.from_ ∧ e.to_ = o.line c.2.to_ ∧ e.distance = c.2.dist ∧ e.edgeId = o.edgeId c.1) ∧
    Consists (m.rig.job l cs) m.rig.factors (Weights.Path (m.rig.job l cs).dists (m.rig.job l cs).legOf) route (Marks o.num r i) ∧
    (∀ t0 σ, Weights.Path (m.rig.job l cs).dists (m.rig.job l cs).legOf t0 σ → Choice (m.rig.job l cs) t0 σ) ∧
    (free → ∀ t0 σ, Choice (m.rig.job l cs) t0 σ → Weights.Path (m.rig.job l cs).dists (m.rig.job l cs).legOf t0 σ)

theorem sets_get (o : CandOutput P) {l : List P} {cs : List (List (Nat × CandEdge.Cand P ℝ))} {j k : Nat} {e : Rows.CandEdge ℝ} :
    (∃ s, (o.sets l cs)[j]? = some s ∧ s[k]? = some e) ↔ ∃ p s c, l[j]? = some p ∧ cs[j]? = some s ∧ s[k]? = some c ∧
      e.projection = o.segment p c.2.proj ∧ e.from_ = o.line c.2.from_ ∧ e.to_ = o.line c.2.to_ ∧ e.distance = c.2.dist ∧
      e.edgeId = o.edgeId c.1 := by
  unfold CandOutput.sets
  constructor
  · rintro ⟨s, h1, h2⟩
    rw [List.getElem?_map, Option.map_eq_some_iff] at h1
    obtain ⟨⟨p, s'⟩, h1, rfl⟩ := h1
    rw [List.getElem?_zip_eq_some] at h1
    rw [List.getElem?_map, Option.map_eq_some_iff] at h2
    obtain ⟨c, h2, rfl⟩ := h2
    exact ⟨p, s', c, h1.1, h1.2, h2, rfl, rfl, rfl, rfl, rfl⟩
  · rintro ⟨p, s, c, h1, h2, h3, a, b, d, f, g⟩
    refine ⟨s.map (o.edge p), ?_, ?_⟩
    · rw [List.getElem?_map, List.getElem?_zip_eq_some (z := (p, s)).2 ⟨h1, h2⟩]; rfl
    · rw [List.getElem?_map, h3, Option.map_some, Option.some.injEq]
      cases e
      simp only at a b d f g
      subst a b d f g
      rfl

/-- For the prepared points of the part, edges are found within the rounds that are made. -/
def Searched (w : Rig Nat P ℝ ℝ) (pos : Nat → P) (u : List P) : Prop :=
  ∀ l, w.prep.line u = .ok l → ∃ E, Finds (w.on l) pos w.fuel E

/-- What the rows `r` of candidates of a task say, compared with its row in the file of matches and the matches of its parts on their own. -/
def Told (m : Matching P) (free : Prop) (o : CandOutput P) (t : Task P) (r : Rows.CandResult ℝ) : Prop :=
  r.id = t.id ∧ r.parts.length = r.policies.length ∧
    ∃ (alone : List P → Route P) (row : Rows.MatchResult ℝ) (pre post ls : List (List P)), m.execute t = .ok row ∧
      t.parts = pre ++ post ∧ (row.aborted = false → post = []) ∧ row.matchWkt = m.out.text ls ∧
      going ls = (pre.flatMap fun u => going (alone u).lines) ∧
      (∀ (i : Nat) u, pre[i]? = some u → m.rig.alone u = .ok (alone u) ∧ Tells m free o r i u (alone u)) ∧
      ∀ i j k, pre.length ≤ i → ¬ Marks o.num r i j k

/-- **C121, one task.**  Whatever the clock says: a track for whose parts candidates are found is
matched and its candidates are passed to their exporter.  The match consists of the matches of the first parts (of all, if the time is
not over), and of each of these parts the rows tell the candidates and of which the match of the part consists (`Tells`).  No row of a
further part is marked.
If turns within edges are trimmed, joints are not removed.
Missing: as in C107 (results as whole edges), other learners. -/
theorem task_told_partial {m : Matching P} (hs : m.rig.prep.Sane) (hx : m.exported.edges = false)
    {bounds : (ℝ → Bool) → Prop} (hfound : ∀ a b, Answer (m.rig.hunt.net.graph m.rig.hunt.env.G) bounds a b (m.rig.found a b))
    (heven : m.rig.joins = true → m.rig.within = false ∧ m.rig.hunt.Even m.rig.turn) {pos : Nat → P} {t : Task P} (hf : ∀ u ∈ t.parts, Searched m.rig pos u)
    (o : CandOutput P) :
    ∃ r, m.candidates o t = .ok r ∧ Told m (∀ b, bounds b → b = SP.noBound) o t r := by
  have hone : ∀ u, ∃ q, u ∈ t.parts → m.rig.alone u = .ok q ∧ (q = Route.bad ∨ Sound m.rig.Refers q) ∧ ∃ l cs, m.rig.prep.line u = .ok l ∧
      m.rig.sought l = .ok cs ∧ cs.length = l.length ∧ Ready (m.rig.job l cs) pos bounds := by
    intro u
    by_cases hu : u ∈ t.parts
    · obtain ⟨l, h1, _⟩ := prepared_drawn hs u
      obtain ⟨E, hE⟩ := hf u hu l h1
      obtain ⟨q, h2, _, h3⟩ := alone_fits hfound heven h1 hE (Nat.le_refl _)
      obtain ⟨cs, k1, k2, k3⟩ := sought_spots hE
      exact ⟨q, fun _ => ⟨h2, h3, l, cs, h1, by rw [Rig.sought, k1]; rfl, k2.size, hE.plane, hE.laid, k3, hfound⟩⟩
    · exact ⟨Route.bad, fun h => absurd h hu⟩
  choose alone hal using hone
  have halone : ∀ u ∈ t.parts, m.rig.alone u = .ok (alone u) := fun u hu => (hal u hu).1
  have hst : ∀ r, stored m.exported r = r := fun r => by unfold stored; rw [hx]
  obtain ⟨pre, post, h1, h2, h3⟩ := loop_kept (rig_decided m.rig) m.exported t.parts Collected.none _ (start_fresh m.max t.reading) rfl
  have hpre : ∀ u ∈ pre, u ∈ t.parts := fun u hu => by rw [h1]; exact List.mem_append_left _ hu
  rw [show matchLoop m.rig.engine m.exported t.parts Collected.none ⟨TimeLimit.make m.max (t.reading 0), t.reading, 1⟩ = m.collected t from rfl] at h2 h3
  have hr : routes m.rig.engine m.exported pre = pre.map alone := by
    unfold routes
    refine List.map_congr_left fun u hu => ?_
    rw [hst, full_route (halone u (hpre u hu))]
  obtain ⟨sx, px, tail, g1, g2, g3, g4, g5, g6, g7⟩ : ∃ sx px tail, (m.collected t).prepared = pre.map (fun u => (full m.rig.engine u).1) ++ sx ∧
      (m.collected t).policies = pre.map (fun u => (full m.rig.engine u).2) ++ px ∧ (m.collected t).matched = pre.map alone ++ tail ∧
      (tail = [] ∨ tail = [Route.bad]) ∧ sx.length = px.length ∧ (∀ s ∈ sx, ∃ l cs, s = .ok (l, cs)) ∧ ∀ p ∈ px, p = [] := by
    rcases h3 with ⟨a1, a2, a3⟩ | ⟨u, rest, e, c, a1, a2, s, a3⟩
    · exact ⟨[], [], [], by simpa [Collected.none] using a1, by simpa [Collected.none] using a2, by rw [a3, hr]; simp [Collected.none],
        .inl rfl, rfl, by simp, by simp⟩
    · obtain ⟨⟨l, cs⟩, hs⟩ := set_ok (halone u (by rw [h1, e]; simp)) c
      refine ⟨[.ok (l, cs)], [[]], [Route.bad], ?_, ?_, ?_, .inr rfl, rfl, by simp, by simp⟩
      · rw [a1, ← hs]; simp [Collected.none]; rfl
      · rw [a2]; simp [Collected.none]; rfl
      · rw [a3, hr, hst, result_empty]; simp [Collected.none]
  obtain ⟨q, k1, _, _, k4⟩ := matched_lines m.next (net := m.rig.Refers) (rs := pre.map alone) (tail := tail) (by
    intro r hr
    obtain ⟨u, hu, rfl⟩ := List.mem_map.1 hr
    exact (hal u (hpre u hu)).2.1) g4
  rw [← g3] at k1
  obtain ⟨ls, k5, k6⟩ := ExportEdges.multiLine_segs q
  obtain ⟨ps, k7⟩ := prepared_ok halone _ (loop_got m.rig m.exported t.parts t.parts Collected.none _ (start_fresh m.max t.reading)
    (fun _ h => h) rfl (by simp [Collected.none]))
  have hex : m.execute t = .ok (m.result t ps q ls) := by
    unfold Matching.execute
    rw [show prepared m.rig ((m.collected t).prepared.zip (m.collected t).policies) = .ok ps from k7, Outcome.bind_ok, k1, Outcome.bind_ok, k5,
      Outcome.map_ok]
  have hfull : ∀ u ∈ pre, ∀ l cs, m.rig.prep.line u = .ok l → m.rig.sought l = .ok cs →
      full m.rig.engine u = (.ok (l, cs), (m.rig.job l cs).policy m.rig.factors) := by
    intro u _ l cs hl hc
    show (calm (m.rig.set u), calm (m.rig.learn (calm (m.rig.set u)))) = _
    rw [calm_set, hl, Outcome.bind_ok, hc, Outcome.map_ok, Rig.learn, calm_waits]
    rfl
  obtain ⟨cps, c1, c2, c3⟩ := parts_ok o (m.collected t).prepared (by
    intro s hs
    rw [g1] at hs
    rcases List.mem_append.1 hs with hs | hs
    · obtain ⟨u, hu, rfl⟩ := List.mem_map.1 hs
      obtain ⟨_, _, l, cs, b1, b2, _⟩ := hal u (hpre u hu)
      exact ⟨l, cs, by rw [hfull u hu l cs b1 b2]⟩
    · exact g6 s hs)
  refine ⟨⟨t.id, cps, (m.collected t).policies⟩, by rw [Matching.candidates, c1, Outcome.map_ok], rfl, ?_, alone, _, pre, post, ls, hex, h1, h2, rfl, ?_,
    ?_, ?_⟩
  · show cps.length = (m.collected t).policies.length
    rw [c2, g1, g2]; simp [g5]
  · rw [show going ls = going q.lines by unfold going; rw [k6], k4, going_moves, List.flatMap_map]
  · intro i u hi
    have hu := List.mem_of_getElem? hi
    obtain ⟨b0, _, l, cs, b1, b2, b3, b4⟩ := hal u (hpre u hu)
    have hlt : i < pre.length := (List.getElem?_eq_some_iff.1 hi).1
    have e := hfull u hu l cs b1 b2
    have e1 : (m.collected t).prepared[i]? = some (.ok (l, cs)) := by
      rw [g1, List.getElem?_append_left (by simpa using hlt), List.getElem?_map, hi, Option.map_some, e]
    have e2 : (m.collected t).policies[i]? = some ((m.rig.job l cs).policy m.rig.factors) := by
      rw [g2, List.getElem?_append_left (by simpa using hlt), List.getElem?_map, hi, Option.map_some, e]
    have e3 := c3 i l cs e1
    refine ⟨b0, l, cs, b1, b2, b3, fun j k e => ?_, ?_⟩
    · rw [lists_iff (r := ⟨t.id, cps, (m.collected t).policies⟩) e3]
      exact sets_get o
    · have hrun : (m.rig.job l cs).run m.rig.factors = .ok (alone u) := by
        rw [Rig.alone, b1, Outcome.bind_ok, b2, Outcome.bind_ok] at b0
        exact b0
      have hc := job_consists b4 heven m.rig.factors hrun
      have hm : (Marks o.num (⟨t.id, cps, (m.collected t).policies⟩ : Rows.CandResult ℝ) i) = fun j k =>
          ((m.rig.job l cs).cands[j]?.bind fun s => s[k]?).isSome = true ∧ (j, k) ∈ (m.rig.job l cs).policy m.rig.factors := by
        funext j k
        rw [eq_iff_iff, marks_iff]
        refine and_congr ?_ (by rw [show (⟨t.id, cps, (m.collected t).policies⟩ : Rows.CandResult ℝ).policies[i]? = _ from e2]; rfl)
        constructor
        · rintro ⟨e, he⟩
          rw [lists_iff (r := ⟨t.id, cps, (m.collected t).policies⟩) e3, sets_get] at he
          obtain ⟨p, s, c, d1, d2, d3, _⟩ := he
          show (cs[j]?.bind fun s => s[k]?).isSome = true
          rw [d2, Option.bind_some, d3]; rfl
        · intro h
          replace h : (cs[j]?.bind fun s => s[k]?).isSome = true := h
          obtain ⟨c, h⟩ := Option.isSome_iff_exists.1 h
          obtain ⟨s, d2, d3⟩ := Option.bind_eq_some_iff.1 h
          have hj : j < l.length := b3 ▸ (List.getElem?_eq_some_iff.1 d2).1
          refine ⟨o.edge l[j] c, (lists_iff (r := ⟨t.id, cps, (m.collected t).policies⟩) e3).2 ((sets_get o).2
            ⟨l[j], s, c, List.getElem?_eq_getElem hj, d2, d3, rfl, rfl, rfl, rfl, rfl⟩)⟩
      exact ⟨by rw [hm]; exact hc, fun t0 σ h => (path_choice b4).1 h, fun hfree t0 σ h => (path_choice b4).2 hfree h⟩
  · intro i j k hi hm
    obtain ⟨_, h⟩ := (marks_iff o.num).1 hm
    replace h : (j, k) ∈ ((m.collected t).policies[i]?).getD [] := h
    rw [g2, List.getElem?_append_right (by simpa using hi)] at h
    cases hp : px[i - (pre.map fun u => (full m.rig.engine u).2).length]? with
    | none => rw [hp] at h; simp at h
    | some p => rw [hp, Option.getD_some, g7 p (List.mem_of_getElem? hp)] at h; simp at h

/-- **C121, file.**  The file of candidates is written for any tracks for whose parts candidates are found: a header and a row for each
candidate of each point, with what each column is about, in order, and what the rows of each track say is as in `task_told_partial`.
Missing: as there; names of columns that are not known (C43). -/
theorem candidates_told_partial {m : Matching P} (hs : m.rig.prep.Sane) (hx : m.exported.edges = false)
    {bounds : (ℝ → Bool) → Prop} (hfound : ∀ a b, Answer (m.rig.hunt.net.graph m.rig.hunt.env.G) bounds a b (m.rig.found a b))
    (heven : m.rig.joins = true → m.rig.within = false ∧ m.rig.hunt.Even m.rig.turn) {pos : Nat → P} {ts : List (Task P)}
    (hf : ∀ t ∈ ts, ∀ u ∈ t.parts, Searched m.rig pos u) (o : CandOutput P) (hknown : ∀ n ∈ Rows.columnNames o.columns, n ∈ Rows.candNames) :
    ∃ rs file, m.candidateFile o ts = .ok file ∧ List.Forall₂ (Told m (∀ b, bounds b → b = SP.noBound) o) ts rs ∧
      Rows.GoodFile (Rows.columnNames o.columns) (Rows.candValue o.num) (rs.flatMap Rows.cells) file.rows := by
  have hall : ∃ rs, List.Forall₂ (fun t r => m.candidates o t = .ok r ∧ Told m (∀ b, bounds b → b = SP.noBound) o t r) ts rs := by
    clear hknown
    induction ts with
    | nil => exact ⟨[], .nil⟩
    | cons t ts ih =>
      obtain ⟨rs, h⟩ := ih fun t ht => hf t (List.mem_cons_of_mem _ ht)
      obtain ⟨r, h1⟩ := task_told_partial hs hx hfound heven (hf t (by simp)) o
      exact ⟨r :: rs, .cons h1 h⟩
  obtain ⟨rs, hrs⟩ := hall
  have hpol : ∀ r ∈ rs, r.parts.length ≤ r.policies.length := by
    intro r hr
    obtain ⟨i, hi, rfl⟩ := List.mem_iff_getElem.1 hr
    have := hrs.get (i := i) (by rw [hrs.length_eq]; exact hi) hi
    exact this.2.2.1.le
  obtain ⟨xs, h1, h2⟩ := Rows.candidates_partial o.num o.columns rs hknown hpol
  refine ⟨rs, _, ?_, hrs.imp fun _ _ h => h.2, h2⟩
  have hrec : m.candidateRecords o ts = .ok xs := by
    clear h2 hpol hknown hf
    induction hrs generalizing xs with
    | nil => cases h1; rfl
    | cons h _ ih =>
      cases h1 with
      | cons k1 k2 => rw [Matching.candidateRecords, h.1, Outcome.bind_ok, k1, Outcome.bind_ok, ih _ k2, Outcome.map_ok]
  rw [Matching.candidateFile, hrec, Outcome.map_ok]

/-! ### The town -/

/-- A ride, recorded twice. -/
noncomputable def twice : Task Int := ⟨"twice", [[2, 13], [2, 13]], fun n => (n : ℝ), 3⟩

def townCandidates : CandOutput Int := ⟨fun _ _ => "LINESTRING", fun _ => "LINESTRING", id, fun _ => "1", "id,part_index,set_index,candidate_index,is_result"⟩

theorem twice_searched (found : Nat → Nat → Option (List Nat)) : ∃ fuel, ∀ u ∈ twice.parts,
    Searched ({ townRig found with fuel := fuel } : Rig Nat Int ℝ ℝ) (fun v => (nodeAt townNet v).2) u := by
  obtain ⟨fuel, E, hE⟩ := town_searches found (t := [2, 13]) (by simp) _ town_line
  refine ⟨fuel, fun u hu l hl => ?_⟩
  have : u = [2, 13] := by simpa [twice] using hu
  subst this
  have : l = [2, 13] := Outcome.ok.inj (hl.symm.trans town_line)
  subst this
  exact ⟨E, hE⟩

noncomputable def townTelling (found : Nat → Nat → Option (List Nat)) (fuel : Nat) (max : ℝ) : Matching Int :=
  { townMatching (fun _ => "LINESTRING") found max "id" with rig := { townRig found with fuel := fuel } }

/-- `candidates_told_partial`: with any time limit. -/
example (max : ℝ) : ∃ found fuel rs file, (townTelling found fuel max).candidateFile townCandidates [twice] = .ok file ∧
    List.Forall₂ (Told (townTelling found fuel max) (∀ b : ℝ → Bool, b = SP.noBound → b = SP.noBound) townCandidates) [twice] rs ∧
      Rows.GoodFile (Rows.columnNames townCandidates.columns) (Rows.candValue townCandidates.num) (rs.flatMap Rows.cells) file.rows := by
  choose found hfound using prepared_answers townNet streetGeo
  obtain ⟨fuel, hfuel⟩ := twice_searched found
  exact ⟨found, fuel, candidates_told_partial (m := townTelling found fuel max) townPrep_sane rfl hfound (fun h => by cases h)
    (pos := fun v => (nodeAt townNet v).2) (ts := [twice]) (fun t ht => by rw [List.mem_singleton.1 ht]; exact hfuel) townCandidates (by decide)⟩

/-- `candidates_told_partial`: with trimmed turns and searches that end after a distance of five. -/
example (max : ℝ) : ∃ (found : Nat → Nat → Option (List Nat)) (fuel : Nat) (m : Matching Int), m.rig.within = true ∧
    m = { townTelling found fuel max with rig := { townRig found with fuel := fuel, within := true } } ∧
    ∃ rs file, m.candidateFile townCandidates [twice] = .ok file ∧
      List.Forall₂ (Told m (∀ b : ℝ → Bool, b = upToFive → b = SP.noBound) townCandidates) [twice] rs ∧
      Rows.GoodFile (Rows.columnNames townCandidates.columns) (Rows.candValue townCandidates.num) (rs.flatMap Rows.cells) file.rows := by
  choose found hfound using prepared_answers_within townNet streetGeo upToFive
  obtain ⟨fuel, hfuel⟩ := twice_searched found
  exact ⟨found, fuel, _, rfl, rfl, candidates_told_partial (m := { townTelling found fuel max with rig := { townRig found with fuel := fuel, within := true } })
    townPrep_sane rfl hfound (fun h => by cases h)
    (pos := fun v => (nodeAt townNet v).2) (ts := [twice]) (fun t ht => by rw [List.mem_singleton.1 ht]; exact hfuel) townCandidates (by decide)⟩

/-- `task_told_partial`: without a time limit, exactly one candidate of each of the two points of the second part is marked. -/
example : ∃ (m : Matching Int) (r : Rows.CandResult ℝ), m.candidates townCandidates twice = .ok r ∧
    ∃ σ : Nat → Nat, ∀ i k, Marks townCandidates.num r 1 i k ↔ i < 2 ∧ k = σ i := by
  choose found hfound using prepared_answers townNet streetGeo
  obtain ⟨fuel, hfuel⟩ := twice_searched found
  obtain ⟨r, h1, _, _, alone, row, pre, post, ls, h2, h3, h4, _, _, h5, _⟩ := task_told_partial (m := townTelling found fuel 0) townPrep_sane rfl
    hfound (fun h => by cases h) hfuel townCandidates
  refine ⟨_, r, h1, ?_⟩
  have hab : row.aborted = false := by
    have : row.aborted = ((townTelling found fuel 0).collected twice).aborted := by
      unfold Matching.execute at h2
      generalize prepared (townTelling found fuel 0).rig _ = a at h2
      cases a with
      | throws => cases h2
      | ub => cases h2
      | ok ps =>
        rw [Outcome.bind_ok] at h2
        generalize matchRoute (P := Int) _ _ = b at h2
        cases b with
        | throws => cases h2
        | ub => cases h2
        | ok q =>
          rw [Outcome.bind_ok] at h2
          generalize q.multiLine = d at h2
          cases d with
          | throws => cases h2
          | ub => cases h2
          | ok ls => cases h2; rfl
    rw [this]
    cases ha : ((townTelling found fuel 0).collected twice).aborted with
    | false => rfl
    | true => exact absurd (aborted_late _ _ _ _ _ ha).1 (lt_irrefl _)
  rw [h4 hab, List.append_nil] at h3
  obtain ⟨_, l, cs, k1, k2, k3, _, k5, _, k7⟩ := h5 1 [2, 13] (by rw [← h3]; rfl)
  have : l = [2, 13] := Outcome.ok.inj (k1.symm.trans town_line)
  subst this
  obtain ⟨K, cs', j, ρ, σ, q, g1, g2, _, _, _, g6, _⟩ := found_match_partial town_plain (by decide) rfl rfl (h := (townRig found).on [2, 13]) rfl
    town_circle (by simp [Rig.on]) (turn := (townRig found).turn) (joins := false) hfound (fun h => by cases h) usual (g := fun t => t) (by
      intro t p hp
      have hlt : t < 2 := (List.getElem?_eq_some_iff.1 hp).1
      have : t = 0 ∨ t = 1 := by omega
      rcases this with rfl | rfl
      · obtain rfl : p = 2 := by simpa [Rig.on] using hp.symm
        exact ⟨⟨0, 1, [0, 10]⟩, rfl, le_trans (by simp [Rig.on, townRig, townHunt, streetGap]) (town_reach 0)⟩
      · obtain rfl : p = 13 := by simpa [Rig.on] using hp.symm
        exact ⟨⟨1, 2, [10, 20]⟩, rfl, le_trans (by simp [Rig.on, townRig, townHunt, streetGap]) (town_reach 1)⟩) (by
      intro t h0 ht
      replace ht : t < 2 := ht
      obtain rfl : t = 1 := by omega
      exact ⟨⟨0, 1, (100, [0, 10])⟩, ⟨1, 2, (100, [10, 20])⟩, 0, rfl, rfl, .stay _⟩)
  have hcs : cs' = cs := by
    replace k2 : (((townRig found).on [2, 13]).candidates fuel).getD .ub = .ok cs := k2
    cases hk : ((townRig found).on [2, 13]).candidates fuel with
    | none => rw [hk] at k2; cases k2
    | some y =>
      rw [hk, Option.getD_some] at k2
      have e1 := candidates_stable (Nat.le_add_right K fuel) g1
      rw [candidates_stable (Nat.le_add_left fuel K) hk, k2] at e1
      exact (Outcome.ok.inj (Option.some.inj e1)).symm
  subst hcs
  have hj : j = (townTelling found fuel 0).rig.job [2, 13] cs' := g2
  rw [hj] at g6
  have h0 : Starts ((townTelling found fuel 0).rig.job [2, 13] cs') 0 := by
    refine ⟨by show 0 < cs'.length; rw [k3]; decide, ?_, fun s hs => absurd hs (Nat.not_lt_zero s)⟩
    have := (g6 0 (Nat.le_refl _) (by show 0 < cs'.length; rw [k3]; decide)).1
    intro he
    rw [he] at this
    exact absurd this (Nat.not_lt_zero _)
  rcases k5 with ⟨_, _, k⟩ | ⟨t0, τ, pts, a1, _, _, a4, _⟩
  · exact absurd ⟨σ, k7 (fun _ h => h) 0 σ g6⟩ (k 0 h0)
  · have := starts_unique a1 h0
    subst this
    refine ⟨τ, fun i k => ?_⟩
    rw [a4 i k, show ((townTelling found fuel 0).rig.job [2, 13] cs').cands.length = 2 from k3]
    simp

end MM.Session
