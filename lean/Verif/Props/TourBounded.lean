import Verif.Props.QMatch

/-!
# C97 and C106 with bounded searches and trimmed turns

As `decided_partial` and `learned_partial`, whatever bounds the searches of routes use and whether or not turns within edges are trimmed.
What is given up then is said of the routes that were found.
-/

set_option autoImplicit false
set_option linter.unusedSectionVars false

namespace MM.Pipe

open MM.Line MM.Route MM.Router MM.CandEdge MM.MatchRoute

section Bounded

variable {V P : Type} [DecidableEq V] [DecidableEq P] [Inhabited P]

/-- One can go from one candidate to the other, a route was found, and it is no longer than ten times the segment of the track. -/
def Led (j : Job V P ℝ ℝ) (p q : Entry) : Prop :=
  Goes j p q ∧ ∃ r, j.setting.leg p q = .ok r ∧ r.invalid = false ∧
    ∀ x a b, routeLength j.env.G r.lines = some x → j.track[p.1]? = some a → j.track[q.1]? = some b → a ≠ b → x ≤ 10 * j.env.G.len a b

/-- No route was found, or only a longer one. -/
def Refused (j : Job V P ℝ ℝ) (p q : Entry) : Prop :=
  ∃ r, j.setting.leg p q = .ok r ∧ (r.invalid = true ∨ ∃ x a b, routeLength j.env.G r.lines = some x ∧ j.track[p.1]? = some a ∧
    j.track[q.1]? = some b ∧ a ≠ b ∧ 10 * j.env.G.len a b < x)

/-- Candidates in stretches, from candidate `g` of point `t` on: one of each point that has some; each led to from the one before, unless
the connection was given up: because a candidate of the next point was tried that is refused, or because the next point has none. -/
inductive Journey (j : Job V P ℝ ℝ) : Nat → Nat → List (List Entry) → Prop
  | stop {t g : Nat} : j.cands.length ≤ t + 1 → Journey j t g [[(t, g)]]
  | on {t g h : Nat} {es : List Entry} {rest : List (List Entry)} : t + 1 < j.cands.length → h < (j.cands.getD (t + 1) []).length →
      Led j (t, g) (t + 1, h) → Journey j (t + 1) h (((t + 1, h) :: es) :: rest) → Journey j t g (((t, g) :: (t + 1, h) :: es) :: rest)
  | refused {t g h g' : Nat} {rest : List (List Entry)} : t + 1 < j.cands.length → h < (j.cands.getD (t + 1) []).length →
      Refused j (t, g) (t + 1, h) → g' < (j.cands.getD (t + 1) []).length → Journey j (t + 1) g' rest → Journey j t g ([(t, g)] :: rest)
  | gap {t g g' : Nat} {rest : List (List Entry)} : j.cands.getD (t + 1) [] = [] → t + 2 < j.cands.length →
      g' < (j.cands.getD (t + 2) []).length → Journey j (t + 2) g' rest → Journey j t g ([(t, g)] :: rest)
  | off {t g : Nat} : j.cands.getD (t + 1) [] = [] → t + 2 = j.cands.length → Journey j t g [[(t, g)]]

theorem judge_led {j : Job V P ℝ ℝ} {pos : V → P} {bounds : (ℝ → Bool) → Prop} (hj : Ready j pos bounds) (hl : j.track.length = j.cands.length)
    {f : Weights.Factors} {t g h : Nat} (ht : t + 1 < j.cands.length) (hg : g < (j.cands.getD t []).length)
    (hh : h < (j.cands.getD (t + 1) []).length) :
    ((j.judge f (t + 1) g h).invalid = false → (j.judge f (t + 1) g h).detour = false → Led j (t, g) (t + 1, h)) ∧
    ((j.judge f (t + 1) g h).invalid = true ∨ (j.judge f (t + 1) g h).detour = true → Refused j (t, g) (t + 1, h)) := by
  have e1 := entry_some hg
  have e2 := entry_some hh
  obtain ⟨c, hc⟩ := Option.isSome_iff_exists.1 e1
  obtain ⟨d, hd⟩ := Option.isSome_iff_exists.1 e2
  obtain ⟨r, h1, h2, _⟩ := leg_all hj hc hd (show t ≠ t + 1 by omega)
  obtain ⟨a, ha⟩ : ∃ a, j.track[t]? = some a := ⟨_, List.getElem?_eq_getElem (by rw [hl]; omega)⟩
  obtain ⟨b, hb⟩ : ∃ b, j.track[t + 1]? = some b := ⟨_, List.getElem?_eq_getElem (by rw [hl]; omega)⟩
  have hleg : j.legOf (t + 1) h g = ⟨r.invalid, decide (j.track[t]? = j.track[t + 1]?), routeLength j.env.G r.lines,
      j.segment j.env.G.len (t + 1), routeAzimuth j.env.G r.lines, j.segment j.env.G.az (t + 1), j.turnBefore (t + 1), turns j.env.G r⟩ := by
    rw [Job.legOf, Nat.add_sub_cancel, h1]
  have hseg : j.segment j.env.G.len (t + 1) = if a = b then none else some (j.env.G.len a b) := by
    unfold Job.segment
    rw [Nat.add_sub_cancel, ha, hb]
  by_cases hi : r.invalid = true
  · have hj1 : (j.judge f (t + 1) g h).invalid = true := by rw [Job.judge, if_pos (by rw [hleg]; exact hi)]
    exact ⟨fun k => by rw [hj1] at k; simp at k, fun _ => ⟨r, h1, .inl hi⟩⟩
  · have hi' : r.invalid = false := by simpa using hi
    have hj1 : (j.judge f (t + 1) g h).invalid = false := by rw [Job.judge, if_neg (by rw [hleg]; exact hi)]
    have hdet : (j.judge f (t + 1) g h).detour = true ↔ ∃ x, routeLength j.env.G r.lines = some x ∧ a ≠ b ∧ 10 * j.env.G.len a b < x := by
      rw [Job.judge, if_neg (by rw [hleg]; exact hi)]
      simp only [hleg, hseg]
      by_cases hab : a = b
      · simp [hab, Weights.detour]
      · have hpos := hj.plane.toMetric.pos a b hab
        have hsame : decide (j.track[t]? = j.track[t + 1]?) = false := by rw [ha, hb]; simpa using hab
        simp only [hsame, Bool.false_and, Bool.not_false, Bool.true_and, hab, if_false, Option.getD_some, Weights.detour, decide_eq_true_eq,
          ne_eq, not_false_eq_true, true_and]
        rw [lt_div_iff₀ hpos]
        cases hx : routeLength j.env.G r.lines with
        | none => simp
        | some x =>
          simp only [Option.getD_some, Option.some.injEq, exists_eq_left']
          exact ⟨fun h => h.2.2, fun h => ⟨by linarith, hpos, h⟩⟩
    refine ⟨fun _ hd0 => ⟨(h2 hi').2.1, r, h1, hi', fun x a' b' hx ha' hb' hab => ?_⟩, fun h => ⟨r, h1, .inr ?_⟩⟩
    · simp only [ha, Option.some.injEq] at ha'
      simp only [hb, Option.some.injEq] at hb'
      subst ha' hb'
      by_contra hcon
      push Not at hcon
      rw [hdet.2 ⟨x, hx, hab, hcon⟩] at hd0
      simp at hd0
    · rcases h with h | h
      · rw [hj1] at h; simp at h
      · obtain ⟨x, k1, k2, k3⟩ := hdet.1 h
        exact ⟨x, a, b, k1, ha, hb, k2, k3⟩

theorem journey_of_trip {j : Job V P ℝ ℝ} {pos : V → P} {bounds : (ℝ → Bool) → Prop} (hj : Ready j pos bounds)
    (hl : j.track.length = j.cands.length) {f : Weights.Factors} {t g : Nat} {runs : List (List Entry × Bool)}
    (h : Trip (j.task f true) t g runs) (ht : t < j.cands.length) (hg : g < (j.cands.getD t []).length) :
    Journey j t g (runs.map Prod.fst) ∧ (∀ y ∈ runs, y.1 ≠ []) ∧ (∀ y ∈ runs, ∀ e ∈ y.1, (j.entry e).isSome = true) ∧
      (∀ y ∈ runs, y.1.IsChain (Steps j)) ∧ runs.IsChain (fun y _ => y.2 = true) := by
  have e1 := entry_some (t := t) hg
  induction h with
  | stop hn => exact ⟨.stop hn, by simp, by simpa using e1, by simp, by simp⟩
  | @on t g h es rep rest h1 h2 h3 h4 _ ih =>
    have e2 := entry_some (j := j) (t := t + 1) (k := h) h2
    obtain ⟨k1, k2, k3, k4, k5⟩ := ih h1 h2 e2
    have hn := (judge_led hj hl (f := f) h1 hg h2).1 h3 h4
    refine ⟨.on h1 h2 hn k1, ?_, ?_, ?_, ?_⟩
    · intro y hy
      rcases List.mem_cons.1 hy with rfl | hy
      · simp
      · exact k2 y (List.mem_cons_of_mem _ hy)
    · intro y hy e he
      rcases List.mem_cons.1 hy with rfl | hy
      · rcases List.mem_cons.1 he with rfl | he
        · exact e1
        · exact k3 (((t + 1, h) :: es, rep)) (by simp) e he
      · exact k3 y (List.mem_cons_of_mem _ hy) e he
    · intro y hy
      rcases List.mem_cons.1 hy with rfl | hy
      · refine List.isChain_cons_cons.2 ⟨⟨by simp, fun r hr => ?_⟩, k4 (((t + 1, h) :: es, rep)) (by simp)⟩
        obtain ⟨r', m1, m2, _⟩ := hn.2
        rw [m1] at hr
        cases hr
        exact m2
      · exact k4 y (List.mem_cons_of_mem _ hy)
    · cases rest with
      | nil => simp
      | cons z rest =>
        rw [List.isChain_cons_cons] at k5 ⊢
        exact k5
  | @refused t g h g' rest h1 h2 h3 h4 h5 ih =>
    obtain ⟨k1, k2, k3, k4, k5⟩ := ih h1 h4 (entry_some h4)
    refine ⟨.refused h1 h2 ((judge_led hj hl (f := f) h1 hg h2).2 h3) h4 k1, ?_, ?_, ?_, ?_⟩
    · intro y hy
      rcases List.mem_cons.1 hy with rfl | hy
      · simp
      · exact k2 y hy
    · intro y hy e he
      rcases List.mem_cons.1 hy with rfl | hy
      · simp only [List.mem_singleton] at he; rw [he]; exact e1
      · exact k3 y hy e he
    · intro y hy
      rcases List.mem_cons.1 hy with rfl | hy
      · simp
      · exact k4 y hy
    · obtain ⟨es, rep, rest', rfl⟩ := trip_head h5
      exact List.isChain_cons_cons.2 ⟨rfl, k5⟩
  | @gap t g g' rest h1 h2 h3 h5 ih =>
    obtain ⟨k1, k2, k3, k4, k5⟩ := ih h2 h3 (entry_some h3)
    refine ⟨.gap (List.eq_nil_of_length_eq_zero h1) h2 h3 k1, ?_, ?_, ?_, ?_⟩
    · intro y hy
      rcases List.mem_cons.1 hy with rfl | hy
      · simp
      · exact k2 y hy
    · intro y hy e he
      rcases List.mem_cons.1 hy with rfl | hy
      · simp only [List.mem_singleton] at he; rw [he]; exact e1
      · exact k3 y hy e he
    · intro y hy
      rcases List.mem_cons.1 hy with rfl | hy
      · simp
      · exact k4 y hy
    · obtain ⟨es, rep, rest', rfl⟩ := trip_head h5
      exact List.isChain_cons_cons.2 ⟨rfl, k5⟩
  | off h1 h2 => exact ⟨.off (List.eq_nil_of_length_eq_zero h1) h2, by simp, by simpa using e1, by simp, by simp⟩

/-- A match: a journey from the first point with candidates on, its stretches, and the plan by which it was chosen. -/
structure Travelled (j : Job V P ℝ ℝ) (f : Weights.Factors) (bounds : (ℝ → Bool) → Prop) (γ : ℝ) (t0 : Nat) (r : Route P)
    (runs : List (List Entry)) (l : List (Option Entry)) (v : ℝ) : Prop where
  journey : ∃ g, g < (j.cands.getD t0 []).length ∧ Journey j t0 g runs
  plan : Decide.Plan (j.task f true) γ (.fresh 0) l v
  noted : ∃ e, (e = [] ∨ e = [none]) ∧ l = List.replicate t0 none ++ noted runs ++ e
  living : ∀ y ∈ r.refs, y ∈ r.own ∨ Held j y
  lines : ∃ parts, r.lines = parts.flatten ∧ List.Forall₂ (Stretch j bounds) runs parts
  valid : (∃ run ∈ runs, ∃ e ∈ run.zip run.tail, (j.cand e.1).proj ≠ (j.cand e.2).proj) → r.invalid = false

/-- The route for a plan. -/
theorem plan_travelled {j : Job V P ℝ ℝ} {pos : V → P} {bounds : (ℝ → Bool) → Prop} (hj : Ready j pos bounds)
    (hl : j.track.length = j.cands.length) (hstr : j.joins = true → j.within = false ∧ Straight j.setting (OnEdge j) j.env.G.len)
    (hgap : NoWideGap j) {f : Weights.Factors} {γ : ℝ}
    {l : List (Option Entry)} {v : ℝ} (hp : Decide.Plan (j.task f true) γ (.fresh 0) l v) :
    ((∀ t, j.cands.getD t [] = []) → MatchRoute.candidatesRoute j.setting (Router.policyOf l) = .ok Route.bad) ∧
    ∀ t0, Starts j t0 → ∃ r runs, MatchRoute.candidatesRoute j.setting (Router.policyOf l) = .ok r ∧
      Travelled j f bounds γ t0 r runs l v := by
  have hcases : ((∀ i, (j.cands.getD i []).length = 0) ∧ Router.policyOf l = []) ∨
      ∃ t g runs, t < j.cands.length ∧ g < (j.cands.getD t []).length ∧ (∀ i, i < t → (j.cands.getD i []).length = 0) ∧
        Trip (j.task f true) t g runs ∧ (∃ e, (e = [] ∨ e = [none]) ∧ l = List.replicate t none ++ Pipe.noted (runs.map Prod.fst) ++ e) ∧
        Router.policyOf l = MatchRoute.policyOf runs := by
    by_cases h0 : 0 < j.cands.length
    · have hrest : Rest (j.task f true) γ (.fresh 0) l := .inr ⟨h0, v, hp⟩
      rcases trip_of_start (x := j.task f true) rfl hgap l (.fresh 0) (by simp) (by simp [Decide.Sit.pos]) hrest with h | h
      · left
        refine ⟨fun i => ?_, h.2⟩
        by_cases hi : i < j.cands.length
        · exact h.1 i hi
        · simp [List.getElem?_eq_none (show j.cands.length ≤ i by omega)]
      · obtain ⟨t, g, runs, k1, k2, _, k4, k5, k6, k7⟩ := h
        exact .inr ⟨t, g, runs, k1, k2, k4, k5, k6, k7⟩
    · left
      have hz : j.cands = [] := List.eq_nil_of_length_eq_zero (by omega)
      have hn : (j.task f true).n = 0 := by show j.cands.length = 0; rw [hz]; rfl
      refine ⟨fun i => by rw [hz]; rfl, ?_⟩
      cases hp with
      | last hg _ =>
        cases hg with
        | gap => rfl
        | first h => rw [hn] at h; simp at h
      | more _ h => rw [hn] at h; simp at h
  constructor
  · intro hall
    rcases hcases with ⟨_, h⟩ | ⟨t, g, _, _, hg, _⟩
    · rw [h, MatchRoute.candidatesRoute, collect, Outcome.bind_ok]
      · exact merge_invalid (rs := []) false false _ (by simp)
      · simp
    · rw [hall t] at hg; simp at hg
  · intro t0 hst
    rcases hcases with ⟨h, _⟩ | ⟨t, g, runs, h1, h2, h3, h4, h5, h6⟩
    · exact absurd (List.eq_nil_of_length_eq_zero (h t0)) hst.some
    · have : t = t0 := starts_unique hst (by omega) h3
      subst this
      obtain ⟨k1, k2, k3, k4, k5⟩ := journey_of_trip hj hl h4 h1 h2
      obtain ⟨r, parts, m1, m2, m3, m4, m5⟩ := runs_route hj hstr runs k2 k3 k4 k5
      refine ⟨r, runs.map Prod.fst, by rw [h6]; exact m1, ⟨g, h2, k1⟩, hp, ?_, m2, ⟨parts, m3, ?_⟩, ?_⟩
      · exact h5
      · clear m1 m2 m3 m5 h4 h5 h6 k1 k2 k3 k4 k5
        induction m4 with
        | nil => exact .nil
        | cons a _ ih => exact .cons a ih
      · rintro ⟨run, hrun, e, he, hne⟩
        obtain ⟨y, hy, rfl⟩ := List.mem_map.1 hrun
        exact m5 ⟨y, hy, e, he, hne⟩

/-- **C97, with bounds and trimmed turns, an end.**  Matching with value iteration comes to an end with a route, whatever the factors and
the bounds of the searches. -/
theorem travelled_ends {j : Job V P ℝ ℝ} {pos : V → P} {bounds : (ℝ → Bool) → Prop} (hj : Ready j pos bounds)
    (hl : j.track.length = j.cands.length) (hstr : j.joins = true → j.within = false ∧ Straight j.setting (OnEdge j) j.env.G.len)
    (hgap : NoWideGap j) (f : Weights.Factors) (γ : ℝ) {th : ℝ}
    (hth : 0 ≤ th) : ∃ K, ∀ k, K ≤ k → ∃ r, j.byValues f true γ th k = .ok (some r) := by
  obtain ⟨K, hK⟩ := Decide.values_give_plan (j.task f true) γ hth
  refine ⟨K, fun k hk => ?_⟩
  obtain ⟨l, v, h1, h2⟩ := hK k hk
  unfold Job.byValues Job.routeFor
  rw [h1, Outcome.bind_ok]
  obtain ⟨k1, k2⟩ := plan_travelled hj hl hstr hgap h2
  rcases starts_or_none j with h | ⟨t0, h⟩
  · exact ⟨_, by simp only; rw [k1 h]; rfl⟩
  · obtain ⟨r, _, h3, _⟩ := k2 t0 h
    exact ⟨r, by simp only; rw [h3]; rfl⟩

/-- **C97, with bounds and trimmed turns.**  Whatever bounds the searches use, and whether or not turns are trimmed (if they are, joints
are not removed): the match by value iteration is the route for a journey.  It has one candidate of each point that has some, and leads
from each to the next if a route was found that is at most ten times as long as the track (`Led`).  The connection is given up only
where the next point has no candidates or a candidate of it was tried to which no route, or only a longer one, was found.  The
stretches are as in `decided_partial`.  No plan is better by more than the threshold for each step.
Missing: two neighbouring points without candidates (C37), A* search with unreachable goals (C04). -/
theorem travelled_partial {j : Job V P ℝ ℝ} {pos : V → P} {bounds : (ℝ → Bool) → Prop} (hj : Ready j pos bounds) (hf : Fair j)
    (hstr : j.joins = true → j.within = false ∧ Straight j.setting (OnEdge j) j.env.G.len) (hgap : NoWideGap j) {f : Weights.Factors}
    (hfo : Weights.FactorsOk f) {γ : ℝ} (hγ : 0 ≤ γ) {th : ℝ} {k : Nat} {r : Route P} (h : j.byValues f true γ th k = .ok (some r))
    {t0 : Nat} (ht : Starts j t0) : ∃ runs l v, Travelled j f bounds γ t0 r runs l v ∧
      ∀ l' v', Decide.Plan (j.task f true) γ (.fresh 0) l' v' → v' ≤ v + γ * th * Learn.discounted γ l.length := by
  obtain ⟨pol, h1, h2⟩ := routeFor_some h
  obtain ⟨l, v, rfl, h3, h4⟩ := Decide.values_near_best_partial (task_costly hj.plane.toMetric hf hfo true) hγ h1
  obtain ⟨r', runs, k1, k2⟩ := (plan_travelled hj hf.track hstr hgap h3).2 t0 ht
  rw [k1] at h2
  cases Outcome.ok.inj h2
  exact ⟨runs, l, v, k2, h4⟩

/-- **C97, with bounds and trimmed turns, policy iteration.**  The same, with threshold zero: no plan is better. -/
theorem travelled_policies_partial {j : Job V P ℝ ℝ} {pos : V → P} {bounds : (ℝ → Bool) → Prop} (hj : Ready j pos bounds) (hf : Fair j)
    (hstr : j.joins = true → j.within = false ∧ Straight j.setting (OnEdge j) j.env.G.len) (hgap : NoWideGap j) {f : Weights.Factors}
    (hfo : Weights.FactorsOk f) {γ : ℝ} (hγ : 0 ≤ γ) {t0 : Nat} (ht : Starts j t0) :
    (∃ K, ∀ k, K ≤ k → ∃ r, j.byPolicies f true γ 0 k = .ok (some r)) ∧
    ∀ k r, j.byPolicies f true γ 0 k = .ok (some r) → ∃ runs l v, Travelled j f bounds γ t0 r runs l v ∧
      ∀ l' v', Decide.Plan (j.task f true) γ (.fresh 0) l' v' → v' ≤ v := by
  have hc := task_costly hj.plane.toMetric hf hfo true
  constructor
  · obtain ⟨K, hK⟩ := Decide.policies_stop_partial hc hγ
    refine ⟨K, fun k hk => ?_⟩
    obtain ⟨pol, h1⟩ := hK k hk
    obtain ⟨l, v, rfl, h3, _⟩ := Decide.policies_best_partial hc hγ h1
    obtain ⟨r', runs, k1, k2⟩ := (plan_travelled hj hf.track hstr hgap h3).2 t0 ht
    exact ⟨r', by unfold Job.byPolicies Job.routeFor; rw [h1, Outcome.bind_ok]; simp only; rw [k1]; rfl⟩
  · intro k r h
    obtain ⟨pol, h1, h2⟩ := routeFor_some h
    obtain ⟨l, v, rfl, h3, h4⟩ := Decide.policies_best_partial hc hγ h1
    obtain ⟨r', runs, k1, k2⟩ := (plan_travelled hj hf.track hstr hgap h3).2 t0 ht
    rw [k1] at h2
    cases Outcome.ok.inj h2
    exact ⟨runs, l, v, k2, h4⟩

/-- A journey has one candidate of each point that has some. -/
theorem journey_points {j : Job V P ℝ ℝ} {t g : Nat} {runs : List (List Entry)} (h : Journey j t g runs) (ht : t < j.cands.length)
    (hg : g < (j.cands.getD t []).length) :
    (runs.flatten.map Prod.fst = (List.range' t (j.cands.length - t)).filter fun i => !(j.cands.getD i []).isEmpty) ∧
    ∀ e ∈ runs.flatten, e.2 < (j.cands.getD e.1 []).length := by
  have hne : ∀ {t g : Nat}, g < (j.cands.getD t []).length → (j.cands.getD t []).isEmpty = false := by
    intro t g hg
    cases hl : j.cands.getD t [] with
    | nil => rw [hl] at hg; simp at hg
    | cons => rfl
  induction h with
  | @stop t g hn =>
    rw [show j.cands.length - t = 1 by omega]
    refine ⟨?_, by simpa using hg⟩
    simp [hne hg, -List.getD_eq_getElem?_getD]
  | @on t g h es rest h1 h2 _ _ ih =>
    obtain ⟨k1, k2⟩ := ih h1 h2
    rw [show j.cands.length - t = (j.cands.length - (t + 1)) + 1 by omega, List.range'_succ, List.filter_cons_of_pos (by simp only [hne hg]; rfl), ← k1]
    refine ⟨by simp, fun e he => ?_⟩
    simp only [List.flatten_cons, List.cons_append, List.mem_cons] at he
    rcases he with rfl | he
    · exact hg
    · exact k2 e (by simpa using he)
  | @refused t g h g' rest h1 _ _ h4 _ ih =>
    obtain ⟨k1, k2⟩ := ih h1 h4
    rw [show j.cands.length - t = (j.cands.length - (t + 1)) + 1 by omega, List.range'_succ, List.filter_cons_of_pos (by simp only [hne hg]; rfl), ← k1]
    refine ⟨by simp, fun e he => ?_⟩
    simp only [List.flatten_cons, List.cons_append, List.mem_cons, List.nil_append] at he
    rcases he with rfl | he
    · exact hg
    · exact k2 e he
  | @gap t g g' rest h1 h2 h3 _ ih =>
    obtain ⟨k1, k2⟩ := ih h2 h3
    rw [show j.cands.length - t = (j.cands.length - (t + 2)) + 2 by omega, List.range'_succ, List.range'_succ,
      List.filter_cons_of_pos (by simp only [hne hg]; rfl), List.filter_cons_of_neg (by simp only [h1]; simp), ← k1]
    refine ⟨by simp, fun e he => ?_⟩
    simp only [List.flatten_cons, List.cons_append, List.mem_cons, List.nil_append] at he
    rcases he with rfl | he
    · exact hg
    · exact k2 e he
  | @off t g h1 h2 =>
    rw [show j.cands.length - t = 2 by omega, List.range'_succ, List.range'_succ,
      List.filter_cons_of_pos (by simp only [hne hg]; rfl), List.filter_cons_of_neg (by simp only [h1]; simp)]
    exact ⟨by simp, by simpa using hg⟩

/-- **C97, with bounds and trimmed turns, points.**  A match has a candidate of each point with candidates. -/
theorem travelled_points {j : Job V P ℝ ℝ} {f : Weights.Factors} {bounds : (ℝ → Bool) → Prop} {γ : ℝ} {t0 : Nat} {r : Route P}
    {runs : List (List Entry)} {l : List (Option Entry)} {v : ℝ} (h : Travelled j f bounds γ t0 r runs l v) (ht : Starts j t0) :
    (runs.flatten.map Prod.fst = (List.range j.cands.length).filter fun i => !(j.cands.getD i []).isEmpty) ∧
    ∀ e ∈ runs.flatten, e.2 < (j.cands.getD e.1 []).length := by
  obtain ⟨g, h1, h2⟩ := h.journey
  obtain ⟨k1, k2⟩ := journey_points h2 ht.lt h1
  refine ⟨?_, k2⟩
  rw [k1]
  have hlt := ht.lt
  have : List.range j.cands.length = List.range' 0 t0 ++ List.range' t0 (j.cands.length - t0) := by
    have := List.range'_append_1 (s := 0) (m := t0) (n := j.cands.length - t0)
    rw [zero_add] at this
    rw [this, List.range_eq_range']
    congr 1
    omega
  rw [this, List.filter_append]
  have hnil : (List.range' 0 t0).filter (fun i => !(j.cands.getD i []).isEmpty) = [] := by
    rw [List.filter_eq_nil_iff]
    intro i hi
    simp only [List.mem_range'_1, zero_le, true_and, zero_add] at hi
    rw [ht.none i hi]; simp
  rw [hnil, List.nil_append]

/-- **C106, with bounds and trimmed turns.**  As `learned_partial`, for a journey: if learning broke off before its episodes ran out, or
wrote a policy at all, or the time was up by the end of the last episode.
Missing: as there, but for bounds and trimmed turns. -/
theorem learned_travelled_partial {j : Job V P ℝ ℝ} {pos : V → P} {f : Weights.Factors} {sort : List (Nat × ℝ) → List (Nat × ℝ)} {lr γ : ℝ}
    {episodes stop : Nat} {rnd : Nat → Nat → QLearn.Draw} {aborted : Bool} {abort : Nat → Bool} {bounds : (ℝ → Bool) → Prop}
    (hj : Ready j pos bounds) (hl : j.track.length = j.cands.length)
    (hstr : j.joins = true → j.within = false ∧ Straight j.setting (OnEdge j) j.env.G.len) (hgap : NoWideGap j) (hso : QEnv.Sorts sort)
    {st : QLearn.St ℝ} {brk : Bool} {e : Env.Env ℝ}
    (h : QEnv.runE (j.learner f sort lr γ episodes stop) rnd aborted abort = .ok ((st, brk), e))
    (hst : st.policy ≠ [] ∨ brk = true ∨ (aborted = false ∧ 0 < episodes ∧ abort 0 = true)) {t0 : Nat} (ht : Starts j t0) :
    ∃ r runs l v, j.byLearning f true sort lr γ episodes stop rnd aborted abort = .ok r ∧
      Travelled j f bounds 1 t0 r runs l v ∧ st.policy = Router.policyOf l := by
  have hn : 0 < (j.task f true).n := by
    have := ht.lt
    show 0 < j.cands.length
    omega
  obtain ⟨l, v, hp, heq⟩ := QEnv.run_plan hso hn h hst
  obtain ⟨r, runs, h3, h4⟩ := (plan_travelled hj hl hstr hgap hp).2 t0 ht
  refine ⟨r, runs, l, v, ?_, h4, heq⟩
  unfold Job.byLearning
  rw [h, Outcome.bind_ok, heq, h3]

end Bounded

/-! ### Example: the road of C94, searches up to a distance of 5, turns within edges trimmed -/

/-- Answers of Dijkstra's algorithm exist with any bound. -/
theorem answers_within {V : Type} [DecidableEq V] [Fintype V] (g : SP.Graph V (Weight ℝ)) (exceeds : ℝ → Bool) (v w : V) :
    ∃ o, Answer g (fun b => b = exceeds) v w o := by
  obtain ⟨s, h1, h2⟩ : ∃ s : SP.State V ℝ, SP.Reach g exceeds (SP.goalsStop [w]) v s ∧ SP.Done (SP.goalsStop [w]) s := by
    by_contra hcon
    push Not at hcon
    have hstep : ∀ s : {s : SP.State V ℝ // SP.Reach g exceeds (SP.goalsStop [w]) v s},
        ∃ t : {s : SP.State V ℝ // SP.Reach g exceeds (SP.goalsStop [w]) v s}, SP.Step g exceeds (SP.goalsStop [w]) s.1 t.1 := by
      intro s
      obtain ⟨t, ht⟩ := SP.dijkstra_progress (g := g) (exceeds := exceeds) s.1 (hcon s.1 s.2)
      exact ⟨⟨t, .step s.2 ht⟩, ht⟩
    choose next hnext using hstep
    refine SP.dijkstra_terminates g exceeds (SP.goalsStop [w]) v ⟨fun n => (next^[n] ⟨_, .init⟩).1, rfl, fun n => ?_⟩
    show SP.Step _ _ _ (next^[n] _).1 (next^[n + 1] _).1
    rw [Function.iterate_succ_apply']
    exact hnext _
  by_cases hf : w ∈ s.finished
  · obtain ⟨_, d, hd, _⟩ := (SP.inv_reach h1).fin w hf
    obtain ⟨n, p, _, hp, _⟩ := SP.dijkstra_path v h1 w d hd
    exact ⟨_, .path exceeds [w] s v n p rfl (by simp) h1 h2 hf hp⟩
  · exact ⟨_, .nothing exceeds [w] s rfl (by simp) h1 h2 hf⟩

/-- The road with points at -7 (without candidates), 2, 5 and 13. -/
noncomputable abbrev trimmed (found : Fin 3 → Fin 3 → Option (List (Fin 3))) : Job (Fin 3) Int ℝ ℝ :=
  { street [-7, 2, 5, 13] onward found with within := true, joins := false }

noncomputable def upToFive : ℝ → Bool := fun d => decide (5 < d)

theorem trimmed_starts (found : Fin 3 → Fin 3 → Option (List (Fin 3))) : Starts (trimmed found) 1 :=
  ⟨by simp [street, onward], by simp [street, onward], by
    intro s hs
    obtain rfl : s = 0 := by omega
    rfl⟩

theorem trimmed_fair (found : Fin 3 → Fin 3 → Option (List (Fin 3))) : Fair (trimmed found) := by
  have h : Fair (street [-7, 2, 5, 13] onward found) := street_fair (by
    intro xs hxs c hc
    simp only [onward, List.mem_cons, List.not_mem_nil, or_false] at hxs
    rcases hxs with rfl | rfl | rfl | rfl <;> simp only [List.mem_cons, List.not_mem_nil, or_false] at hc
    · subst hc; simp
    · rcases hc with rfl | rfl <;> simp
    · subst hc; simp) rfl
  exact ⟨h.dist, h.abs, h.zero, h.add, h.track⟩

theorem trimmed_gap (found : Fin 3 → Fin 3 → Option (List (Fin 3))) : NoWideGap (trimmed found) := by
  intro t ht h1 h2
  replace ht : t + 1 < 4 := ht
  have : t = 0 ∨ t = 1 ∨ t = 2 := by omega
  rcases this with rfl | rfl | rfl
  · simp [street, onward] at h2
  · simp [street, onward] at h1
  · simp [street, onward] at h1

theorem trimmed_ready : ∃ found, Ready (trimmed found) (fun v => 10 * (v.val : Int)) (fun b => b = upToFive) := by
  obtain ⟨found0, hj⟩ := street_ready [-7, 2, 5, 13] onward (.inl rfl)
  choose found hf using answers_within (streetNet.graph streetGeo) upToFive
  exact ⟨found, hj.1, hj.2, hj.3, hf⟩

/-- The hypotheses of the theorems hold: some match is found, with one candidate of each of the three points; with value iteration and
with policy iteration. -/
example : ∃ found k r runs l v, (trimmed found).byValues usual true 0.99 0.001 k = .ok (some r) ∧
    Travelled (trimmed found) usual (fun b => b = upToFive) 0.99 1 r runs l v ∧ runs.flatten.map Prod.fst = [1, 2, 3] ∧
    ∃ k r, (trimmed found).byPolicies usual true 0.99 0 k = .ok (some r) := by
  obtain ⟨found, hj⟩ := trimmed_ready
  have hs := trimmed_starts found
  have hf := trimmed_fair found
  have hgap := trimmed_gap found
  have hno : (trimmed found).joins = true → (trimmed found).within = false ∧
      Straight (trimmed found).setting (OnEdge (trimmed found)) (trimmed found).env.G.len := fun h => by simp at h
  obtain ⟨K, hK⟩ := travelled_ends hj hf.track hno hgap usual 0.99 (show (0 : ℝ) ≤ 0.001 by norm_num)
  obtain ⟨r, hr⟩ := hK K le_rfl
  obtain ⟨runs, l, v, h1, _⟩ := travelled_partial hj hf hno hgap usual_ok (by norm_num) hr hs
  obtain ⟨⟨K', hK'⟩, _⟩ := travelled_policies_partial hj hf hno hgap usual_ok (show (0 : ℝ) ≤ 0.99 by norm_num) hs
  obtain ⟨r', hr'⟩ := hK' K' le_rfl
  refine ⟨found, K, r, runs, l, v, hr, h1, ?_, K', r', hr'⟩
  rw [(travelled_points h1 hs).1]
  rfl

/-- And with Q-learning, whatever is drawn, if the time is up after the first episode. -/
example (rnd : Nat → Nat → QLearn.Draw) : ∃ found r runs l v,
    (trimmed found).byLearning usual true sorted 0.8 0.99 10000 25 rnd false (fun _ => true) = .ok r ∧
    Travelled (trimmed found) usual (fun b => b = upToFive) 1 1 r runs l v := by
  obtain ⟨found, hj⟩ := trimmed_ready
  obtain ⟨⟨⟨st, brk⟩, e⟩, h⟩ := QEnv.run_defined_partial (u := (trimmed found).learner usual sorted 0.8 0.99 10000 25) rfl
    sorted_sorts rnd false (fun _ => true)
  obtain ⟨r, runs, l, v, h2, h3, _⟩ := learned_travelled_partial hj (trimmed_fair found).track (fun h => by simp at h) (trimmed_gap found)
    sorted_sorts h (.inr (.inr ⟨rfl, by omega, rfl⟩)) (trimmed_starts found)
  exact ⟨found, r, runs, l, v, h2, h3⟩

end MM.Pipe
