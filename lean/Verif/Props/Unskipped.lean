import Verif.Props.TourBounded

/-!
# C97 without skipping of errors

The decision process with `skip_errors = false`: one candidate of each point is chosen whether or not a route leads from each to the next,
however long it is.  Joints are not removed; with joints such matches are bridged where there is no route (`broken_bridged_fails`).
-/

set_option autoImplicit false
set_option linter.unusedSectionVars false

namespace MM.Pipe

open MM.Line MM.Route MM.Router MM.CandEdge MM.MatchRoute

section Lenient

variable {R : Type} [CommRing R] [LinearOrder R] [IsStrictOrderedRing R] {x : Decide.Task R} {γ : R}

/-- The decision process in which nothing has to be skipped: with `skip_errors` off (environment/environments/single.hpp 307, 354) every leg is
taken, which is the same as no leg being invalid or a detour.  Used in proofs only. -/
def lenient (x : Decide.Task R) : Decide.Task R :=
  { x with skipErrors := true, leg := fun t g h => { x.leg t g h with invalid := false, detour := false } }

theorem lenient_goes (hk : x.skipErrors = false) {s s' : Decide.Sit} {o : Option Entry} {r : R} (h : Decide.Goes x s o r s') :
    Decide.Goes (lenient x) s o r s' := by
  cases h with
  | gap h => exact .gap h
  | first h1 h2 => exact .first h1 h2
  | resume h1 h2 => exact .resume h1 h2
  | on h1 h2 h3 => exact .on (x := lenient x) h1 h2 (fun _ => ⟨rfl, rfl⟩)
  | skip _ _ h => rw [hk] at h; cases h

theorem lenient_plan (hk : x.skipErrors = false) {s : Decide.Sit} {l : List (Option Entry)} {v : R} (h : Decide.Plan x γ s l v) :
    Decide.Plan (lenient x) γ s l v := by
  induction h with
  | last h1 h2 => exact .last (lenient_goes hk h1) h2
  | more h1 h2 _ ih => exact .more (lenient_goes hk h1) h2 ih

end Lenient

section Unskipped

variable {V P : Type} [DecidableEq V] [DecidableEq P] [Inhabited P]

/-- Candidates in stretches, from candidate `g` of point `t` on: one of each point that has some; within a stretch there is a route from
each to the next, and a stretch ends only where no route to the next candidate was found or the next point has none. -/
inductive Course (j : Job V P ℝ ℝ) : Nat → Nat → List (List Entry) → Prop
  | stop {t g : Nat} : j.cands.length ≤ t + 1 → Course j t g [[(t, g)]]
  | on {t g h : Nat} {es : List Entry} {rest : List (List Entry)} : t + 1 < j.cands.length → h < (j.cands.getD (t + 1) []).length →
      (∃ r, j.setting.leg (t, g) (t + 1, h) = .ok r ∧ r.invalid = false) → Course j (t + 1) h (((t + 1, h) :: es) :: rest) →
      Course j t g (((t, g) :: (t + 1, h) :: es) :: rest)
  | cut {t g h : Nat} {rest : List (List Entry)} : t + 1 < j.cands.length → h < (j.cands.getD (t + 1) []).length →
      (∃ r, j.setting.leg (t, g) (t + 1, h) = .ok r ∧ r.invalid = true) → Course j (t + 1) h rest → Course j t g ([(t, g)] :: rest)
  | gap {t g g' : Nat} {rest : List (List Entry)} : j.cands.getD (t + 1) [] = [] → t + 2 < j.cands.length →
      g' < (j.cands.getD (t + 2) []).length → Course j (t + 2) g' rest → Course j t g ([(t, g)] :: rest)
  | off {t g : Nat} : j.cands.getD (t + 1) [] = [] → t + 2 = j.cands.length → Course j t g [[(t, g)]]

/-- Between two runs: something was skipped, or there is no route. -/
def Apart (j : Job V P ℝ ℝ) (y z : List Entry × Bool) : Prop :=
  y.2 = true ∨ ∃ e f b, y.1.getLast? = some e ∧ z.1.head? = some f ∧ e.1 ≠ f.1 ∧ j.setting.leg e f = .ok b ∧ b.invalid = true

/-- Runs of a plan, cut where there is no route. -/
theorem course_of_trip {j : Job V P ℝ ℝ} {pos : V → P} {bounds : (ℝ → Bool) → Prop} (hj : Ready j pos bounds) {f : Weights.Factors}
    {t g : Nat} {runs : List (List Entry × Bool)} (h : Trip (lenient (j.task f false)) t g runs) (ht : t < j.cands.length)
    (hg : g < (j.cands.getD t []).length) :
    ∃ fine, MatchRoute.policyOf fine = MatchRoute.policyOf runs ∧ (fine.map Prod.fst).flatten = (runs.map Prod.fst).flatten ∧
      Course j t g (fine.map Prod.fst) ∧ (∃ es rep rest, fine = ((t, g) :: es, rep) :: rest) ∧ (∀ y ∈ fine, y.1 ≠ []) ∧
      (∀ y ∈ fine, ∀ e ∈ y.1, (j.entry e).isSome = true) ∧ (∀ y ∈ fine, y.1.IsChain (Steps j)) ∧ fine.IsChain (Apart j) := by
  have e1 := entry_some (t := t) hg
  induction h with
  | @stop t g hn => exact ⟨_, rfl, rfl, .stop hn, ⟨_, _, _, rfl⟩, by simp, by simpa using e1, by simp, by simp⟩
  | @on t g h es rep rest h1 h2 _ _ _ ih =>
    have e2 := entry_some (j := j) (t := t + 1) (k := h) h2
    obtain ⟨fine, k1, k2, k3, ⟨es', rep', rest', rfl⟩, k5, k6, k7, k8⟩ := ih h1 h2 e2
    obtain ⟨c, hc⟩ := Option.isSome_iff_exists.1 e1
    obtain ⟨d, hd⟩ := Option.isSome_iff_exists.1 e2
    obtain ⟨r, m1, _⟩ := leg_all hj hc hd (show t ≠ t + 1 by omega)
    have hp : MatchRoute.policyOf (((t, g) :: (t + 1, h) :: es, rep) :: rest) =
        (t, g) :: MatchRoute.policyOf (((t + 1, h) :: es, rep) :: rest) := by
      simp [MatchRoute.policyOf, List.getLast?_cons_cons]
    have hfl : ((((t, g) :: (t + 1, h) :: es, rep) :: rest).map Prod.fst).flatten =
        (t, g) :: ((((t + 1, h) :: es, rep) :: rest).map Prod.fst).flatten := by simp
    cases hi : r.invalid with
    | false =>
      refine ⟨((t, g) :: (t + 1, h) :: es', rep') :: rest', ?_, ?_, .on h1 h2 ⟨r, m1, hi⟩ k3, ⟨_, _, _, rfl⟩, ?_, ?_, ?_, ?_⟩
      · rw [hp, ← k1]
        simp [MatchRoute.policyOf, List.getLast?_cons_cons]
      · rw [hfl, ← k2]; simp
      · intro y hy
        rcases List.mem_cons.1 hy with rfl | hy
        · simp
        · exact k5 y (List.mem_cons_of_mem _ hy)
      · intro y hy e he
        rcases List.mem_cons.1 hy with rfl | hy
        · rcases List.mem_cons.1 he with rfl | he
          · exact e1
          · exact k6 (((t + 1, h) :: es', rep')) (by simp) e he
        · exact k6 y (List.mem_cons_of_mem _ hy) e he
      · intro y hy
        rcases List.mem_cons.1 hy with rfl | hy
        · refine List.isChain_cons_cons.2 ⟨⟨by simp, fun r' hr => ?_⟩, k7 (((t + 1, h) :: es', rep')) (by simp)⟩
          rw [m1] at hr
          cases hr
          exact hi
        · exact k7 y (List.mem_cons_of_mem _ hy)
      · cases rest' with
        | nil => simp
        | cons z rest' =>
          rw [List.isChain_cons_cons] at k8 ⊢
          refine ⟨?_, k8.2⟩
          rcases k8.1 with a | ⟨e, f, b, a1, a2⟩
          · exact .inl a
          · exact .inr ⟨e, f, b, by rw [List.getLast?_cons_cons]; exact a1, a2⟩
    | true =>
      refine ⟨([(t, g)], false) :: ((t + 1, h) :: es', rep') :: rest', ?_, ?_, .cut h1 h2 ⟨r, m1, hi⟩ k3, ⟨_, _, _, rfl⟩, ?_, ?_, ?_, ?_⟩
      · rw [hp, ← k1]
        simp [MatchRoute.policyOf]
      · rw [hfl, ← k2]; simp
      · intro y hy
        rcases List.mem_cons.1 hy with rfl | hy
        · simp
        · exact k5 y hy
      · intro y hy e he
        rcases List.mem_cons.1 hy with rfl | hy
        · simp only [List.mem_singleton] at he; rw [he]; exact e1
        · exact k6 y hy e he
      · intro y hy
        rcases List.mem_cons.1 hy with rfl | hy
        · simp
        · exact k7 y hy
      · exact List.isChain_cons_cons.2 ⟨.inr ⟨(t, g), (t + 1, h), r, rfl, rfl, by simp, m1, hi⟩, k8⟩
  | refused _ _ h3 => rcases h3 with h3 | h3 <;> cases h3
  | @gap t g g' rest h1 h2 h3 h5 ih =>
    obtain ⟨fine, k1, k2, k3, ⟨es', rep', rest', rfl⟩, k5, k6, k7, k8⟩ := ih h2 h3 (entry_some h3)
    refine ⟨([(t, g)], true) :: ((t + 2, g') :: es', rep') :: rest', ?_, ?_, .gap (List.eq_nil_of_length_eq_zero h1) h2 h3 k3,
      ⟨_, _, _, rfl⟩, ?_, ?_, ?_, ?_⟩
    · rw [show MatchRoute.policyOf (([(t, g)], true) :: rest) = [(t, g), (t, g)] ++ MatchRoute.policyOf rest from rfl, ← k1]
      rfl
    · rw [List.map_cons, List.flatten_cons, k2]; rfl
    · intro y hy
      rcases List.mem_cons.1 hy with rfl | hy
      · simp
      · exact k5 y hy
    · intro y hy e he
      rcases List.mem_cons.1 hy with rfl | hy
      · simp only [List.mem_singleton] at he; rw [he]; exact e1
      · exact k6 y hy e he
    · intro y hy
      rcases List.mem_cons.1 hy with rfl | hy
      · simp
      · exact k7 y hy
    · exact List.isChain_cons_cons.2 ⟨.inl rfl, k8⟩
  | @off t g h1 h2 =>
    exact ⟨_, rfl, rfl, .off (List.eq_nil_of_length_eq_zero h1) h2, ⟨_, _, _, rfl⟩, by simp, by simpa using e1, by simp, by simp⟩

/-- The route for runs of candidates between which there may be no route. -/
theorem apart_route {j : Job V P ℝ ℝ} {pos : V → P} {bounds : (ℝ → Bool) → Prop} (hj : Ready j pos bounds) (hno : j.joins = false)
    (runs : List (List Entry × Bool)) (hne : ∀ x ∈ runs, x.1 ≠ []) (hent : ∀ x ∈ runs, ∀ e ∈ x.1, (j.entry e).isSome = true)
    (hval : ∀ x ∈ runs, x.1.IsChain (Steps j)) (hsep : runs.IsChain (Apart j)) :
    ∃ r parts, MatchRoute.candidatesRoute j.setting (MatchRoute.policyOf runs) = .ok r ∧ (∀ x ∈ r.refs, x ∈ r.own ∨ Held j x) ∧
      r.lines = parts.flatten ∧ List.Forall₂ (fun x ls => Stretch j bounds x.1 ls) runs parts ∧
      ((∃ x ∈ runs, ∃ t ∈ x.1.zip x.1.tail, (j.cand t.1).proj ≠ (j.cand t.2).proj) → r.invalid = false) := by
  have hruns : Runs j.setting (Held j) (fun x y => j.within = false → OnEdge j x y) runs := by
    induction runs with
    | nil => exact .nil
    | cons x runs ih =>
      have i := ih (fun y hy => hne y (List.mem_cons_of_mem _ hy)) (fun y hy => hent y (List.mem_cons_of_mem _ hy))
        (fun y hy => hval y (List.mem_cons_of_mem _ hy)) hsep.tail
      obtain ⟨run, rep⟩ := x
      obtain ⟨e, es, rfl⟩ := List.exists_cons_of_ne_nil (hne (run, rep) (by simp))
      obtain ⟨c1, c2, _⟩ := steps_linked hj (e :: es) (hent (e :: es, rep) (by simp)) (hval (e :: es, rep) (by simp))
      refine .cons e es rep runs c1 c2 ?_ i
      cases runs with
      | nil => exact .inr (.inl rfl)
      | cons y runs =>
        rcases (List.isChain_cons_cons.1 hsep).1 with a | ⟨p, q, b, a1, a2, a3, a4, a5⟩
        · exact .inl a
        · rw [List.getLast?_eq_some_getLast (by simp)] at a1
          cases a1
          refine .inr (.inr ⟨hno, q, b, ?_, a3, a4, a5⟩)
          obtain ⟨run', rep'⟩ := y
          obtain ⟨e', es', rfl⟩ := List.exists_cons_of_ne_nil (hne (run', rep') (by simp))
          simpa [MatchRoute.policyOf] using a2
  obtain ⟨r, parts, h1, h2, h3, h4, h5⟩ := match_follows_partial (len := j.env.G.len)
    (fun h : j.setting.joins = true => by rw [show j.setting.joins = j.joins from rfl, hno] at h; cases h) hruns
  refine ⟨r, parts, h1, h2, h3, ?_, h5⟩
  have key : ∀ (run : List Entry) (ls : List (List P)), (∀ e ∈ run, (j.entry e).isSome = true) → run.IsChain (Steps j) →
      Follows j.setting (fun x y => j.within = false → OnEdge j x y) j.env.G.len run ls → Stretch j bounds run ls := by
    rintro run ls k1 k2 ⟨legs, p, q, k3, k4, k5, k6⟩
    obtain ⟨_, _, k7⟩ := steps_linked hj run k1 k2
    refine ⟨k6.connected, ⟨p, q, k4, k5, k6.leads⟩, fun hw l hl sg hsg hne => k6.road l hl sg hsg hne hw, fun hw hbb => ?_⟩
    refine ⟨legs.map fun x => segmentSum j.env.G.len x.lines, ?_, by rw [k6.length, segmentSum_flatMap]⟩
    have hlegs := forall₂_of_map _ _ k3
    have hall : ∀ t ∈ run.zip run.tail, ∀ r, j.setting.leg t.1 t.2 = .ok r →
        Away j t.1 t.2 (segmentSum j.env.G.len r.lines) := fun t ht r hr => k7 t ht r hr hw hbb
    clear k3 k6
    generalize run.zip run.tail = zs at hlegs hall
    induction hlegs with
    | nil => exact .nil
    | cons a _ ih => exact .cons (hall _ (by simp) _ a) (ih (fun t ht => hall t (List.mem_cons_of_mem _ ht)))
  clear h1 h2 h3 h5 hsep hruns hne
  induction h4 with
  | nil => exact .nil
  | @cons x ls runs parts h6 _ ih =>
    exact .cons (key _ _ (hent _ (by simp)) (hval _ (by simp)) h6)
      (ih (fun y hy => hent y (List.mem_cons_of_mem _ hy)) (fun y hy => hval y (List.mem_cons_of_mem _ hy)))

/-- A match without skipped errors: a course from the first point with candidates on, its stretches, and the plan by which it was chosen. -/
structure Insisted (j : Job V P ℝ ℝ) (f : Weights.Factors) (bounds : (ℝ → Bool) → Prop) (γ : ℝ) (t0 : Nat) (r : Route P)
    (runs : List (List Entry)) (l : List (Option Entry)) (v : ℝ) : Prop where
  course : ∃ g, g < (j.cands.getD t0 []).length ∧ Course j t0 g runs
  plan : Decide.Plan (j.task f false) γ (.fresh 0) l v
  noted : l.reduceOption = runs.flatten
  living : ∀ y ∈ r.refs, y ∈ r.own ∨ Held j y
  lines : ∃ parts, r.lines = parts.flatten ∧ List.Forall₂ (Stretch j bounds) runs parts
  valid : (∃ run ∈ runs, ∃ e ∈ run.zip run.tail, (j.cand e.1).proj ≠ (j.cand e.2).proj) → r.invalid = false

theorem reduce_noted : ∀ runs : List (List Entry), (noted runs).reduceOption = runs.flatten
  | [] => rfl
  | [run] => by simp [noted, List.reduceOption]
  | run :: next :: rest => by
    have ih := reduce_noted (next :: rest)
    unfold List.reduceOption at ih ⊢
    rw [noted, List.filterMap_append, List.filterMap_cons_none rfl, ih]
    simp

/-- The route for a plan. -/
theorem plan_insisted {j : Job V P ℝ ℝ} {pos : V → P} {bounds : (ℝ → Bool) → Prop} (hj : Ready j pos bounds) (hno : j.joins = false)
    (hgap : NoWideGap j) {f : Weights.Factors} {γ : ℝ} {l : List (Option Entry)} {v : ℝ}
    (hp : Decide.Plan (j.task f false) γ (.fresh 0) l v) :
    ((∀ t, j.cands.getD t [] = []) → MatchRoute.candidatesRoute j.setting (Router.policyOf l) = .ok Route.bad) ∧
    ∀ t0, Starts j t0 → ∃ r runs, MatchRoute.candidatesRoute j.setting (Router.policyOf l) = .ok r ∧
      Insisted j f bounds γ t0 r runs l v := by
  have hp' := lenient_plan (x := j.task f false) rfl hp
  have hcases : ((∀ i, (j.cands.getD i []).length = 0) ∧ Router.policyOf l = []) ∨
      ∃ t g runs, t < j.cands.length ∧ g < (j.cands.getD t []).length ∧ (∀ i, i < t → (j.cands.getD i []).length = 0) ∧
        Trip (lenient (j.task f false)) t g runs ∧
        (∃ e, (e = [] ∨ e = [none]) ∧ l = List.replicate t none ++ Pipe.noted (runs.map Prod.fst) ++ e) ∧
        Router.policyOf l = MatchRoute.policyOf runs := by
    by_cases h0 : 0 < j.cands.length
    · have hrest : Rest (lenient (j.task f false)) γ (.fresh 0) l := .inr ⟨h0, v, hp'⟩
      rcases trip_of_start (x := lenient (j.task f false)) rfl hgap l (.fresh 0) (by simp) (by simp [Decide.Sit.pos]) hrest with h | h
      · left
        refine ⟨fun i => ?_, h.2⟩
        by_cases hi : i < j.cands.length
        · exact h.1 i hi
        · simp [List.getElem?_eq_none (show j.cands.length ≤ i by omega)]
      · obtain ⟨t, g, runs, k1, k2, _, k4, k5, k6, k7⟩ := h
        exact .inr ⟨t, g, runs, k1, k2, k4, k5, k6, k7⟩
    · left
      have hz : j.cands = [] := List.eq_nil_of_length_eq_zero (by omega)
      have hn : (j.task f false).n = 0 := by show j.cands.length = 0; rw [hz]; rfl
      refine ⟨fun i => by rw [hz]; rfl, ?_⟩
      cases hp with
      | last hg _ =>
        cases hg with
        | gap => rfl
        | first h => rw [hn] at h; simp at h
      | more _ h => rw [hn] at h; simp at h
  constructor
  · intro hall
    rcases hcases with ⟨_, h⟩ | ⟨t, g, _, _, hg, _⟩
    · rw [h, MatchRoute.candidatesRoute, collect, Outcome.bind_ok]
      · exact merge_invalid (rs := []) false false _ (by simp)
      · simp
    · rw [hall t] at hg; simp at hg
  · intro t0 hst
    rcases hcases with ⟨h, _⟩ | ⟨t, g, runs, h1, h2, h3, h4, ⟨e, h5, h7⟩, h6⟩
    · exact absurd (List.eq_nil_of_length_eq_zero (h t0)) hst.some
    · have : t = t0 := starts_unique hst (by omega) h3
      subst this
      obtain ⟨fine, c1, c2, k1, c3, k2, k3, k4, k5⟩ := course_of_trip hj h4 h1 h2
      obtain ⟨r, parts, m1, m2, m3, m4, m5⟩ := apart_route hj hno fine k2 k3 k4 k5
      refine ⟨r, fine.map Prod.fst, by rw [h6, ← c1]; exact m1, ⟨g, h2, k1⟩, hp, ?_, m2, ⟨parts, m3, ?_⟩, ?_⟩
      · have hr := reduce_noted (runs.map Prod.fst)
        unfold List.reduceOption at hr ⊢
        rw [h7, List.filterMap_append, List.filterMap_append, hr, c2]
        rcases h5 with rfl | rfl <;> simp [List.filterMap_replicate]
      · clear m1 m2 m3 m5 h4 h5 h6 h7 c1 c2 c3 k1 k2 k3 k4 k5
        induction m4 with
        | nil => exact .nil
        | cons a _ ih => exact .cons a ih
      · rintro ⟨run, hrun, e, he, hne⟩
        obtain ⟨y, hy, rfl⟩ := List.mem_map.1 hrun
        exact m5 ⟨y, hy, e, he, hne⟩

/-- **C97, errors not skipped, an end.**  Matching with value iteration comes to an end with a route. -/
theorem insisted_ends {j : Job V P ℝ ℝ} {pos : V → P} {bounds : (ℝ → Bool) → Prop} (hj : Ready j pos bounds) (hno : j.joins = false)
    (hgap : NoWideGap j) (f : Weights.Factors) (γ : ℝ) {th : ℝ} (hth : 0 ≤ th) :
    ∃ K, ∀ k, K ≤ k → ∃ r, j.byValues f false γ th k = .ok (some r) := by
  obtain ⟨K, hK⟩ := Decide.values_give_plan (j.task f false) γ hth
  refine ⟨K, fun k hk => ?_⟩
  obtain ⟨l, v, h1, h2⟩ := hK k hk
  unfold Job.byValues Job.routeFor
  rw [h1, Outcome.bind_ok]
  obtain ⟨k1, k2⟩ := plan_insisted hj hno hgap h2
  rcases starts_or_none j with h | ⟨t0, h⟩
  · exact ⟨_, by simp only; rw [k1 h]; rfl⟩
  · obtain ⟨r, _, h3, _⟩ := k2 t0 h
    exact ⟨r, by simp only; rw [h3]; rfl⟩

/-- **C97, errors not skipped.**  Joints are not removed; any bounds of searches, turns trimmed or not.  The match by value iteration is the
route for a course: one candidate of each point that has some, as noted along the plan.  It leads from each to the next wherever a route
between these two was found, however long, and is interrupted only where none was found or the next point has no candidates.  The
stretches are as in `decided_partial`.  No plan is better by more than the threshold for each step.
Missing: removal of joints (false, `broken_bridged_fails`); two neighbouring points without candidates (C37). -/
theorem insisted_partial {j : Job V P ℝ ℝ} {pos : V → P} {bounds : (ℝ → Bool) → Prop} (hj : Ready j pos bounds) (hf : Fair j)
    (hno : j.joins = false) (hgap : NoWideGap j) {f : Weights.Factors} (hfo : Weights.FactorsOk f) {γ : ℝ} (hγ : 0 ≤ γ) {th : ℝ} {k : Nat}
    {r : Route P} (h : j.byValues f false γ th k = .ok (some r)) {t0 : Nat} (ht : Starts j t0) :
    ∃ runs l v, Insisted j f bounds γ t0 r runs l v ∧
      ∀ l' v', Decide.Plan (j.task f false) γ (.fresh 0) l' v' → v' ≤ v + γ * th * Learn.discounted γ l.length := by
  obtain ⟨pol, h1, h2⟩ := routeFor_some h
  obtain ⟨l, v, rfl, h3, h4⟩ := Decide.values_near_best_partial (task_costly hj.plane.toMetric hf hfo false) hγ h1
  obtain ⟨r', runs, k1, k2⟩ := (plan_insisted hj hno hgap h3).2 t0 ht
  rw [k1] at h2
  cases Outcome.ok.inj h2
  exact ⟨runs, l, v, k2, h4⟩

/-- **C97, errors not skipped, policy iteration.**  The same, with threshold zero: no plan is better. -/
theorem insisted_policies_partial {j : Job V P ℝ ℝ} {pos : V → P} {bounds : (ℝ → Bool) → Prop} (hj : Ready j pos bounds) (hf : Fair j)
    (hno : j.joins = false) (hgap : NoWideGap j) {f : Weights.Factors} (hfo : Weights.FactorsOk f) {γ : ℝ} (hγ : 0 ≤ γ) {t0 : Nat}
    (ht : Starts j t0) :
    (∃ K, ∀ k, K ≤ k → ∃ r, j.byPolicies f false γ 0 k = .ok (some r)) ∧
    ∀ k r, j.byPolicies f false γ 0 k = .ok (some r) → ∃ runs l v, Insisted j f bounds γ t0 r runs l v ∧
      ∀ l' v', Decide.Plan (j.task f false) γ (.fresh 0) l' v' → v' ≤ v := by
  have hc := task_costly hj.plane.toMetric hf hfo false
  constructor
  · obtain ⟨K, hK⟩ := Decide.policies_stop_partial hc hγ
    refine ⟨K, fun k hk => ?_⟩
    obtain ⟨pol, h1⟩ := hK k hk
    obtain ⟨l, v, rfl, h3, _⟩ := Decide.policies_best_partial hc hγ h1
    obtain ⟨r', runs, k1, k2⟩ := (plan_insisted hj hno hgap h3).2 t0 ht
    exact ⟨r', by unfold Job.byPolicies Job.routeFor; rw [h1, Outcome.bind_ok]; simp only; rw [k1]; rfl⟩
  · intro k r h
    obtain ⟨pol, h1, h2⟩ := routeFor_some h
    obtain ⟨l, v, rfl, h3, h4⟩ := Decide.policies_best_partial hc hγ h1
    obtain ⟨r', runs, k1, k2⟩ := (plan_insisted hj hno hgap h3).2 t0 ht
    rw [k1] at h2
    cases Outcome.ok.inj h2
    exact ⟨runs, l, v, k2, h4⟩

/-- **C106, errors not skipped.**  Q-learning: as `learned_travelled_partial`, for a course.  If learning broke off before its episodes ran
out, or wrote a policy at all, or the time was up by the end of the last episode, the match is the route for a course chosen by a plan.
Missing: removal of joints (false, `broken_bridged_fails`); two neighbouring points without candidates (C37); a policy if the episodes run
out before one is written (C92). -/
theorem learned_insisted_partial {j : Job V P ℝ ℝ} {pos : V → P} {f : Weights.Factors} {sort : List (Nat × ℝ) → List (Nat × ℝ)} {lr γ : ℝ}
    {episodes stop : Nat} {rnd : Nat → Nat → QLearn.Draw} {aborted : Bool} {abort : Nat → Bool} {bounds : (ℝ → Bool) → Prop}
    (hj : Ready j pos bounds) (hno : j.joins = false) (hgap : NoWideGap j) (hso : QEnv.Sorts sort) {st : QLearn.St ℝ} {brk : Bool}
    {e : Env.Env ℝ} (h : QEnv.runE ((j.task f false).setup sort lr γ episodes stop) rnd aborted abort = .ok ((st, brk), e))
    (hst : st.policy ≠ [] ∨ brk = true ∨ (aborted = false ∧ 0 < episodes ∧ abort 0 = true)) {t0 : Nat} (ht : Starts j t0) :
    ∃ r runs l v, j.byLearning f false sort lr γ episodes stop rnd aborted abort = .ok r ∧
      Insisted j f bounds 1 t0 r runs l v ∧ st.policy = Router.policyOf l := by
  have hn : 0 < (j.task f false).n := by
    have := ht.lt
    show 0 < j.cands.length
    omega
  obtain ⟨l, v, hp, heq⟩ := QEnv.run_plan hso hn h hst
  obtain ⟨r, runs, h3, h4⟩ := (plan_insisted hj hno hgap hp).2 t0 ht
  refine ⟨r, runs, l, v, ?_, h4, heq⟩
  unfold Job.byLearning
  rw [h, Outcome.bind_ok, heq, h3]

/-- **C106, errors not skipped, enough episodes.**  There is a number of episodes, which depends on the track and its candidates and on
`improvement_stop` only, from which on learning always breaks off and the match is the route for a course, whatever is drawn.
Missing: as in `learned_insisted_partial`, but for the episodes. -/
theorem learned_insisted_enough_partial {j : Job V P ℝ ℝ} {pos : V → P} {f : Weights.Factors} {stop : Nat} {bounds : (ℝ → Bool) → Prop}
    (hj : Ready j pos bounds) (hno : j.joins = false) (hgap : NoWideGap j) (hs : 0 < stop) {t0 : Nat} (ht : Starts j t0) :
    ∃ K, ∀ sort, QEnv.Sorts sort → ∀ lr γ episodes, K ≤ episodes → ∀ rnd abort, ∃ r runs l v,
      j.byLearning f false sort lr γ episodes stop rnd false abort = .ok r ∧ Insisted j f bounds 1 t0 r runs l v := by
  have hn : 0 < (j.task f false).n := by
    have := ht.lt
    show 0 < j.cands.length
    omega
  obtain ⟨K, hK⟩ := QEnv.run_breaks (j.task f false) hn hs
  refine ⟨K, fun sort hso lr γ episodes hk rnd abort => ?_⟩
  obtain ⟨⟨⟨st, brk⟩, e⟩, h⟩ := QEnv.run_defined_partial (u := (j.task f false).setup sort lr γ episodes stop) rfl hso rnd false abort
  have hb := hK sort hso lr γ episodes hk rnd abort st brk e h
  obtain ⟨r, runs, l, v, h1, h2, _⟩ := learned_insisted_partial hj hno hgap hso h (.inr (.inl hb)) ht
  exact ⟨r, runs, l, v, h1, h2⟩

/-- A course has one candidate of each point that has some. -/
theorem course_points {j : Job V P ℝ ℝ} {t g : Nat} {runs : List (List Entry)} (h : Course j t g runs) (ht : t < j.cands.length)
    (hg : g < (j.cands.getD t []).length) :
    (runs.flatten.map Prod.fst = (List.range' t (j.cands.length - t)).filter fun i => !(j.cands.getD i []).isEmpty) ∧
    ∀ e ∈ runs.flatten, e.2 < (j.cands.getD e.1 []).length := by
  have hne : ∀ {t g : Nat}, g < (j.cands.getD t []).length → (j.cands.getD t []).isEmpty = false := by
    intro t g hg
    cases hl : j.cands.getD t [] with
    | nil => rw [hl] at hg; simp at hg
    | cons => rfl
  induction h with
  | @stop t g hn =>
    rw [show j.cands.length - t = 1 by omega]
    refine ⟨?_, by simpa using hg⟩
    simp [hne hg, -List.getD_eq_getElem?_getD]
  | @on t g h es rest h1 h2 _ _ ih =>
    obtain ⟨k1, k2⟩ := ih h1 h2
    rw [show j.cands.length - t = (j.cands.length - (t + 1)) + 1 by omega, List.range'_succ, List.filter_cons_of_pos (by simp only [hne hg]; rfl), ← k1]
    refine ⟨by simp, fun e he => ?_⟩
    simp only [List.flatten_cons, List.cons_append, List.mem_cons] at he
    rcases he with rfl | he
    · exact hg
    · exact k2 e (by simpa using he)
  | @cut t g h rest h1 h2 _ _ ih =>
    obtain ⟨k1, k2⟩ := ih h1 h2
    rw [show j.cands.length - t = (j.cands.length - (t + 1)) + 1 by omega, List.range'_succ, List.filter_cons_of_pos (by simp only [hne hg]; rfl), ← k1]
    refine ⟨by simp, fun e he => ?_⟩
    simp only [List.flatten_cons, List.cons_append, List.mem_cons, List.nil_append] at he
    rcases he with rfl | he
    · exact hg
    · exact k2 e he
  | @gap t g g' rest h1 h2 h3 _ ih =>
    obtain ⟨k1, k2⟩ := ih h2 h3
    rw [show j.cands.length - t = (j.cands.length - (t + 2)) + 2 by omega, List.range'_succ, List.range'_succ,
      List.filter_cons_of_pos (by simp only [hne hg]; rfl), List.filter_cons_of_neg (by simp only [h1]; simp), ← k1]
    refine ⟨by simp, fun e he => ?_⟩
    simp only [List.flatten_cons, List.cons_append, List.mem_cons, List.nil_append] at he
    rcases he with rfl | he
    · exact hg
    · exact k2 e he
  | @off t g h1 h2 =>
    rw [show j.cands.length - t = 2 by omega, List.range'_succ, List.range'_succ,
      List.filter_cons_of_pos (by simp only [hne hg]; rfl), List.filter_cons_of_neg (by simp only [h1]; simp)]
    exact ⟨by simp, by simpa using hg⟩

end Unskipped

/-- The hypotheses of the theorems hold: a match by value iteration and one by policy iteration is found, each with one candidate of each
of the three points that have some. -/
example : ∃ found k r runs l v, (trimmed found).byValues usual false 0.99 0.001 k = .ok (some r) ∧
    Insisted (trimmed found) usual (fun b => b = upToFive) 0.99 1 r runs l v ∧ runs.flatten.map Prod.fst = [1, 2, 3] ∧
    ∃ k r runs l v, (trimmed found).byPolicies usual false 0.99 0 k = .ok (some r) ∧
      Insisted (trimmed found) usual (fun b => b = upToFive) 0.99 1 r runs l v := by
  obtain ⟨found, hj⟩ := trimmed_ready
  have hs := trimmed_starts found
  have hf := trimmed_fair found
  have hgap := trimmed_gap found
  obtain ⟨K, hK⟩ := insisted_ends hj rfl hgap usual 0.99 (show (0 : ℝ) ≤ 0.001 by norm_num)
  obtain ⟨r, hr⟩ := hK K le_rfl
  obtain ⟨runs, l, v, h1, _⟩ := insisted_partial hj hf rfl hgap usual_ok (by norm_num) hr hs
  obtain ⟨⟨K', hK'⟩, hb⟩ := insisted_policies_partial hj hf rfl hgap usual_ok (show (0 : ℝ) ≤ 0.99 by norm_num) hs
  obtain ⟨r', hr'⟩ := hK' K' le_rfl
  obtain ⟨runs', l', v', h2, _⟩ := hb K' r' hr'
  refine ⟨found, K, r, runs, l, v, hr, h1, ?_, K', r', runs', l', v', hr', h2⟩
  obtain ⟨g, h3, h4⟩ := h1.course
  rw [(course_points h4 hs.lt h3).1]
  rfl

/-- And with Q-learning, whatever is drawn, if the time is up after the first episode. -/
example (rnd : Nat → Nat → QLearn.Draw) : ∃ found r runs l v,
    (trimmed found).byLearning usual false sorted 0.8 0.99 10000 25 rnd false (fun _ => true) = .ok r ∧
    Insisted (trimmed found) usual (fun b => b = upToFive) 1 1 r runs l v := by
  obtain ⟨found, hj⟩ := trimmed_ready
  obtain ⟨⟨⟨st, brk⟩, e⟩, h⟩ := QEnv.run_defined_partial
    (u := ((trimmed found).task usual false).setup sorted 0.8 0.99 10000 25) rfl sorted_sorts rnd false (fun _ => true)
  obtain ⟨r, runs, l, v, h2, h3, _⟩ := learned_insisted_partial hj rfl (trimmed_gap found) sorted_sorts h
    (.inr (.inr ⟨rfl, by omega, rfl⟩)) (trimmed_starts found)
  exact ⟨found, r, runs, l, v, h2, h3⟩

/-- And with enough episodes, whatever is drawn and whatever the clock says. -/
example : ∃ found K, ∀ episodes, K ≤ episodes → ∀ rnd abort, ∃ r runs l v,
    (trimmed found).byLearning usual false sorted 0.8 0.99 episodes 25 rnd false abort = .ok r ∧
    Insisted (trimmed found) usual (fun b => b = upToFive) 1 1 r runs l v := by
  obtain ⟨found, hj⟩ := trimmed_ready
  obtain ⟨K, hK⟩ := learned_insisted_enough_partial (f := usual) (stop := 25) hj rfl (trimmed_gap found) (by omega) (trimmed_starts found)
  exact ⟨found, K, fun episodes h rnd abort => hK sorted sorted_sorts 0.8 0.99 episodes h rnd abort⟩

/-! ### Example: no route back -/

/-- The point at 2 after the point at 5 on a one-way road. -/
noncomputable abbrev turned (found : Fin 3 → Fin 3 → Option (List (Fin 3))) : Job (Fin 3) Int ℝ ℝ :=
  { street [5, 2] aside found with joins := false, cands := [[(0, ⟨5, 0, [0, 5], [5, 10]⟩)], [(0, ⟨2, 0, [0, 2], [2, 10]⟩)]] }

/-- Where there is no route, the match consists of two stretches of one candidate each. -/
example : ∃ found k r l v, (turned found).byValues usual false 0.99 0.001 k = .ok (some r) ∧
    Insisted (turned found) usual (fun b => b = SP.noBound) 0.99 0 r [[(0, 0)], [(1, 0)]] l v := by
  obtain ⟨found, hj0⟩ := aside_ready [5, 2]
  have hsub : ∀ xs ∈ (turned found).cands, ∀ c ∈ xs, ∃ ys ∈ aside, c ∈ ys := by
    intro xs hxs c hc
    simp only [List.mem_cons, List.not_mem_nil, or_false] at hxs
    rcases hxs with rfl | rfl
    · exact ⟨_, List.mem_cons_self, hc⟩
    · exact ⟨_, List.mem_cons_of_mem _ List.mem_cons_self, by rw [List.mem_singleton.1 hc]; exact List.mem_cons_self⟩
  have hj : Ready (turned found) (fun v => 10 * (v.val : Int)) (fun b => b = SP.noBound) :=
    ⟨hj0.1, hj0.2, fun xs hxs c hc => by
      obtain ⟨ys, h1, h2⟩ := hsub xs hxs c hc
      exact hj0.3 ys h1 c h2, hj0.4⟩
  have hf : Fair (turned found) := by
    have h := aside_fair found
    refine ⟨fun xs hxs c hc => ?_, h.abs, h.zero, h.add, rfl⟩
    obtain ⟨ys, h1, h2⟩ := hsub xs hxs c hc
    exact h.dist ys h1 c h2
  have hgap : NoWideGap (turned found) := by
    intro t ht h1 h2
    replace ht : t + 1 < 2 := ht
    obtain rfl : t = 0 := by omega
    simp at h1
  have hs : Starts (turned found) 0 := ⟨by simp, by simp, by intro s hs; omega⟩
  have hno : ¬ Goes (turned found) (0, 0) (1, 0) := aside_behind found
  obtain ⟨K, hK⟩ := insisted_ends hj rfl hgap usual 0.99 (show (0 : ℝ) ≤ 0.001 by norm_num)
  obtain ⟨r, hr⟩ := hK K le_rfl
  obtain ⟨runs, l, v, h1, _⟩ := insisted_partial hj hf rfl hgap usual_ok (by norm_num) hr hs
  refine ⟨found, K, r, l, v, hr, ?_⟩
  have hruns : runs = [[(0, 0)], [(1, 0)]] := by
    have hone : ∀ {g : Nat} {rs : List (List Entry)}, g < ((turned found).cands.getD 1 []).length → Course (turned found) 1 g rs →
        rs = [[(1, 0)]] := by
      intro g rs hg hc
      obtain rfl : g = 0 := by simpa using hg
      cases hc with
      | stop _ => rfl
      | on h => exact absurd h (by simp)
      | cut h => exact absurd h (by simp)
      | gap _ h => exact absurd h (by simp)
      | off _ h => exact absurd h (by simp)
    obtain ⟨g, h2, h3⟩ := h1.course
    obtain rfl : g = 0 := by simpa using h2
    cases h3 with
    | stop h => exact absurd h (by simp)
    | @on _ _ h es rest a b c d =>
      obtain rfl : h = 0 := by simpa using b
      obtain ⟨r', m1, m2⟩ := c
      obtain ⟨r'', k1, k2, _⟩ := leg_all hj (p := (0, 0)) (q := (1, 0)) rfl rfl (by simp)
      rw [m1] at k1
      cases k1
      exact absurd (k2 m2).2.1 hno
    | cut a b c d => rw [hone b d]
    | gap h => exact absurd h (by simp)
    | off h => exact absurd h (by simp)
  rw [← hruns]
  exact h1

end MM.Pipe
