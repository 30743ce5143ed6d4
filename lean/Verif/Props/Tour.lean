import Verif.Model.Tour
import Verif.Props.Pipeline
import Verif.Props.Decide
import Verif.Props.Router

/-!
# C97: the match by the decision process

As C94, for value iteration and policy iteration.  A match consists of stretches; between two of them the connection was given up.
-/

set_option autoImplicit false
set_option linter.unusedSectionVars false

namespace MM.Pipe

open MM.Line MM.Route MM.Router MM.CandEdge MM.MatchRoute

section Runs

variable {V P R A : Type} [DecidableEq V] [DecidableEq P] [LinearOrder R] [AddCommGroup R] [IsOrderedAddMonoid R] [Inhabited P]

/-- Lines that lead along chosen candidates: connected, from the projection of the first to that of the last.  Without trimmed turns
each segment is a piece of a segment of an edge in its direction, and without bounds the length is the sum of the distances from
candidate to candidate. -/
structure Stretch (j : Job V P R A) (bounds : (R → Bool) → Prop) (run : List Entry) (ls : List (List P)) : Prop where
  connected : Connected ls
  leads : ∃ p q, run.head?.map (fun e => (j.cand e).proj) = some p ∧ run.getLast?.map (fun e => (j.cand e).proj) = some q ∧ Leads ls p q
  onEdges : j.within = false → ∀ l ∈ ls, ∀ sg ∈ segs l, sg.1 ≠ sg.2 → OnEdge j sg.1 sg.2
  length : j.within = false → (∀ b, bounds b → b = SP.noBound) → ∃ xs,
    List.Forall₂ (fun t x => Away j t.1 t.2 x) (run.zip run.tail) xs ∧ segmentSum j.env.G.len ls = xs.sum

/-- Consecutive candidates with a route between them. -/
def Steps (j : Job V P R A) (p q : Entry) : Prop := p.1 ≠ q.1 ∧ ∀ r, j.setting.leg p q = .ok r → r.invalid = false

theorem steps_linked {j : Job V P R A} {pos : V → P} {bounds : (R → Bool) → Prop} (hj : Ready j pos bounds) : ∀ (l : List Entry),
    (∀ x ∈ l, (j.entry x).isSome = true) → l.IsChain (Steps j) → l.IsChain (Linked j.setting (Held j)) ∧
      l.IsChain (OnRoad j.setting (fun x y => j.within = false → OnEdge j x y)) ∧
      ∀ t ∈ l.zip l.tail, ∀ r, j.setting.leg t.1 t.2 = .ok r → j.within = false → (∀ b, bounds b → b = SP.noBound) →
        Away j t.1 t.2 (segmentSum j.env.G.len r.lines) := by
  have hpair : ∀ p q, (j.entry p).isSome = true → (j.entry q).isSome = true → Steps j p q → Linked j.setting (Held j) p q ∧
      (∀ r, j.setting.leg p q = .ok r → (j.within = false → (∀ l ∈ r.lines, ∀ sg ∈ segs l, OnEdge j sg.1 sg.2) ∧
        ((∀ b, bounds b → b = SP.noBound) → Away j p q (segmentSum j.env.G.len r.lines)))) := by
    intro p q hp hq h
    obtain ⟨c, hc⟩ := Option.isSome_iff_exists.1 hp
    obtain ⟨d, hd⟩ := Option.isSome_iff_exists.1 hq
    obtain ⟨r, h1, h2, _⟩ := leg_all hj hc hd h.1
    obtain ⟨h3, _, h4⟩ := h2 (h.2 r h1)
    refine ⟨h3, fun r' hr' => ?_⟩
    rw [h1] at hr'
    rw [← Outcome.ok.inj hr']
    exact h4
  intro l
  induction l with
  | nil => intro _ _; simp
  | cons x l ih =>
    intro h1 h2
    cases l with
    | nil => simp
    | cons y l =>
      rw [List.isChain_cons_cons] at h2
      obtain ⟨i1, i2, i3⟩ := ih (fun z hz => h1 z (List.mem_cons_of_mem _ hz)) h2.2
      obtain ⟨k1, k2⟩ := hpair x y (h1 x (by simp)) (h1 y (by simp)) h2.1
      refine ⟨List.isChain_cons_cons.2 ⟨k1, i1⟩, List.isChain_cons_cons.2 ⟨?_, i2⟩, ?_⟩
      · intro r hr l hl sg hsg _ hw
        exact (k2 r hr hw).1 l hl sg hsg
      · intro t ht r hr hw hbb
        simp only [List.tail_cons, List.zip_cons_cons, List.mem_cons] at ht
        rcases ht with rfl | ht
        · exact (k2 r hr hw).2 hbb
        · exact i3 t ht r hr hw hbb

theorem segmentSum_flatMap {len : P → P → R} (legs : List (Route P)) :
    segmentSum len (legs.flatMap Route.lines) = (legs.map fun x => segmentSum len x.lines).sum := by
  induction legs with
  | nil => rfl
  | cons x legs ih => rw [List.flatMap_cons, segmentSum_append, ih, List.map_cons, List.sum_cons]

/-- The route for runs of candidates: one stretch for each. -/
theorem runs_route {j : Job V P R A} {pos : V → P} {bounds : (R → Bool) → Prop} (hj : Ready j pos bounds)
    (hstr : j.joins = true → j.within = false ∧ Straight j.setting (OnEdge j) j.env.G.len) (runs : List (List Entry × Bool))
    (hne : ∀ x ∈ runs, x.1 ≠ []) (hent : ∀ x ∈ runs, ∀ e ∈ x.1, (j.entry e).isSome = true)
    (hval : ∀ x ∈ runs, x.1.IsChain (Steps j)) (hsep : runs.IsChain (fun x _ => x.2 = true)) :
    ∃ r parts, MatchRoute.candidatesRoute j.setting (MatchRoute.policyOf runs) = .ok r ∧ (∀ x ∈ r.refs, x ∈ r.own ∨ Held j x) ∧
      r.lines = parts.flatten ∧ List.Forall₂ (fun x ls => Stretch j bounds x.1 ls) runs parts ∧
      ((∃ x ∈ runs, ∃ t ∈ x.1.zip x.1.tail, (j.cand t.1).proj ≠ (j.cand t.2).proj) → r.invalid = false) := by
  have hstr' : j.setting.joins = true → Straight j.setting (fun x y => j.within = false → OnEdge j x y) j.env.G.len := by
    intro hjo
    obtain ⟨hw, hs⟩ := hstr hjo
    intro x y w h1 h2 h3 h4 h5 h6
    obtain ⟨k1, k2⟩ := hs x y w h1 h2 h3 h4 (h5 hw) (h6 hw)
    exact ⟨fun hne _ => k1 hne, k2⟩
  have hruns : Runs j.setting (Held j) (fun x y => j.within = false → OnEdge j x y) runs := by
    induction runs with
    | nil => exact .nil
    | cons x runs ih =>
      have i := ih (fun y hy => hne y (List.mem_cons_of_mem _ hy)) (fun y hy => hent y (List.mem_cons_of_mem _ hy))
        (fun y hy => hval y (List.mem_cons_of_mem _ hy)) hsep.tail
      obtain ⟨run, rep⟩ := x
      obtain ⟨e, es, rfl⟩ := List.exists_cons_of_ne_nil (hne (run, rep) (by simp))
      obtain ⟨c1, c2, _⟩ := steps_linked hj (e :: es) (hent (e :: es, rep) (by simp)) (hval (e :: es, rep) (by simp))
      refine .cons e es rep runs c1 c2 ?_ i
      cases runs with
      | nil => exact .inr (.inl rfl)
      | cons y runs => exact .inl (List.isChain_cons_cons.1 hsep).1
  obtain ⟨r, parts, h1, h2, h3, h4, h5⟩ := match_follows_partial (len := j.env.G.len) hstr' hruns
  refine ⟨r, parts, h1, h2, h3, ?_, h5⟩
  have key : ∀ (run : List Entry) (ls : List (List P)), (∀ e ∈ run, (j.entry e).isSome = true) → run.IsChain (Steps j) →
      Follows j.setting (fun x y => j.within = false → OnEdge j x y) j.env.G.len run ls → Stretch j bounds run ls := by
    rintro run ls k1 k2 ⟨legs, p, q, k3, k4, k5, k6⟩
    obtain ⟨_, _, k7⟩ := steps_linked hj run k1 k2
    refine ⟨k6.connected, ⟨p, q, k4, k5, k6.leads⟩, fun hw l hl sg hsg hne => k6.road l hl sg hsg hne hw, fun hw hbb => ?_⟩
    refine ⟨legs.map fun x => segmentSum j.env.G.len x.lines, ?_, by rw [k6.length, segmentSum_flatMap]⟩
    have hlegs := forall₂_of_map _ _ k3
    have hall : ∀ t ∈ run.zip run.tail, ∀ r, j.setting.leg t.1 t.2 = .ok r →
        Away j t.1 t.2 (segmentSum j.env.G.len r.lines) := fun t ht r hr => k7 t ht r hr hw hbb
    clear k3 k6
    generalize run.zip run.tail = zs at hlegs hall
    induction hlegs with
    | nil => exact .nil
    | cons a _ ih => exact .cons (hall _ (by simp) _ a) (ih (fun t ht => hall t (List.mem_cons_of_mem _ ht)))
  clear h1 h2 h3 h5 hsep hruns hne
  induction h4 with
  | nil => exact .nil
  | @cons x ls runs parts h6 _ ih =>
    exact .cons (key _ _ (hent _ (by simp)) (hval _ (by simp)) h6)
      (ih (fun y hy => hent y (List.mem_cons_of_mem _ hy)) (fun y hy => hval y (List.mem_cons_of_mem _ hy)))

end Runs

/-! ### Plans and runs -/

section Plans

variable {R : Type} [CommRing R] [LinearOrder R] [IsStrictOrderedRing R] {x : Decide.Task R} {γ : R}

/-- The rest of a plan, which may be empty. -/
def Rest (x : Decide.Task R) (γ : R) (s : Decide.Sit) (l : List (Option Entry)) : Prop :=
  (x.n ≤ s.pos ∧ l = []) ∨ (s.pos < x.n ∧ ∃ v, Decide.Plan x γ s l v)

theorem rest_next {s : Decide.Sit} {l : List (Option Entry)} (h : Rest x γ s l) (hs : s.pos < x.n) :
    ∃ o r s' l', l = o :: l' ∧ Decide.Goes x s o r s' ∧ Rest x γ s' l' := by
  rcases h with ⟨h, _⟩ | ⟨_, v, h⟩
  · omega
  · cases h with
    | last hg hn => exact ⟨_, _, _, [], rfl, hg, .inl ⟨hn, rfl⟩⟩
    | more hg hn hp => exact ⟨_, _, _, _, rfl, hg, .inr ⟨hn, _, hp⟩⟩

theorem rest_nil {s : Decide.Sit} {l : List (Option Entry)} (h : Rest x γ s l) (hs : x.n ≤ s.pos) : l = [] := by
  rcases h with ⟨_, h⟩ | ⟨h, _⟩
  · exact h
  · omega

/-- The runs of a plan from candidate `g` of point `t` on. -/
inductive Trip (x : Decide.Task R) : Nat → Nat → List (List Entry × Bool) → Prop
  | stop {t g : Nat} : x.n ≤ t + 1 → Trip x t g [([(t, g)], false)]
  | on {t g h : Nat} {es : List Entry} {rep : Bool} {rest : List (List Entry × Bool)} : t + 1 < x.n → h < x.edges (t + 1) →
      (x.leg (t + 1) g h).invalid = false → (x.leg (t + 1) g h).detour = false → Trip x (t + 1) h (((t + 1, h) :: es, rep) :: rest) →
      Trip x t g (((t, g) :: (t + 1, h) :: es, rep) :: rest)
  | refused {t g h g' : Nat} {rest : List (List Entry × Bool)} : t + 1 < x.n → h < x.edges (t + 1) →
      (x.leg (t + 1) g h).invalid = true ∨ (x.leg (t + 1) g h).detour = true → g' < x.edges (t + 1) → Trip x (t + 1) g' rest →
      Trip x t g (([(t, g)], true) :: rest)
  | gap {t g g' : Nat} {rest : List (List Entry × Bool)} : x.edges (t + 1) = 0 → t + 2 < x.n → g' < x.edges (t + 2) →
      Trip x (t + 2) g' rest → Trip x t g (([(t, g)], true) :: rest)
  | off {t g : Nat} : x.edges (t + 1) = 0 → t + 2 = x.n → Trip x t g [([(t, g)], true)]

theorem trip_head {t g : Nat} {runs : List (List Entry × Bool)} (h : Trip x t g runs) :
    ∃ es rep rest, runs = ((t, g) :: es, rep) :: rest := by
  cases h <;> exact ⟨_, _, _, rfl⟩

/-- No two consecutive points without candidates, except in front. -/
def Sparse (edges : Nat → Nat) (n : Nat) : Prop := ∀ t, t + 1 < n → edges t = 0 → edges (t + 1) = 0 → ∀ s, s ≤ t → edges s = 0

theorem record_some (pol : List Entry) (e : Entry) : record pol (some e) = pol ++ [e] := rfl

theorem record_none (pol : List Entry) (e : Entry) : record (pol ++ [e]) none = pol ++ [e] ++ [e] := by simp [record]

/-- What is noted along a plan with these runs: nothing where the connection is given up. -/
def noted : List (List Entry) → List (Option Entry)
  | [] => []
  | [run] => run.map some
  | run :: next :: rest => run.map some ++ none :: noted (next :: rest)

theorem noted_cons (e : Entry) (run : List Entry) (rest : List (List Entry)) : noted ((e :: run) :: rest) = some e :: noted (run :: rest) := by
  cases rest <;> rfl

theorem trip_of_rest (hk : x.skipErrors = true) (hsp : Sparse x.edges x.n) : ∀ (m : Nat) (l : List (Option Entry)), l.length ≤ m →
    ∀ t g, t < x.n → g < x.edges t → Rest x γ (.after t g) l → ∃ runs, Trip x t g runs ∧
      (∃ e, (e = [] ∨ e = [none]) ∧ some (t, g) :: l = noted (runs.map Prod.fst) ++ e) ∧
      ∀ pol, l.foldl record (pol ++ [(t, g)]) = pol ++ MatchRoute.policyOf runs := by
  intro m
  induction m with
  | zero =>
    intro l hl t g ht hg h
    have : l = [] := List.eq_nil_of_length_eq_zero (by omega)
    subst this
    by_cases hn : x.n ≤ t + 1
    · exact ⟨_, .stop hn, ⟨[], .inl rfl, rfl⟩, fun pol => by simp [MatchRoute.policyOf]⟩
    · obtain ⟨_, _, _, _, h, _⟩ := rest_next h (by simp only [Decide.Sit.pos]; omega)
      simp at h
  | succ m ih =>
    intro l hl t g ht hg h
    by_cases hn : x.n ≤ t + 1
    · have := rest_nil h hn
      subst this
      exact ⟨_, .stop hn, ⟨[], .inl rfl, rfl⟩, fun pol => by simp [MatchRoute.policyOf]⟩
    · have hlt : t + 1 < x.n := by omega
      obtain ⟨o, r, s', l', rfl, hgo, hr⟩ := rest_next h hlt
      simp only [List.length_cons] at hl
      cases hgo with
      | gap hc =>
        have he : x.edges (t + 1) = 0 := by
          simp only [Decide.Sit.pos] at hc
          omega
        simp only [Decide.Sit.pos] at hr
        by_cases h2 : x.n ≤ t + 2
        · have := rest_nil hr h2
          subst this
          exact ⟨_, .off he (by omega), ⟨[none], .inr rfl, rfl⟩, fun pol => by simp [MatchRoute.policyOf, record_none]⟩
        · obtain ⟨o, r, s', l'', rfl, hgo, hr⟩ := rest_next hr (by simp only [Decide.Sit.pos]; omega)
          simp only [List.length_cons] at hl
          cases hgo with
          | gap hc =>
            exfalso
            simp only [Decide.Sit.pos] at hc
            have := hsp (t + 1) (by omega) he (by omega) t (by omega)
            omega
          | @resume _ g' h3 h4 =>
            obtain ⟨runs, k1, ⟨e, k0, k2⟩, k3⟩ := ih l'' (by omega) (t + 1 + 1) g' h3 h4 hr
            obtain ⟨es, rep, rest, rfl⟩ := trip_head k1
            refine ⟨_, .gap he h3 h4 k1, ⟨e, k0, by rw [k2]; rfl⟩, fun pol => ?_⟩
            rw [List.foldl_cons, List.foldl_cons, record_none, record_some, k3]
            simp [MatchRoute.policyOf]
      | @on _ _ h' h1 h2 h3 =>
        obtain ⟨h4, h5⟩ := h3 hk
        obtain ⟨runs, k1, ⟨e, k0, k2⟩, k3⟩ := ih l' (by omega) (t + 1) h' h1 h2 hr
        obtain ⟨es, rep, rest, rfl⟩ := trip_head k1
        refine ⟨_, .on h1 h2 h4 h5 k1, ⟨e, k0, ?_⟩, fun pol => ?_⟩
        · rw [k2]
          show _ = noted (((t, g) :: (t + 1, h') :: es) :: rest.map Prod.fst) ++ e
          rw [noted_cons]; rfl
        · rw [List.foldl_cons, record_some, k3]
          simp [MatchRoute.policyOf, List.getLast?_cons_cons]
      | @skip _ _ h' h1 h2 h3 h4 =>
        obtain ⟨o, r, s', l'', rfl, hgo, hr⟩ := rest_next hr h1
        simp only [List.length_cons] at hl
        cases hgo with
        | gap hc => simp only [Decide.Sit.pos] at hc; omega
        | @first _ g' h5 h6 =>
          obtain ⟨runs, k1, ⟨e, k0, k2⟩, k3⟩ := ih l'' (by omega) (t + 1) g' h5 h6 hr
          obtain ⟨es, rep, rest, rfl⟩ := trip_head k1
          refine ⟨_, .refused h1 h2 h4 h6 k1, ⟨e, k0, by rw [k2]; rfl⟩, fun pol => ?_⟩
          rw [List.foldl_cons, List.foldl_cons, record_none, record_some, k3]
          simp [MatchRoute.policyOf]

theorem trip_of_start (hk : x.skipErrors = true) (hsp : Sparse x.edges x.n) : ∀ (l : List (Option Entry)) (s : Decide.Sit),
    (∀ t g, s ≠ .after t g) → (∀ i, i < s.pos → x.edges i = 0) → Rest x γ s l →
    ((∀ i, i < x.n → x.edges i = 0) ∧ l.foldl record [] = []) ∨
    ∃ t g runs, t < x.n ∧ g < x.edges t ∧ s.pos ≤ t ∧ (∀ i, i < t → x.edges i = 0) ∧ Trip x t g runs ∧
      (∃ e, (e = [] ∨ e = [none]) ∧ l = List.replicate (t - s.pos) none ++ noted (runs.map Prod.fst) ++ e) ∧ l.foldl record [] = MatchRoute.policyOf runs := by
  intro l
  induction l with
  | nil =>
    intro s _ he h
    left
    rcases h with ⟨h, _⟩ | ⟨_, v, h⟩
    · exact ⟨fun i hi => he i (by omega), rfl⟩
    · cases h
  | cons o l ih =>
    intro s hs he h
    have hp : s.pos < x.n := by
      by_contra hc
      have := rest_nil h (by omega)
      simp at this
    obtain ⟨o', r, s', l', heq, hgo, hr⟩ := rest_next h hp
    cases heq
    cases hgo with
    | gap hc =>
      have h0 : x.edges s.pos = 0 := by omega
      have := ih (.blank s.pos) (by simp) (fun i hi => by
        simp only [Decide.Sit.pos] at hi
        rcases Nat.lt_succ_iff_lt_or_eq.1 hi with h | rfl
        · exact he i h
        · exact h0) hr
      rw [List.foldl_cons, show record [] none = [] from rfl]
      rcases this with h | ⟨t, g, runs, k1, k2, k3, k4, k5, ⟨e, k6, k7⟩, k8⟩
      · exact .inl h
      · change s.pos + 1 ≤ t at k3
        change l = List.replicate (t - (s.pos + 1)) none ++ _ ++ e at k7
        refine .inr ⟨t, g, runs, k1, k2, by omega, k4, k5, ⟨e, k6, ?_⟩, k8⟩
        rw [k7, show t - s.pos = (t - (s.pos + 1)) + 1 by omega, List.replicate_succ]
        rfl
    | @first t g h1 h2 =>
      obtain ⟨runs, k1, k2, k3⟩ := trip_of_rest hk hsp _ l le_rfl t g h1 h2 hr
      right
      obtain ⟨e, k0, k2⟩ := k2
      refine ⟨t, g, runs, h1, h2, le_rfl, he, k1, ⟨e, k0, by rw [k2]; simp [Decide.Sit.pos]⟩, ?_⟩
      rw [List.foldl_cons, record_some, k3]; rfl
    | @resume t g h1 h2 =>
      obtain ⟨runs, k1, k2, k3⟩ := trip_of_rest hk hsp _ l le_rfl (t + 1) g h1 h2 hr
      right
      obtain ⟨e, k0, k2⟩ := k2
      refine ⟨t + 1, g, runs, h1, h2, le_rfl, he, k1, ⟨e, k0, by rw [k2]; simp [Decide.Sit.pos]⟩, ?_⟩
      rw [List.foldl_cons, record_some, k3]; rfl
    | on => exact absurd rfl (hs _ _)
    | skip => exact absurd rfl (hs _ _)

end Plans

/-! ### The tour of a match -/

section Tours

variable {V P : Type} [DecidableEq V] [DecidableEq P] [Inhabited P]

/-- Rewards of the decision process can be judged: distances of candidates are not negative, directions are added as absolute values. -/
structure Fair (j : Job V P ℝ ℝ) : Prop where
  dist : ∀ cs ∈ j.cands, ∀ c ∈ cs, 0 ≤ c.2.dist
  abs : ∀ a, 0 ≤ j.env.G.abs a
  zero : j.env.G.zeroA = 0
  add : ∀ a b, j.env.G.addA a b = a + b
  track : j.track.length = j.cands.length

/-- The second candidate can be reached, by a route of at most ten times the length of the track between the points (unless these are
equal). -/
def Near (j : Job V P ℝ ℝ) (p q : Entry) : Prop :=
  Goes j p q ∧ ∃ x a b, Away j p q x ∧ j.track[p.1]? = some a ∧ j.track[q.1]? = some b ∧ (a ≠ b → x ≤ 10 * j.env.G.len a b)

/-- It cannot be reached, or only by a longer route. -/
def Barred (j : Job V P ℝ ℝ) (p q : Entry) : Prop :=
  ¬ Goes j p q ∨ ∃ x a b, Away j p q x ∧ j.track[p.1]? = some a ∧ j.track[q.1]? = some b ∧ a ≠ b ∧ 10 * j.env.G.len a b < x

/-- Candidates in stretches, from candidate `g` of point `t` on: one of each point that has some; each near the one before, unless
the connection was given up: because a candidate of the next point was tried that is cut off, or because the next point has none. -/
inductive Tour (j : Job V P ℝ ℝ) : Nat → Nat → List (List Entry) → Prop
  | stop {t g : Nat} : j.cands.length ≤ t + 1 → Tour j t g [[(t, g)]]
  | on {t g h : Nat} {es : List Entry} {rest : List (List Entry)} : t + 1 < j.cands.length → h < (j.cands.getD (t + 1) []).length →
      Near j (t, g) (t + 1, h) → Tour j (t + 1) h (((t + 1, h) :: es) :: rest) → Tour j t g (((t, g) :: (t + 1, h) :: es) :: rest)
  | refused {t g h g' : Nat} {rest : List (List Entry)} : t + 1 < j.cands.length → h < (j.cands.getD (t + 1) []).length →
      Barred j (t, g) (t + 1, h) → g' < (j.cands.getD (t + 1) []).length → Tour j (t + 1) g' rest → Tour j t g ([(t, g)] :: rest)
  | gap {t g g' : Nat} {rest : List (List Entry)} : j.cands.getD (t + 1) [] = [] → t + 2 < j.cands.length →
      g' < (j.cands.getD (t + 2) []).length → Tour j (t + 2) g' rest → Tour j t g ([(t, g)] :: rest)
  | off {t g : Nat} : j.cands.getD (t + 1) [] = [] → t + 2 = j.cands.length → Tour j t g [[(t, g)]]

theorem judge_near {j : Job V P ℝ ℝ} {pos : V → P} (hj : Ready j pos (fun b => b = SP.noBound)) (hw : j.within = false) (hf : Fair j)
    {f : Weights.Factors} {t g h : Nat} (ht : t + 1 < j.cands.length) (hg : g < (j.cands.getD t []).length)
    (hh : h < (j.cands.getD (t + 1) []).length) :
    ((j.judge f (t + 1) g h).invalid = false → (j.judge f (t + 1) g h).detour = false → Near j (t, g) (t + 1, h)) ∧
    ((j.judge f (t + 1) g h).invalid = true ∨ (j.judge f (t + 1) g h).detour = true → Barred j (t, g) (t + 1, h)) := by
  have hbb : ∀ b : ℝ → Bool, b = SP.noBound → b = SP.noBound := fun _ h => h
  have e1 := entry_some hg
  have e2 := entry_some hh
  obtain ⟨_, v1, v2⟩ := legOf_valid hj (t := t + 1) (g := h) (s := g) (by omega) e1 e2
  simp only [Nat.add_sub_cancel] at v1 v2
  obtain ⟨c, hc⟩ := Option.isSome_iff_exists.1 e1
  obtain ⟨d, hd⟩ := Option.isSome_iff_exists.1 e2
  obtain ⟨a, ha⟩ : ∃ a, j.track[t]? = some a := ⟨_, List.getElem?_eq_getElem (by rw [hf.track]; omega)⟩
  obtain ⟨b, hb⟩ : ∃ b, j.track[t + 1]? = some b := ⟨_, List.getElem?_eq_getElem (by rw [hf.track]; omega)⟩
  by_cases hi : (j.legOf (t + 1) h g).invalid = true
  · have hng : ¬ Goes j (t, g) (t + 1, h) := fun hgo => by rw [v2 hbb hgo] at hi; simp at hi
    refine ⟨fun h1 _ => ?_, fun _ => .inl hng⟩
    rw [Job.judge, if_pos hi] at h1
    simp at h1
  · have hi' : (j.legOf (t + 1) h g).invalid = false := by simpa using hi
    have hgo := v1 hi'
    obtain ⟨⟨x, hx, w1⟩, _, w3, w4, _⟩ := weight_inputs_partial hj hw (t := t + 1) (g := h) (s := g) (by omega) hc hd hgo ha hb
    simp only [Nat.add_sub_cancel] at hx
    have hx0 : c.2.proj = d.2.proj → x = 0 := by
      intro hpr
      obtain ⟨c', d', k1, k2, k3⟩ := hx
      rw [hc] at k1; cases k1
      rw [hd] at k2; cases k2
      rcases k3 with ⟨_, k⟩ | ⟨k, _⟩ | ⟨k, _⟩
      · exact k
      · exact absurd hpr k
      · exact absurd hpr k
    have hjd : (j.judge f (t + 1) g h).invalid = false ∧ ((j.judge f (t + 1) g h).detour = true ↔ a ≠ b ∧ 10 * j.env.G.len a b < x) := by
      rw [Job.judge, if_neg hi]
      refine ⟨rfl, ?_⟩
      simp only [w1, w3, w4]
      by_cases hab : a = b
      · subst hab
        simp [Weights.detour]
      · have hpos := hj.plane.toMetric.pos a b hab
        simp only [hab, if_false, Option.getD_some, decide_false, Bool.false_and, Bool.not_false, Bool.true_and, ne_eq,
          not_false_eq_true, true_and]
        by_cases hpr : c.2.proj = d.2.proj
        · have := hx0 hpr
          simp only [hpr, if_true, Option.getD_none, Weights.detour, lt_irrefl, false_and, decide_false, Bool.false_eq_true, false_iff]
          linarith
        · simp only [hpr, if_false, Option.getD_some, Weights.detour, decide_eq_true_eq]
          rw [lt_div_iff₀ hpos]
          constructor
          · exact fun h => h.2.2
          · intro h
            refine ⟨?_, hpos, h⟩
            linarith
    refine ⟨fun _ h2 => ⟨hgo, x, a, b, hx, ha, hb, fun hab => ?_⟩, fun h2 => ?_⟩
    · by_contra hcon
      push Not at hcon
      rw [hjd.2.2 ⟨hab, hcon⟩] at h2
      simp at h2
    · rcases h2 with h2 | h2
      · rw [hjd.1] at h2; simp at h2
      · obtain ⟨h3, h4⟩ := hjd.2.1 h2
        exact .inr ⟨x, a, b, hx, ha, hb, h3, h4⟩

theorem tour_of_trip {j : Job V P ℝ ℝ} {pos : V → P} (hj : Ready j pos (fun b => b = SP.noBound)) (hw : j.within = false) (hf : Fair j)
    {f : Weights.Factors} {t g : Nat} {runs : List (List Entry × Bool)} (h : Trip (j.task f true) t g runs)
    (ht : t < j.cands.length) (hg : g < (j.cands.getD t []).length) :
    Tour j t g (runs.map Prod.fst) ∧ (∀ y ∈ runs, y.1 ≠ []) ∧ (∀ y ∈ runs, ∀ e ∈ y.1, (j.entry e).isSome = true) ∧
      (∀ y ∈ runs, y.1.IsChain (Steps j)) ∧ runs.IsChain (fun y _ => y.2 = true) := by
  have e1 := entry_some (t := t) hg
  induction h with
  | stop hn => exact ⟨.stop hn, by simp, by simpa using e1, by simp, by simp⟩
  | @on t g h es rep rest h1 h2 h3 h4 _ ih =>
    have e2 := entry_some (j := j) (t := t + 1) (k := h) h2
    obtain ⟨k1, k2, k3, k4, k5⟩ := ih h1 h2 e2
    have hn := (judge_near hj hw hf (f := f) h1 hg h2).1 h3 h4
    refine ⟨.on h1 h2 hn k1, ?_, ?_, ?_, ?_⟩
    · intro y hy
      rcases List.mem_cons.1 hy with rfl | hy
      · simp
      · exact k2 y (List.mem_cons_of_mem _ hy)
    · intro y hy e he
      rcases List.mem_cons.1 hy with rfl | hy
      · rcases List.mem_cons.1 he with rfl | he
        · exact e1
        · exact k3 (((t + 1, h) :: es, rep)) (by simp) e he
      · exact k3 y (List.mem_cons_of_mem _ hy) e he
    · intro y hy
      rcases List.mem_cons.1 hy with rfl | hy
      · refine List.isChain_cons_cons.2 ⟨⟨by simp, fun r hr => ?_⟩, k4 (((t + 1, h) :: es, rep)) (by simp)⟩
        obtain ⟨c, hc⟩ := Option.isSome_iff_exists.1 e1
        obtain ⟨d, hd⟩ := Option.isSome_iff_exists.1 e2
        obtain ⟨r', m1, _, m3⟩ := leg_all hj hc hd (show t ≠ t + 1 by omega)
        rw [m1] at hr
        cases hr
        exact m3 (fun _ h => h) hn.1
      · exact k4 y (List.mem_cons_of_mem _ hy)
    · cases rest with
      | nil => simp
      | cons z rest =>
        rw [List.isChain_cons_cons] at k5 ⊢
        exact k5
  | @refused t g h g' rest h1 h2 h3 h4 h5 ih =>
    obtain ⟨k1, k2, k3, k4, k5⟩ := ih h1 h4 (entry_some h4)
    refine ⟨.refused h1 h2 ((judge_near hj hw hf (f := f) h1 hg h2).2 h3) h4 k1, ?_, ?_, ?_, ?_⟩
    · intro y hy
      rcases List.mem_cons.1 hy with rfl | hy
      · simp
      · exact k2 y hy
    · intro y hy e he
      rcases List.mem_cons.1 hy with rfl | hy
      · simp only [List.mem_singleton] at he; rw [he]; exact e1
      · exact k3 y hy e he
    · intro y hy
      rcases List.mem_cons.1 hy with rfl | hy
      · simp
      · exact k4 y hy
    · obtain ⟨es, rep, rest', rfl⟩ := trip_head h5
      exact List.isChain_cons_cons.2 ⟨rfl, k5⟩
  | @gap t g g' rest h1 h2 h3 h5 ih =>
    obtain ⟨k1, k2, k3, k4, k5⟩ := ih h2 h3 (entry_some h3)
    refine ⟨.gap (List.eq_nil_of_length_eq_zero h1) h2 h3 k1, ?_, ?_, ?_, ?_⟩
    · intro y hy
      rcases List.mem_cons.1 hy with rfl | hy
      · simp
      · exact k2 y hy
    · intro y hy e he
      rcases List.mem_cons.1 hy with rfl | hy
      · simp only [List.mem_singleton] at he; rw [he]; exact e1
      · exact k3 y hy e he
    · intro y hy
      rcases List.mem_cons.1 hy with rfl | hy
      · simp
      · exact k4 y hy
    · obtain ⟨es, rep, rest', rfl⟩ := trip_head h5
      exact List.isChain_cons_cons.2 ⟨rfl, k5⟩
  | off h1 h2 => exact ⟨.off (List.eq_nil_of_length_eq_zero h1) h2, by simp, by simpa using e1, by simp, by simp⟩

/-- A tour has one candidate of each point that has some. -/
theorem tour_points {j : Job V P ℝ ℝ} {t g : Nat} {runs : List (List Entry)} (h : Tour j t g runs) (ht : t < j.cands.length)
    (hg : g < (j.cands.getD t []).length) :
    (runs.flatten.map Prod.fst = (List.range' t (j.cands.length - t)).filter fun i => !(j.cands.getD i []).isEmpty) ∧
    ∀ e ∈ runs.flatten, e.2 < (j.cands.getD e.1 []).length := by
  have hne : ∀ {t g : Nat}, g < (j.cands.getD t []).length → (j.cands.getD t []).isEmpty = false := by
    intro t g hg
    cases hl : j.cands.getD t [] with
    | nil => rw [hl] at hg; simp at hg
    | cons => rfl
  induction h with
  | @stop t g hn =>
    rw [show j.cands.length - t = 1 by omega]
    refine ⟨?_, by simpa using hg⟩
    simp [hne hg, -List.getD_eq_getElem?_getD]
  | @on t g h es rest h1 h2 _ _ ih =>
    obtain ⟨k1, k2⟩ := ih h1 h2
    rw [show j.cands.length - t = (j.cands.length - (t + 1)) + 1 by omega, List.range'_succ, List.filter_cons_of_pos (by simp only [hne hg]; rfl), ← k1]
    refine ⟨by simp, fun e he => ?_⟩
    simp only [List.flatten_cons, List.cons_append, List.mem_cons] at he
    rcases he with rfl | he
    · exact hg
    · exact k2 e (by simpa using he)
  | @refused t g h g' rest h1 _ _ h4 _ ih =>
    obtain ⟨k1, k2⟩ := ih h1 h4
    rw [show j.cands.length - t = (j.cands.length - (t + 1)) + 1 by omega, List.range'_succ, List.filter_cons_of_pos (by simp only [hne hg]; rfl), ← k1]
    refine ⟨by simp, fun e he => ?_⟩
    simp only [List.flatten_cons, List.cons_append, List.mem_cons, List.nil_append] at he
    rcases he with rfl | he
    · exact hg
    · exact k2 e he
  | @gap t g g' rest h1 h2 h3 _ ih =>
    obtain ⟨k1, k2⟩ := ih h2 h3
    rw [show j.cands.length - t = (j.cands.length - (t + 2)) + 2 by omega, List.range'_succ, List.range'_succ,
      List.filter_cons_of_pos (by simp only [hne hg]; rfl), List.filter_cons_of_neg (by simp only [h1]; simp), ← k1]
    refine ⟨by simp, fun e he => ?_⟩
    simp only [List.flatten_cons, List.cons_append, List.mem_cons, List.nil_append] at he
    rcases he with rfl | he
    · exact hg
    · exact k2 e he
  | @off t g h1 h2 =>
    rw [show j.cands.length - t = 2 by omega, List.range'_succ, List.range'_succ,
      List.filter_cons_of_pos (by simp only [hne hg]; rfl), List.filter_cons_of_neg (by simp only [h1]; simp)]
    exact ⟨by simp, by simpa using hg⟩

/-! ### Rewards -/

theorem foldl_nonneg {α : Type} (f : ℝ → α → ℝ) (h : ∀ x a, 0 ≤ x → 0 ≤ f x a) : ∀ (l : List α) (x : ℝ), 0 ≤ x → 0 ≤ l.foldl f x := by
  intro l
  induction l with
  | nil => intro x hx; exact hx
  | cons a l ih => intro x hx; exact ih _ (h x a hx)

theorem directions_nonneg {G : Geo P ℝ ℝ} (ha : ∀ a, 0 ≤ G.abs a) (hz : G.zeroA = 0) (hadd : ∀ a b, G.addA a b = a + b)
    {ls : List (List P)} {a : ℝ} (h : routeDirections G G.abs ls = .ok (some a)) : 0 ≤ a := by
  have hplain : ∀ (l : List P) (a : ℝ), plainDirections G G.abs l = some a → 0 ≤ a := by
    intro l a h
    unfold plainDirections at h
    split_ifs at h
    cases h
    refine foldl_nonneg _ (fun x d hx => ?_) _ _ (by rw [hz])
    rw [hadd]
    exact add_nonneg hx (ha d)
  have hterms : ∀ (ls : List (List P)) (ts : List ℝ), directionTerms G G.abs ls = .ok ts → ∀ x ∈ ts, 0 ≤ x := by
    intro ls
    induction ls with
    | nil => intro ts h; simp only [directionTerms, Outcome.ok.injEq] at h; subst h; simp
    | cons l ls ih =>
      intro ts h
      cases ls with
      | nil =>
        simp only [directionTerms, Outcome.ok.injEq] at h
        subst h
        intro x hx
        exact hplain l x (by simpa using hx)
      | cons m ls =>
        simp only [directionTerms] at h
        cases hd : jointDirection G l m with
        | throws => simp [hd] at h
        | ub => simp [hd] at h
        | ok o =>
          rw [hd, Outcome.bind_ok] at h
          cases ht : directionTerms G G.abs (m :: ls) with
          | throws => rw [ht] at h; simp [Outcome.map] at h
          | ub => rw [ht] at h; simp [Outcome.map] at h
          | ok ts' =>
            rw [ht, Outcome.map_ok, Outcome.ok.injEq] at h
            subst h
            intro x hx
            rcases List.mem_append.1 hx with hx | hx
            · rw [Option.mem_toList] at hx
              cases o with
              | none => simp at hx
              | some d => simp only [Option.map_some, Option.some.injEq] at hx; rw [← hx]; exact ha d
            · rcases List.mem_append.1 hx with hx | hx
              · exact hplain l x (by simpa using hx)
              · exact ih ts' ht x hx
  match ls, h with
  | [l], h => exact hplain l a (by simpa [routeDirections] using h)
  | l :: m :: ls, h =>
    simp only [routeDirections] at h
    cases ht : directionTerms G G.abs (l :: m :: ls) with
    | throws => rw [ht] at h; simp [Outcome.map] at h
    | ub => rw [ht] at h; simp [Outcome.map] at h
    | ok ts =>
      rw [ht, Outcome.map_ok, Outcome.ok.injEq] at h
      unfold sumTerms at h
      split_ifs at h
      cases h
      have hts := hterms _ _ ht
      rw [hz, show G.addA = (· + ·) from funext fun a => funext fun b => hadd a b, Weights.foldl_add, zero_add]
      exact List.sum_nonneg hts

theorem dist_nonneg {j : Job V P ℝ ℝ} (hf : Fair j) (e : Entry) : 0 ≤ j.dist e := by
  unfold Job.dist
  cases h : j.entry e with
  | none => exact le_rfl
  | some c =>
    unfold Job.entry at h
    rw [Option.bind_eq_some_iff] at h
    obtain ⟨cs, h1, h2⟩ := h
    exact hf.dist cs (List.mem_of_getElem? h1) c (List.mem_of_getElem? h2)

theorem step_directions {j : Job V P ℝ ℝ} (hf : Fair j) {f : Weights.Factors} (hfo : Weights.FactorsOk f) (t g h : Nat) :
    0 ≤ Weights.directionsPart f (j.stepOf t g h) := by
  unfold Weights.directionsPart
  cases hd : (j.stepOf t g h).routeDirections with
  | none => exact le_rfl
  | some a =>
    refine mul_nonneg hfo.direction ?_
    have hd' : (j.legOf t h g).routeDirections = some a := hd
    unfold Job.legOf at hd'
    split at hd'
    · next r _ =>
      have hd2 : turns j.env.G r = some a := hd'
      unfold turns at hd2
      split at hd2
      · next e => subst hd2; exact directions_nonneg hf.abs hf.zero hf.add e
      · cases hd2
    · cases hd'

/-- Rewards of the decision process of a track are never positive. -/
theorem task_costly {j : Job V P ℝ ℝ} (hm : Metric j.env.G) (hf : Fair j) {f : Weights.Factors} (hfo : Weights.FactorsOk f)
    (skip : Bool) : Decide.Costly (j.task f skip) := by
  obtain ⟨h1, _, h3, _⟩ := Weights.reward_nonpos hfo
  refine ⟨fun t g _ _ => h1 _ _ (dist_nonneg hf _), fun t g h _ _ _ => ?_⟩
  show (j.judge f (t + 1) g h).reward ≤ 0
  unfold Job.judge
  split_ifs with hi
  · show 0 - Weights.failReward _ _ ≤ 0
    rw [zero_sub]
    refine h3 _ _ (fun y hy => ?_)
    unfold Job.lengths at hy
    rw [List.mem_map] at hy
    obtain ⟨i, _, hi⟩ := hy
    unfold Job.segment at hi
    split at hi
    · split_ifs at hi with hab
      cases hi
      exact (hm.pos _ _ hab).le
    · cases hi
  · show Weights.stepReward f (j.stepOf (t + 1) g h) ≤ 0
    have d1 := dist_nonneg hf (t + 1, h)
    have d2 := dist_nonneg hf (t, g)
    have p1 : 0 ≤ Weights.distancePart f (j.stepOf (t + 1) g h) := by
      unfold Weights.distancePart Job.stepOf
      have := hfo.distance
      simp only [Nat.add_sub_cancel]
      split_ifs <;> positivity
    have p2 := Weights.lengthPart_nonneg hfo ((j.stepOf (t + 1) g h).trackLength.getD 0) ((j.stepOf (t + 1) g h).routeLength.getD 0)
    have p3 := Weights.azimuthPart_nonneg hfo (j.stepOf (t + 1) g h)
    have p4 := step_directions hf hfo (t + 1) g h
    unfold Weights.stepReward
    split_ifs
    · exact le_rfl
    · linarith

/-! ### C97 -/

/-- No two consecutive points without candidates behind the first that has some. -/
def NoWideGap (j : Job V P ℝ ℝ) : Prop := Sparse (fun t => (j.cands.getD t []).length) j.cands.length

/-- A match: a tour from the first point with candidates on, its stretches, and the plan by which it was chosen. -/
structure Decided (j : Job V P ℝ ℝ) (f : Weights.Factors) (γ : ℝ) (t0 : Nat) (r : Route P) (runs : List (List Entry))
    (l : List (Option Entry)) (v : ℝ) : Prop where
  tour : ∃ g, g < (j.cands.getD t0 []).length ∧ Tour j t0 g runs
  plan : Decide.Plan (j.task f true) γ (.fresh 0) l v
  noted : ∃ e, (e = [] ∨ e = [none]) ∧ l = List.replicate t0 none ++ noted runs ++ e
  living : ∀ y ∈ r.refs, y ∈ r.own ∨ Held j y
  lines : ∃ parts, r.lines = parts.flatten ∧ List.Forall₂ (Stretch j (fun b => b = SP.noBound)) runs parts
  valid : (∃ run ∈ runs, ∃ e ∈ run.zip run.tail, (j.cand e.1).proj ≠ (j.cand e.2).proj) → r.invalid = false

theorem starts_unique {j : Job V P ℝ ℝ} {t0 t : Nat} (h : Starts j t0) (ht : (j.cands.getD t []).length ≠ 0)
    (hn : ∀ i, i < t → (j.cands.getD i []).length = 0) : t = t0 := by
  rcases Nat.lt_trichotomy t t0 with h1 | h1 | h1
  · rw [h.none t h1] at ht; simp at ht
  · exact h1
  · exact absurd (List.eq_nil_of_length_eq_zero (hn t0 h1)) h.some

/-- The route for a plan. -/
theorem plan_route {j : Job V P ℝ ℝ} {pos : V → P} (hj : Ready j pos (fun b => b = SP.noBound)) (hw : j.within = false) (hf : Fair j)
    (hstr : j.joins = true → Straight j.setting (OnEdge j) j.env.G.len) (hgap : NoWideGap j) {f : Weights.Factors} {γ : ℝ}
    {l : List (Option Entry)} {v : ℝ} (hp : Decide.Plan (j.task f true) γ (.fresh 0) l v) :
    ((∀ t, j.cands.getD t [] = []) → MatchRoute.candidatesRoute j.setting (Router.policyOf l) = .ok Route.bad) ∧
    ∀ t0, Starts j t0 → ∃ r runs, MatchRoute.candidatesRoute j.setting (Router.policyOf l) = .ok r ∧
      Decided j f γ t0 r runs l v := by
  have hcases : ((∀ i, (j.cands.getD i []).length = 0) ∧ Router.policyOf l = []) ∨
      ∃ t g runs, t < j.cands.length ∧ g < (j.cands.getD t []).length ∧ (∀ i, i < t → (j.cands.getD i []).length = 0) ∧
        Trip (j.task f true) t g runs ∧ (∃ e, (e = [] ∨ e = [none]) ∧ l = List.replicate t none ++ noted (runs.map Prod.fst) ++ e) ∧
        Router.policyOf l = MatchRoute.policyOf runs := by
    by_cases h0 : 0 < j.cands.length
    · have hrest : Rest (j.task f true) γ (.fresh 0) l := .inr ⟨h0, v, hp⟩
      rcases trip_of_start (x := j.task f true) rfl hgap l (.fresh 0) (by simp) (by simp [Decide.Sit.pos]) hrest with h | h
      · left
        refine ⟨fun i => ?_, h.2⟩
        by_cases hi : i < j.cands.length
        · exact h.1 i hi
        · simp [List.getElem?_eq_none (show j.cands.length ≤ i by omega)]
      · obtain ⟨t, g, runs, k1, k2, _, k4, k5, k6, k7⟩ := h
        exact .inr ⟨t, g, runs, k1, k2, k4, k5, k6, k7⟩
    · left
      have hz : j.cands = [] := List.eq_nil_of_length_eq_zero (by omega)
      have hn : (j.task f true).n = 0 := by show j.cands.length = 0; rw [hz]; rfl
      refine ⟨fun i => by rw [hz]; rfl, ?_⟩
      cases hp with
      | last hg _ =>
        cases hg with
        | gap => rfl
        | first h => rw [hn] at h; simp at h
      | more _ h => rw [hn] at h; simp at h
  constructor
  · intro hall
    rcases hcases with ⟨_, h⟩ | ⟨t, g, _, _, hg, _⟩
    · rw [h, MatchRoute.candidatesRoute, collect, Outcome.bind_ok]
      · exact merge_invalid (rs := []) false false _ (by simp)
      · simp
    · rw [hall t] at hg; simp at hg
  · intro t0 hst
    rcases hcases with ⟨h, _⟩ | ⟨t, g, runs, h1, h2, h3, h4, h5, h6⟩
    · exact absurd (List.eq_nil_of_length_eq_zero (h t0)) hst.some
    · have : t = t0 := starts_unique hst (by omega) h3
      subst this
      obtain ⟨k1, k2, k3, k4, k5⟩ := tour_of_trip hj hw hf h4 h1 h2
      obtain ⟨r, parts, m1, m2, m3, m4, m5⟩ := runs_route hj (fun hjo => ⟨hw, hstr hjo⟩) runs k2 k3 k4 k5
      refine ⟨r, runs.map Prod.fst, by rw [h6]; exact m1, ⟨g, h2, k1⟩, hp, ?_, m2, ⟨parts, m3, ?_⟩, ?_⟩
      · exact h5
      · clear m1 m2 m3 m5 h4 h5 h6 k1 k2 k3 k4 k5
        induction m4 with
        | nil => exact .nil
        | cons a _ ih => exact .cons a ih
      · rintro ⟨run, hrun, e, he, hne⟩
        obtain ⟨y, hy, rfl⟩ := List.mem_map.1 hrun
        exact m5 ⟨y, hy, e, he, hne⟩

theorem starts_or_none (j : Job V P ℝ ℝ) : (∀ t, j.cands.getD t [] = []) ∨ ∃ t0, Starts j t0 := by
  by_cases h : ∃ t, j.cands.getD t [] ≠ []
  · right
    classical
    refine ⟨Nat.find h, ?_, Nat.find_spec h, fun s hs => by simpa using Nat.find_min h hs⟩
    by_contra hc
    have hz : ∀ i, j.cands.length ≤ i → j.cands.getD i [] = [] := fun i hi => by simp [List.getElem?_eq_none hi]
    exact Nat.find_spec h (hz _ (by omega))
  · left
    push Not at h
    exact h

theorem routeFor_some {j : Job V P ℝ ℝ} {o : Outcome (Option (List Entry))} {r : Route P} (h : j.routeFor o = .ok (some r)) :
    ∃ pol, o = .ok (some pol) ∧ MatchRoute.candidatesRoute j.setting pol = .ok r := by
  unfold Job.routeFor at h
  cases o with
  | throws => simp at h
  | ub => simp at h
  | ok o =>
    rw [Outcome.bind_ok] at h
    cases o with
    | none => simp at h
    | some pol =>
      simp only at h
      cases hc : MatchRoute.candidatesRoute j.setting pol with
      | throws => rw [hc] at h; simp [Outcome.map] at h
      | ub => rw [hc] at h; simp [Outcome.map] at h
      | ok r' =>
        rw [hc, Outcome.map_ok] at h
        simp only [Outcome.ok.injEq, Option.some.injEq] at h
        exact ⟨pol, rfl, by rw [← h]; exact hc⟩

/-- **C97, an end.**  Matching with value iteration comes to an end with a route, whatever the factors: nothing is undefined, no
exception leaves it. -/
theorem decided_ends {j : Job V P ℝ ℝ} {pos : V → P} (hj : Ready j pos (fun b => b = SP.noBound)) (hw : j.within = false) (hf : Fair j)
    (hstr : j.joins = true → Straight j.setting (OnEdge j) j.env.G.len) (hgap : NoWideGap j) (f : Weights.Factors) (γ : ℝ) {th : ℝ}
    (hth : 0 ≤ th) : ∃ K, ∀ k, K ≤ k → ∃ r, j.byValues f true γ th k = .ok (some r) := by
  obtain ⟨K, hK⟩ := Decide.values_give_plan (j.task f true) γ hth
  refine ⟨K, fun k hk => ?_⟩
  obtain ⟨l, v, h1, h2⟩ := hK k hk
  unfold Job.byValues Job.routeFor
  rw [h1, Outcome.bind_ok]
  obtain ⟨k1, k2⟩ := plan_route hj hw hf hstr hgap h2
  rcases starts_or_none j with h | ⟨t0, h⟩
  · exact ⟨_, by simp only; rw [k1 h]; rfl⟩
  · obtain ⟨r, _, h3, _⟩ := k2 t0 h
    exact ⟨r, by simp only; rw [h3]; rfl⟩

/-- **C97, no candidates.**  If no point has candidates, the route is invalid. -/
theorem decided_none {j : Job V P ℝ ℝ} {pos : V → P} (hj : Ready j pos (fun b => b = SP.noBound)) (hw : j.within = false) (hf : Fair j)
    (hstr : j.joins = true → Straight j.setting (OnEdge j) j.env.G.len) (hgap : NoWideGap j) {f : Weights.Factors}
    (hfo : Weights.FactorsOk f) {γ : ℝ} (hγ : 0 ≤ γ) {th : ℝ} {k : Nat} {r : Route P} (h : j.byValues f true γ th k = .ok (some r))
    (hn : ∀ t, j.cands.getD t [] = []) : r = Route.bad := by
  obtain ⟨pol, h1, h2⟩ := routeFor_some h
  obtain ⟨l, v, rfl, h3, _⟩ := Decide.values_near_best_partial (task_costly hj.plane.toMetric hf hfo true) hγ h1
  rw [(plan_route hj hw hf hstr hgap h3).1 hn] at h2
  exact (Outcome.ok.inj h2).symm

/-- **C97, match by value iteration.**  Routes are searched without a bound, no factor is negative and errors are skipped (as by
default).  The match is the route for a tour: it has one candidate of each point that has some, and leads from each to the next if
that is near (`Near`: it can be reached by a route of at most ten times the length of the track).  The connection is given up only
where the next point has no candidates or a candidate of it was tried that is cut off or far away.  The route consists of one stretch
for each connected part of the tour, refers to living lines only, and is valid if anything moves.  Each stretch is connected, leads
from the projection of its first candidate to that of its last, has only pieces of segments of edges in their direction, and its
length is the sum of the distances over shortest paths.  No plan is better by more than the threshold for each step.
Missing: bounds, trimmed turns, two neighbouring points without candidates (C37), A* search with unreachable goals (C04). -/
theorem decided_partial {j : Job V P ℝ ℝ} {pos : V → P} (hj : Ready j pos (fun b => b = SP.noBound)) (hw : j.within = false)
    (hf : Fair j) (hstr : j.joins = true → Straight j.setting (OnEdge j) j.env.G.len) (hgap : NoWideGap j) {f : Weights.Factors}
    (hfo : Weights.FactorsOk f) {γ : ℝ} (hγ : 0 ≤ γ) {th : ℝ} {k : Nat} {r : Route P} (h : j.byValues f true γ th k = .ok (some r))
    {t0 : Nat} (ht : Starts j t0) : ∃ runs l v, Decided j f γ t0 r runs l v ∧
      ∀ l' v', Decide.Plan (j.task f true) γ (.fresh 0) l' v' → v' ≤ v + γ * th * Learn.discounted γ l.length := by
  obtain ⟨pol, h1, h2⟩ := routeFor_some h
  obtain ⟨l, v, rfl, h3, h4⟩ := Decide.values_near_best_partial (task_costly hj.plane.toMetric hf hfo true) hγ h1
  obtain ⟨r', runs, k1, k2⟩ := (plan_route hj hw hf hstr hgap h3).2 t0 ht
  rw [k1] at h2
  cases Outcome.ok.inj h2
  exact ⟨runs, l, v, k2, h4⟩

/-- **C97, match by policy iteration.**  The same, with threshold zero: no plan is better. -/
theorem decided_policies_partial {j : Job V P ℝ ℝ} {pos : V → P} (hj : Ready j pos (fun b => b = SP.noBound)) (hw : j.within = false)
    (hf : Fair j) (hstr : j.joins = true → Straight j.setting (OnEdge j) j.env.G.len) (hgap : NoWideGap j) {f : Weights.Factors}
    (hfo : Weights.FactorsOk f) {γ : ℝ} (hγ : 0 ≤ γ) {t0 : Nat} (ht : Starts j t0) :
    (∃ K, ∀ k, K ≤ k → ∃ r, j.byPolicies f true γ 0 k = .ok (some r)) ∧
    ∀ k r, j.byPolicies f true γ 0 k = .ok (some r) → ∃ runs l v, Decided j f γ t0 r runs l v ∧
      ∀ l' v', Decide.Plan (j.task f true) γ (.fresh 0) l' v' → v' ≤ v := by
  have hc := task_costly hj.plane.toMetric hf hfo true
  constructor
  · obtain ⟨K, hK⟩ := Decide.policies_stop_partial hc hγ
    refine ⟨K, fun k hk => ?_⟩
    obtain ⟨pol, h1⟩ := hK k hk
    obtain ⟨l, v, rfl, h3, _⟩ := Decide.policies_best_partial hc hγ h1
    obtain ⟨r', runs, k1, k2⟩ := (plan_route hj hw hf hstr hgap h3).2 t0 ht
    exact ⟨r', by unfold Job.byPolicies Job.routeFor; rw [h1, Outcome.bind_ok]; simp only; rw [k1]; rfl⟩
  · intro k r h
    obtain ⟨pol, h1, h2⟩ := routeFor_some h
    obtain ⟨l, v, rfl, h3, h4⟩ := Decide.policies_best_partial hc hγ h1
    obtain ⟨r', runs, k1, k2⟩ := (plan_route hj hw hf hstr hgap h3).2 t0 ht
    rw [k1] at h2
    cases Outcome.ok.inj h2
    exact ⟨runs, l, v, k2, h4⟩

/-- **C97, points.**  A match has a candidate of each point with candidates. -/
theorem decided_points {j : Job V P ℝ ℝ} {f : Weights.Factors} {γ : ℝ} {t0 : Nat} {r : Route P} {runs : List (List Entry)}
    {l : List (Option Entry)} {v : ℝ} (h : Decided j f γ t0 r runs l v) (ht : Starts j t0) :
    (runs.flatten.map Prod.fst = (List.range j.cands.length).filter fun i => !(j.cands.getD i []).isEmpty) ∧
    ∀ e ∈ runs.flatten, e.2 < (j.cands.getD e.1 []).length := by
  obtain ⟨g, h1, h2⟩ := h.tour
  obtain ⟨k1, k2⟩ := tour_points h2 ht.lt h1
  refine ⟨?_, k2⟩
  rw [k1]
  have hlt := ht.lt
  have : List.range j.cands.length = List.range' 0 t0 ++ List.range' t0 (j.cands.length - t0) := by
    have := List.range'_append_1 (s := 0) (m := t0) (n := j.cands.length - t0)
    rw [zero_add] at this
    rw [this, List.range_eq_range']
    congr 1
    omega
  rw [this, List.filter_append]
  have hnil : (List.range' 0 t0).filter (fun i => !(j.cands.getD i []).isEmpty) = [] := by
    rw [List.filter_eq_nil_iff]
    intro i hi
    simp only [List.mem_range'_1, zero_le, true_and, zero_add] at hi
    rw [ht.none i hi]; simp
  rw [hnil, List.nil_append]

/-! ### Connected choices -/

theorem away_unique {j : Job V P ℝ ℝ} {p q : Entry} {x y : ℝ} (hx : Away j p q x) (hy : Away j p q y) : x = y := by
  obtain ⟨c, d, h1, h2, h3⟩ := hx
  obtain ⟨c', d', k1, k2, k3⟩ := hy
  rw [h1] at k1; cases k1
  rw [h2] at k2; cases k2
  rcases h3 with ⟨h3, h4⟩ | ⟨h3, h4, h5⟩ | ⟨h3, h4, a, b, u, h5, h6, h7, h8⟩ <;>
    rcases k3 with ⟨k3, k4⟩ | ⟨k3, k4, k5⟩ | ⟨k3, k4, a', b', w, k5, k6, k7, k8⟩ <;>
    try first
      | exact absurd h3 k3
      | exact absurd k3 h3
      | exact absurd h4 k4
      | exact absurd k4 h4
  · rw [h4, k4]
  · linarith
  · rw [h5] at k5; cases k5
    rw [h6] at k6; cases k6
    obtain ⟨⟨ws, m1, m2⟩, m3⟩ := h7
    obtain ⟨⟨ws', n1, n2⟩, n3⟩ := k7
    have : u = w := le_antisymm (n2 ▸ m3 ws' n1) (m2 ▸ n3 ws m1)
    rw [h8, k8, this]

/-- A near candidate is not refused. -/
theorem near_not_barred {j : Job V P ℝ ℝ} {p q : Entry} (h : Near j p q) : ¬ Barred j p q := by
  obtain ⟨hg, x, a, b, h1, h2, h3, h4⟩ := h
  rintro (k | ⟨x', a', b', k1, k2, k3, k4, k5⟩)
  · exact k hg
  · rw [h2] at k2; cases k2
    rw [h3] at k3; cases k3
    rw [← away_unique h1 k1] at k5
    linarith [h4 k4]

/-- One candidate for each point from `t0` on, each near the one before. -/
def NearChoice (j : Job V P ℝ ℝ) (t0 : Nat) (σ : Nat → Nat) : Prop :=
  (∀ t, t0 ≤ t → t < j.cands.length → σ t < (j.cands.getD t []).length) ∧
  ∀ t, t0 ≤ t → t + 1 < j.cands.length → Near j (t, σ t) (t + 1, σ (t + 1))

/-- What such a choice is worth: the reward of its first candidate (none if points without candidates are in front), and those of its
steps, discounted. -/
noncomputable def worth (j : Job V P ℝ ℝ) (f : Weights.Factors) (γ : ℝ) (t0 : Nat) (σ : Nat → Nat) : ℝ :=
  γ ^ t0 * ((if t0 = 0 then Weights.firstReward f true (j.dist (0, σ 0)) else 0) +
    γ * ∑ i ∈ Finset.range (j.cands.length - 1 - t0), γ ^ i * Weights.stepReward f (j.stepOf (t0 + i + 1) (σ (t0 + i)) (σ (t0 + i + 1))))

theorem near_plan {j : Job V P ℝ ℝ} {pos : V → P} (hj : Ready j pos (fun b => b = SP.noBound)) (hw : j.within = false) (hf : Fair j)
    (f : Weights.Factors) (γ : ℝ) {t0 : Nat} (ht : Starts j t0) {σ : Nat → Nat} (hσ : NearChoice j t0 σ) :
    ∃ l, Decide.Plan (j.task f true) γ (.fresh 0) l (worth j f γ t0 σ) := by
  have hgo : ∀ t, t0 ≤ t → t + 1 < j.cands.length → Decide.Goes (j.task f true) (.after t (σ t)) (some (t + 1, σ (t + 1)))
      (Weights.stepReward f (j.stepOf (t + 1) (σ t) (σ (t + 1)))) (.after (t + 1) (σ (t + 1))) := by
    intro t h1 h2
    have hn := hσ.2 t h1 h2
    have hb := judge_near hj hw hf (f := f) h2 (hσ.1 t h1 (by omega)) (hσ.1 (t + 1) (by omega) h2)
    have hi : (j.judge f (t + 1) (σ t) (σ (t + 1))).invalid = false := by
      by_contra hc
      exact near_not_barred hn (hb.2 (.inl (by simpa using hc)))
    have hd : (j.judge f (t + 1) (σ t) (σ (t + 1))).detour = false := by
      by_contra hc
      exact near_not_barred hn (hb.2 (.inr (by simpa using hc)))
    have hr : (j.judge f (t + 1) (σ t) (σ (t + 1))).reward = Weights.stepReward f (j.stepOf (t + 1) (σ t) (σ (t + 1))) := by
      unfold Job.judge at hi ⊢
      split_ifs at hi ⊢
      rfl
    rw [← hr]
    exact .on h2 (hσ.1 (t + 1) (by omega) h2) (fun _ => ⟨hi, hd⟩)
  have hafter : ∀ m t, t0 ≤ t → t + 1 + m = j.cands.length → ∃ l v, (m = 0 ∧ l = [] ∧ v = 0 ∨
      0 < m ∧ Decide.Plan (j.task f true) γ (.after t (σ t)) l v) ∧
      v = ∑ i ∈ Finset.range m, γ ^ i * Weights.stepReward f (j.stepOf (t + i + 1) (σ (t + i)) (σ (t + i + 1))) := by
    intro m
    induction m with
    | zero => intro t _ _; exact ⟨[], 0, .inl ⟨rfl, rfl, rfl⟩, by simp⟩
    | succ m ih =>
      intro t h1 h2
      have hg := hgo t h1 (by omega)
      obtain ⟨l, v, h3, h4⟩ := ih (t + 1) (by omega) (by omega)
      have hsum : ∑ i ∈ Finset.range (m + 1), γ ^ i * Weights.stepReward f (j.stepOf (t + i + 1) (σ (t + i)) (σ (t + i + 1))) =
          Weights.stepReward f (j.stepOf (t + 1) (σ t) (σ (t + 1))) + γ * v := by
        rw [Finset.sum_range_succ', h4, Finset.mul_sum, add_comm]
        simp only [pow_zero, one_mul, add_zero]
        congr 1
        refine Finset.sum_congr rfl fun i _ => ?_
        rw [pow_succ, show t + (i + 1) = t + 1 + i by omega]
        ring
      rw [hsum]
      rcases h3 with ⟨h3, _, h5⟩ | ⟨h3, h5⟩
      · refine ⟨_, _, .inr ⟨by omega, .last hg ?_⟩, by rw [h5]; ring⟩
        show j.cands.length ≤ t + 1 + 1
        omega
      · refine ⟨_, _, .inr ⟨by omega, .more hg ?_ h5⟩, rfl⟩
        show t + 1 + 1 < j.cands.length
        omega
  obtain ⟨l, v, h1, h2⟩ := hafter (j.cands.length - 1 - t0) t0 le_rfl (by have := ht.lt; omega)
  have hlt := ht.lt
  -- the first candidate
  have hfirst : ∀ s : Decide.Sit, s.pos = t0 → ((∃ t, s = .fresh t) ∧ t0 = 0 ∨ (∃ t, s = .blank t)) → ∃ l', Decide.Plan (j.task f true) γ s l'
      ((if t0 = 0 then Weights.firstReward f true (j.dist (0, σ 0)) else 0) + γ * v) := by
    intro s hs hcase
    have hgs : Decide.Goes (j.task f true) s (some (t0, σ t0)) (if t0 = 0 then Weights.firstReward f true (j.dist (0, σ 0)) else 0)
        (.after t0 (σ t0)) := by
      rcases hcase with ⟨⟨t, rfl⟩, h0⟩ | ⟨t, rfl⟩
      · simp only [Decide.Sit.pos] at hs
        subst hs
        subst h0
        exact .first hlt (hσ.1 0 le_rfl hlt)
      · simp only [Decide.Sit.pos] at hs
        subst hs
        rw [if_neg (by omega)]
        exact .resume hlt (hσ.1 (t + 1) le_rfl hlt)
    rcases h1 with ⟨h3, _, h5⟩ | ⟨h3, h5⟩
    · rw [h5, mul_zero, add_zero]
      refine ⟨_, .last hgs ?_⟩
      show j.cands.length ≤ t0 + 1
      omega
    · refine ⟨_, .more hgs ?_ h5⟩
      show t0 + 1 < j.cands.length
      omega
  have hfront : ∀ m (s : Decide.Sit), s.pos + m = t0 → ((∃ t, s = .fresh t) ∧ s.pos = 0 ∨ (∃ t, s = .blank t)) → ∃ l',
      Decide.Plan (j.task f true) γ s l' (γ ^ m * ((if t0 = 0 then Weights.firstReward f true (j.dist (0, σ 0)) else 0) + γ * v)) := by
    intro m
    induction m with
    | zero =>
      intro s h1 h2
      rw [pow_zero, one_mul]
      refine hfirst s (by omega) ?_
      rcases h2 with ⟨h2, h3⟩ | h2
      · exact .inl ⟨h2, by omega⟩
      · exact .inr h2
    | succ m ih =>
      intro s h1 _
      obtain ⟨l', h⟩ := ih (.blank s.pos) (by show s.pos + 1 + m = t0; omega) (.inr ⟨_, rfl⟩)
      have hg : Decide.Goes (j.task f true) s none 0 (.blank s.pos) := by
        refine .gap ?_
        rintro ⟨_, h3⟩
        change 0 < (j.cands.getD s.pos []).length at h3
        rw [ht.none s.pos (by omega)] at h3
        simp at h3
      refine ⟨none :: l', ?_⟩
      have := Decide.Plan.more hg (by show s.pos + 1 < j.cands.length; omega) h
      rw [zero_add, ← mul_assoc, ← pow_succ'] at this
      exact this
  obtain ⟨l', h⟩ := hfront t0 (.fresh 0) (by simp [Decide.Sit.pos]) (.inl ⟨⟨0, rfl⟩, rfl⟩)
  rw [h2] at h
  exact ⟨l', h⟩

/-- **C97, against connected choices.**  What the plan of a match by value iteration is worth, is at least what any connected choice
of near candidates is worth, but for the threshold.  (The plan itself may give the connection up: `decided_connected_fails`.) -/
theorem decided_choice_partial {j : Job V P ℝ ℝ} {pos : V → P} (hj : Ready j pos (fun b => b = SP.noBound)) (hw : j.within = false)
    (hf : Fair j) (hstr : j.joins = true → Straight j.setting (OnEdge j) j.env.G.len) (hgap : NoWideGap j) {f : Weights.Factors}
    (hfo : Weights.FactorsOk f) {γ : ℝ} (hγ : 0 ≤ γ) {th : ℝ} {k : Nat} {r : Route P} (h : j.byValues f true γ th k = .ok (some r))
    {t0 : Nat} (ht : Starts j t0) : ∃ runs l v, Decided j f γ t0 r runs l v ∧
      ∀ σ, NearChoice j t0 σ → worth j f γ t0 σ ≤ v + γ * th * Learn.discounted γ l.length := by
  obtain ⟨runs, l, v, h1, h2⟩ := decided_partial hj hw hf hstr hgap hfo hγ h ht
  refine ⟨runs, l, v, h1, fun σ hσ => ?_⟩
  obtain ⟨l', h3⟩ := near_plan hj hw hf f γ ht hσ
  exact h2 l' _ h3

end Tours

/-! ### Examples: the road of C94 -/

theorem street_fair {track : List Int} {cs : Spots} {found : Fin 3 → Fin 3 → Option (List (Fin 3))}
    (hd : ∀ xs ∈ cs, ∀ c ∈ xs, 0 ≤ c.2.dist) (hl : track.length = cs.length) : Fair (street track cs found) :=
  ⟨hd, fun a => abs_nonneg a, rfl, fun _ _ => rfl, hl⟩

/-- The point at 2 after the point at 5: it is behind on the same edge, which is one-way, and nearest to the begin of the next edge. -/
noncomputable def aside : Spots :=
  [[(0, ⟨5, 0, [0, 5], [5, 10]⟩)], [(0, ⟨2, 0, [0, 2], [2, 10]⟩), (1, ⟨10, 8, [], [10, 20]⟩)]]

theorem aside_ready (track : List Int) :
    ∃ found, Ready (street track aside found) (fun v => 10 * (v.val : Int)) (fun b => b = SP.noBound) := by
  choose found hf using answers_exist (streetNet.graph streetGeo)
  refine ⟨found, street_plane, street_laid, ?_, hf⟩
  intro xs hxs c hc
  replace hxs : xs ∈ aside := hxs
  simp only [aside, List.mem_cons, List.not_mem_nil, or_false] at hxs
  rcases hxs with rfl | rfl
  · simp only [List.mem_singleton] at hc
    subst hc
    obtain ⟨d, h⟩ := street_cand 0 10 5 (by omega) (by omega)
    exact ⟨_, 5, 2, d, rfl, h⟩
  · simp only [List.mem_cons, List.not_mem_nil, or_false] at hc
    rcases hc with rfl | rfl
    · obtain ⟨d, h⟩ := street_cand 0 10 2 (by omega) (by omega)
      exact ⟨_, 2, 2, d, rfl, h⟩
    · have hp : project streetEnv 10 [10, 20] = (10, streetGeo.len 10 10) := by
        unfold project; simp [streetEnv]
      have hs : snapped streetEnv 2 10 [10, 20] = (10, streetGeo.len 10 10) := by
        unfold snapped
        rw [if_pos (by simp), hp]
        unfold snapTo
        cases hv : nearestPoint streetEnv (10, streetGeo.len 10 10).1 [10, 20] none with
        | none => rfl
        | some y =>
          simp only
          rw [if_neg]
          rintro ⟨_, hy⟩
          rcases nearestPoint_mem streetEnv 10 [10, 20] none y hv with h3 | ⟨_, h3⟩
          · simp at h3
          · rw [h3] at hy
            exact absurd hy (not_lt.2 (len_nonneg street_metric _ _))
      refine ⟨_, 10, 2, ⟨10, streetGeo.len 10 10, [], [10, 20]⟩, rfl, ?_, ?_, rfl, rfl, rfl⟩
      · show candidate streetEnv 2 10 [10, 20] = _
        have hl : plainLength streetGeo [10, 20] = some (CandEdge.total streetGeo [10, 20]) :=
          length_total street_metric (by simp) (by simp)
        unfold candidate
        rw [hs, if_pos (by show (plainLength streetGeo [10, 20]).isSome = true; rw [hl]; rfl)]
        unfold divide
        simp
      · show At streetEnv [10, 20] (snapped streetEnv 2 10 [10, 20]).1
        rw [hs]
        exact .inl rfl

/-- matching/settings.hpp 65-66. -/
noncomputable def usual : Weights.Factors := ⟨0.8, 0.3, 0.5, 0.6, 0.5⟩

theorem usual_ok : Weights.FactorsOk usual := by constructor <;> simp only [usual] <;> norm_num

theorem aside_fair (found : Fin 3 → Fin 3 → Option (List (Fin 3))) : Fair (street [5, 2] aside found) :=
  street_fair (by
    intro xs hxs c hc
    simp only [aside, List.mem_cons, List.not_mem_nil, or_false] at hxs
    rcases hxs with rfl | rfl <;> simp only [List.mem_cons, List.not_mem_nil, or_false] at hc
    · subst hc; simp
    · rcases hc with rfl | rfl <;> simp) rfl

theorem aside_gap (track : List Int) (found : Fin 3 → Fin 3 → Option (List (Fin 3))) : NoWideGap (street track aside found) := by
  intro t ht h1 h2
  replace ht : t + 1 < 2 := ht
  obtain rfl : t = 0 := by omega
  simp [street, aside] at h1

theorem aside_starts (track : List Int) (found : Fin 3 → Fin 3 → Option (List (Fin 3))) : Starts (street track aside found) 0 :=
  ⟨by simp [street, aside], by simp [street, aside], by intro s hs; omega⟩

theorem aside_near (found : Fin 3 → Fin 3 → Option (List (Fin 3))) : NearChoice (street [5, 2] aside found) 0 (fun t => t) := by
  refine ⟨fun t _ ht => ?_, fun t _ ht => ?_⟩
  · replace ht : t < 2 := ht
    have : t = 0 ∨ t = 1 := by omega
    rcases this with rfl | rfl <;> simp [street, aside]
  · replace ht : t + 1 < 2 := ht
    obtain rfl : t = 0 := by omega
    refine ⟨⟨_, _, rfl, rfl, .inr (.inr ⟨_, _, rfl, rfl, [], .nil⟩)⟩, 5, 5, 2,
      ⟨_, _, rfl, rfl, .inr (.inr ⟨by simp, fun h => by simp [Ahead] at h, _, _, 0, rfl, rfl, ?_, ?_⟩)⟩, rfl, rfl, fun _ => ?_⟩
    · refine ⟨⟨[], .nil, rfl⟩, fun ws _ => SP.zero_le_cost (D := ℝ) ws⟩
    · simp only [CandEdge.total, street, streetEnv, streetGeo]
      norm_num
    · simp only [street, streetEnv, streetGeo]
      norm_num

theorem aside_behind (found : Fin 3 → Fin 3 → Option (List (Fin 3))) : ¬ Goes (street [5, 2] aside found) (0, 0) (1, 0) := by
  rintro ⟨c, d, hc, hd, hcd⟩
  have hc' := Option.some.inj hc
  have hd' := Option.some.inj hd
  subst hc' hd'
  rcases hcd with hcd | ⟨_, _, _, _, hcd⟩ | ⟨a, b, ha, hb, ws, hw⟩
  · simp at hcd
  · simp only [CandEdge.total, street, streetEnv, streetGeo] at hcd
    norm_num at hcd
  · have ha' := Option.some.inj ha
    have hb' := Option.some.inj hb
    subst ha' hb'
    cases hw with
    | snoc _ hmem =>
      simp only [Net.graph, List.mem_map, Prod.mk.injEq] at hmem
      obtain ⟨x, hx, h0, _⟩ := hmem
      simp only [street, streetNet, Net.outs, List.mem_filterMap] at hx
      obtain ⟨y, hy, hyx⟩ := hx
      split at hyx
      · simp only [List.zipIdx_cons, List.zipIdx_nil, List.mem_cons, List.not_mem_nil, or_false] at hy
        have := Option.some.inj hyx
        subst this
        rcases hy with rfl | rfl <;> simp at h0
      · simp at hyx

/-- **C97, counterexample.**  By default factors, discount and any threshold up to one: there is a choice of candidates connected by a
short route, and the match by the hidden Markov model is a valid route.  The decision process tries the candidate behind instead,
pays no more for that than the length of the rest of the track, and gives the connection up: the match is invalid. -/
theorem decided_connected_fails : ∃ found, Ready (street [5, 2] aside found) (fun v => 10 * (v.val : Int)) (fun b => b = SP.noBound) ∧
    NearChoice (street [5, 2] aside found) 0 (fun t => t) ∧
    (∀ f, ∃ r, (street [5, 2] aside found).run f = .ok r ∧ r.invalid = false) ∧
    ∀ th, 0 ≤ th → th ≤ 1 → (∃ K, ∀ k, K ≤ k → ∃ r, (street [5, 2] aside found).byValues usual true 0.99 th k = .ok (some r)) ∧
      ∀ k r, (street [5, 2] aside found).byValues usual true 0.99 th k = .ok (some r) → r = Route.bad := by
  obtain ⟨found, hj⟩ := aside_ready [5, 2]
  have hst := aside_starts [5, 2] found
  have hf := aside_fair found
  have hstr : (street [5, 2] aside found).joins = true → Straight (street [5, 2] aside found).setting (OnEdge (street [5, 2] aside found))
      (street [5, 2] aside found).env.G.len := fun _ => street_straight _ _ found
  have hnear := aside_near found
  have hgap := aside_gap [5, 2] found
  have e00 : (street [5, 2] aside found).entry (0, 0) = some (0, ⟨5, 0, [0, 5], [5, 10]⟩) := rfl
  have e10 : (street [5, 2] aside found).entry (1, 0) = some (0, ⟨2, 0, [0, 2], [2, 10]⟩) := rfl
  have e11 : (street [5, 2] aside found).entry (1, 1) = some (1, ⟨10, 8, [], [10, 20]⟩) := rfl
  have hn : ((street [5, 2] aside found).task usual true).n = 2 := rfl
  have n0 : ((street [5, 2] aside found).task usual true).edges 0 = 1 := rfl
  have n1 : ((street [5, 2] aside found).task usual true).edges 1 = 2 := rfl
  have hback : ((street [5, 2] aside found).judge usual 1 0 0).invalid = true := by
    by_contra hc
    obtain ⟨_, v1, _⟩ := legOf_valid hj (t := 1) (g := 0) (s := 0) (by omega) (by rw [e00]; rfl) (by rw [e10]; rfl)
    unfold Job.judge at hc
    split_ifs at hc with hi
    · exact hc rfl
    · exact aside_behind found (v1 (by simpa using hi))
  have hbackr : ((street [5, 2] aside found).judge usual 1 0 0).reward = -3 := by
    unfold Job.judge at hback ⊢
    split_ifs at hback ⊢ with hi
    show 0 - Weights.failReward 0 [some (((5 : Int) - 2).natAbs : ℝ)] = -3
    simp [Weights.failReward]
  refine ⟨found, hj, hnear, fun f => ?_, fun th h0 h1 => ⟨decided_ends hj rfl hf hstr hgap usual 0.99 h0, fun k r h => ?_⟩⟩
  · obtain ⟨σ, r, pts, m1, _, m3, _, _, _, m7, _⟩ := match_partial hj (fun hjo => ⟨rfl, hstr hjo⟩) f hst
      ⟨fun t => t, fun t _ ht => ⟨hnear.1 t (by omega) ht, fun h2 => by
        obtain ⟨t, rfl⟩ : ∃ s, t = s + 1 := ⟨t - 1, by omega⟩
        exact (hnear.2 t (by omega) ht).1⟩⟩
    refine ⟨r, m3, (m7 ⟨1, by omega, by show 1 < 2; omega, ?_⟩).1⟩
    have s0 : σ 0 < 1 := (m1 0 le_rfl (by show 0 < 2; omega)).1
    have s1 : σ 1 < 2 := (m1 1 (by omega) (by show 1 < 2; omega)).1
    have z0 : σ 0 = 0 := by omega
    simp only [Nat.sub_self]
    rw [z0, (cand_eq e00).2.2.2]
    have : σ 1 = 0 ∨ σ 1 = 1 := by omega
    rcases this with h | h <;> rw [h]
    · rw [(cand_eq e10).2.2.2]; simp
    · rw [(cand_eq e11).2.2.2]; simp
  · obtain ⟨pol, k1, k2⟩ := routeFor_some h
    obtain ⟨l, v, rfl, k3, k4⟩ := Decide.values_near_best_partial (task_costly hj.plane.toMetric hf usual_ok true) (by norm_num) k1
    have hplan : Decide.Plan ((street [5, 2] aside found).task usual true) 0.99 (.fresh 0) [some (0, 0), none, some (1, 0)]
        (Weights.firstReward usual true 0 + 0.99 * (((street [5, 2] aside found).judge usual 1 0 0).reward +
          0.99 * Weights.firstReward usual false 0)) := by
      refine .more (.first (by rw [hn]; omega) (by rw [n0]; omega)) (by show 0 + 1 < 2; omega)
        (.more (.skip (h := 0) (by rw [hn]; omega) (by rw [n1]; omega) rfl (.inl hback)) (by show 1 < 2; omega)
          (.last (.first (by rw [hn]; omega) (by rw [n1]; omega)) (by show 2 ≤ 1 + 1; omega)))
    have hv := k4 _ _ hplan
    rw [hbackr] at hv
    simp only [Weights.firstReward, mul_zero, zero_mul, ite_self, sub_zero, add_zero, zero_add] at hv
    have hne : ∀ g, g < 1 → g = 0 := fun g hg => by omega
    suffices hpol : ∃ g, l = [some (0, 0), none, some (1, g)] by
      obtain ⟨g, rfl⟩ := hpol
      have hp : Router.policyOf [some (0, 0), none, some (1, g)] = [(0, 0), (0, 0), (1, g)] := rfl
      rw [hp, MatchRoute.candidatesRoute, collect, if_pos rfl, collect, Outcome.bind_ok] at k2
      · rw [merge_invalid (rs := []) false false _ (by simp)] at k2
        exact (Outcome.ok.inj k2).symm
      · simp
    cases k3 with
    | last hg hpos =>
      cases hg with
      | gap hc => exact absurd ⟨by show 0 < 2; omega, by show 0 < 1; omega⟩ hc
      | first => change 2 ≤ 0 + 1 at hpos; omega
    | @more _ _ _ _ _ v1 hg hpos hp =>
      cases hg with
      | gap hc => exact absurd ⟨by show 0 < 2; omega, by show 0 < 1; omega⟩ hc
      | @first _ g h3 h4 =>
        obtain rfl := hne g h4
        cases hp with
        | last hg hpos =>
          cases hg with
          | gap hc => exact absurd ⟨by show 1 < 2; omega, by show 0 < 2; omega⟩ hc
          | @on _ _ h h5 h6 h7 =>
            exfalso
            obtain ⟨h8, h9⟩ := h7 rfl
            have : h = 0 ∨ h = 1 := by change h < 2 at h6; omega
            rcases this with rfl | rfl
            · change ((street [5, 2] aside found).judge usual 1 0 0).invalid = false at h8
              rw [hback] at h8
              simp at h8
            · change ((street [5, 2] aside found).judge usual 1 0 1).invalid = false at h8
              have hs : ((street [5, 2] aside found).legOf 1 1 0).same = false ∨ ((street [5, 2] aside found).legOf 1 1 0).invalid = true := by
                unfold Job.legOf
                split
                · left; show decide ((some 5 : Option Int) = some 2) = false; decide
                · exact .inr rfl
              have hr : ((street [5, 2] aside found).judge usual 1 0 1).reward ≤ -19.2 := by
                have p2 := Weights.lengthPart_nonneg usual_ok (((street [5, 2] aside found).stepOf 1 0 1).trackLength.getD 0)
                  (((street [5, 2] aside found).stepOf 1 0 1).routeLength.getD 0)
                have p3 := Weights.azimuthPart_nonneg usual_ok ((street [5, 2] aside found).stepOf 1 0 1)
                have p4 := step_directions hf usual_ok 1 0 1
                have p1 : Weights.distancePart usual ((street [5, 2] aside found).stepOf 1 0 1) = 19.2 := by
                  unfold Weights.distancePart
                  rw [show ((street [5, 2] aside found).stepOf 1 0 1).last = true from rfl,
                    show ((street [5, 2] aside found).stepOf 1 0 1).nextDist = 8 from rfl,
                    show ((street [5, 2] aside found).stepOf 1 0 1).currentDist = 0 from rfl]
                  simp only [usual, if_true]
                  norm_num
                unfold Job.judge at h8 ⊢
                split_ifs at h8 ⊢ with hi
                show Weights.stepReward usual ((street [5, 2] aside found).stepOf 1 0 1) ≤ _
                have hs' : ((street [5, 2] aside found).stepOf 1 0 1).same = false := hs.resolve_right hi
                unfold Weights.stepReward
                rw [hs']
                simp only [Bool.false_and, Bool.false_eq_true, if_false]
                linarith
              change _ ≤ Weights.firstReward usual true 0 + 0.99 * ((street [5, 2] aside found).judge usual 1 0 1).reward +
                0.99 * th * Learn.discounted 0.99 2 at hv
              simp only [Weights.firstReward, Learn.discounted, if_true, zero_mul, mul_zero, sub_zero, zero_add, add_zero, mul_one] at hv
              norm_num at hv
              nlinarith
          | skip => change 2 ≤ 1 at hpos; omega
        | @more _ _ _ _ _ v2 hg hpos hp =>
          cases hg with
          | gap hc => exact absurd ⟨by show 1 < 2; omega, by show 0 < 2; omega⟩ hc
          | on => change 1 + 1 < 2 at hpos; omega
          | skip =>
            cases hp with
            | last hg _ =>
              cases hg with
              | gap hc => exact absurd ⟨by show 1 < 2; omega, by show 0 < 2; omega⟩ hc
              | @first _ g _ _ => exact ⟨g, rfl⟩
            | more hg hpos =>
              cases hg with
              | gap hc => exact absurd ⟨by show 1 < 2; omega, by show 0 < 2; omega⟩ hc
              | first => change 1 + 1 < 2 at hpos; omega

/-- The hypotheses of the theorems hold of the road with points at -7 (without candidates), 2, 5 and 13: some match is found, with one
candidate of each of the three points. -/
example : ∃ found k r runs l v, (street [-7, 2, 5, 13] onward found).byValues usual true 0.99 0.001 k = .ok (some r) ∧
    Decided (street [-7, 2, 5, 13] onward found) usual 0.99 1 r runs l v ∧ runs.flatten.map Prod.fst = [1, 2, 3] := by
  obtain ⟨found, hj⟩ := street_ready [-7, 2, 5, 13] onward (.inl rfl)
  have hs : Starts (street [-7, 2, 5, 13] onward found) 1 := ⟨by simp [street, onward], by simp [street, onward], by
    intro s hs
    obtain rfl : s = 0 := by omega
    rfl⟩
  have hf : Fair (street [-7, 2, 5, 13] onward found) := street_fair (by
    intro xs hxs c hc
    simp only [onward, List.mem_cons, List.not_mem_nil, or_false] at hxs
    rcases hxs with rfl | rfl | rfl | rfl <;> simp only [List.mem_cons, List.not_mem_nil, or_false] at hc
    · subst hc; simp
    · rcases hc with rfl | rfl <;> simp
    · subst hc; simp) rfl
  have hgap : NoWideGap (street [-7, 2, 5, 13] onward found) := by
    intro t ht h1 h2
    replace ht : t + 1 < 4 := ht
    have : t = 0 ∨ t = 1 ∨ t = 2 := by omega
    rcases this with rfl | rfl | rfl
    · simp [street, onward] at h2
    · simp [street, onward] at h1
    · simp [street, onward] at h1
  obtain ⟨K, hK⟩ := decided_ends hj rfl hf (fun _ => street_straight _ _ found) hgap usual 0.99 (show (0 : ℝ) ≤ 0.001 by norm_num)
  obtain ⟨r, hr⟩ := hK K le_rfl
  obtain ⟨runs, l, v, h1, _⟩ := decided_partial hj rfl hf (fun _ => street_straight _ _ found) hgap usual_ok (by norm_num) hr hs
  refine ⟨found, K, r, runs, l, v, hr, h1, ?_⟩
  rw [(decided_points h1 hs).1]
  rfl

/-- The hypotheses of the theorems on policy iteration, and of `decided_choice_partial`, hold of the road with a choice of near
candidates; those of `decided_none` if no point has candidates. -/
example : (∃ found k r, (street [5, 2] aside found).byPolicies usual true 0.99 0 k = .ok (some r)) ∧
    (∃ found k r runs l v, (street [5, 2] aside found).byValues usual true 0.99 0 k = .ok (some r) ∧
      Decided (street [5, 2] aside found) usual 0.99 0 r runs l v ∧ worth (street [5, 2] aside found) usual 0.99 0 (fun t => t) ≤ v) ∧
    ∃ found k, (street [5, 2] [[], []] found).byValues usual true 0.99 0 k = .ok (some Route.bad) := by
  obtain ⟨found, hj⟩ := aside_ready [5, 2]
  have hf := aside_fair found
  refine ⟨?_, ?_, ?_⟩
  · obtain ⟨⟨K, hK⟩, _⟩ := decided_policies_partial hj rfl hf (fun _ => street_straight _ _ found) (aside_gap _ _) usual_ok
      (show (0 : ℝ) ≤ 0.99 by norm_num) (aside_starts _ _)
    obtain ⟨r, hr⟩ := hK K le_rfl
    exact ⟨found, K, r, hr⟩
  · obtain ⟨K, hK⟩ := decided_ends hj rfl hf (fun _ => street_straight _ _ found) (aside_gap _ _) usual 0.99 le_rfl
    obtain ⟨r, hr⟩ := hK K le_rfl
    obtain ⟨runs, l, v, h1, h2⟩ := decided_choice_partial hj rfl hf (fun _ => street_straight _ _ found) (aside_gap _ _) usual_ok
      (by norm_num) hr (aside_starts _ _)
    refine ⟨found, K, r, runs, l, v, hr, h1, ?_⟩
    have := h2 _ (aside_near found)
    simpa using this
  · have hj' : Ready (street [5, 2] [[], []] found) (fun v => 10 * (v.val : Int)) (fun b => b = SP.noBound) :=
      ⟨hj.plane, hj.laid, by intro cs hcs c hc; replace hcs : cs ∈ [[], []] := hcs; simp at hcs; subst hcs; simp at hc, hj.found⟩
    have hf' : Fair (street [5, 2] [[], []] found) := street_fair (by simp) rfl
    have hgap : NoWideGap (street [5, 2] [[], []] found) := by
      intro t ht _ _ s hs
      replace ht : t + 1 < 2 := ht
      have : s = 0 := by omega
      subst this; rfl
    obtain ⟨K, hK⟩ := decided_ends hj' rfl hf' (fun _ => street_straight _ _ found) hgap usual 0.99 le_rfl
    obtain ⟨r, hr⟩ := hK K le_rfl
    refine ⟨found, K, ?_⟩
    rw [hr, decided_none hj' rfl hf' (fun _ => street_straight _ _ found) hgap usual_ok (by norm_num) hr]
    intro t
    match t with
    | 0 => rfl
    | 1 => rfl
    | t + 2 => rfl

end MM.Pipe
