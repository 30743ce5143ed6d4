import Verif.Props.Prepare
import Verif.Props.Seek

/-!
# C103: from files and points to a match along permitted passages

Preparation of a network (`Props/Prepare.lean`), the search for candidates on it (`Props/Seek.lean`) and the match
(`Props/Pipeline.lean`, `Props/Tour.lean`) put together.
-/

set_option autoImplicit false
set_option linter.unusedSectionVars false

namespace MM.Pipe

open MM.Line MM.Route MM.Router MM.CandEdge MM.MatchRoute

section

variable {V P : Type} [DecidableEq V] [DecidableEq P] [Inhabited P]

/-- There are no candidates, or a first point with some. -/
theorem none_or_starts (j : Job V P ℝ ℝ) : (∀ s, j.cands.getD s [] = []) ∨ ∃ t0, Starts j t0 := by
  by_cases h : ∃ s, j.cands.getD s [] ≠ []
  · right
    classical
    refine ⟨Nat.find h, ?_, Nat.find_spec h, ?_⟩
    · by_contra hge
      have := Nat.find_spec h
      rw [List.getD_eq_getElem?_getD, List.getElem?_eq_none (by omega)] at this
      exact this rfl
    · intro s hs
      by_contra hne
      exact Nat.find_min h hs hne
  · left
    push Not at h
    exact h

/-- Without candidates there is no match. -/
theorem match_empty (j : Job V P ℝ ℝ) (f : Weights.Factors) (h : ∀ s, j.cands.getD s [] = []) :
    j.policy f = [] ∧ j.run f = .ok MM.Route.Route.bad := by
  have hp : j.policy f = [] := by
    have hn : ∀ t, (Weights.hmmOf f j.dists j.legOf).n t = 0 := by
      intro t
      show (j.dists.getD t []).length = 0
      rw [dists_getD, h t]; rfl
    rw [Job.policy, Viterbi.policy, Viterbi.selections]
    cases (Weights.hmmOf f j.dists j.legOf).len with
    | zero => rfl
    | succ t =>
      simp only [hn]
      rw [show (Viterbi.argmax (Viterbi.row (Weights.hmmOf f j.dists j.legOf) t).T 0).2 = none from rfl, Viterbi.backtrack_none]
      exact Viterbi.policy_replicate _ _
  refine ⟨hp, ?_⟩
  rw [Job.run, hp, MatchRoute.candidatesRoute, collect, Outcome.bind_ok]
  · exact merge_invalid (rs := []) false false _ (by simp)
  · simp

end

end MM.Pipe

namespace MM.Prepare

open MM.Line

variable {P : Type} [DecidableEq P] [Inhabited P]

/-- **C103, match.**  Files are prepared, the search for the candidates of a track finds edges in any of its modes (`Finds`, see
`circle_finds`, `combined_finds`, `nearest_finds`), and the track is matched, whatever bounds the searches for routes use, without
trimmed turns.  The whole is defined, and the match is invalid or a connected route of which every segment is a piece of a passage
that the files permit, in the permitted direction.
Missing: as in C94. -/
theorem found_permitted_partial {f : Osm.Filters} {s : Steps} {es : List (Osm.Element P)} {c : Csr.Csr (Nat × P) (Nat × List P)}
    (hprep : prepare f s es = .ok c) {h : Pipe.Hunt Nat P ℝ ℝ} (hnet : h.net = opened c) {fuel : Nat} {E : Nat → List Nat}
    (hf : Pipe.Finds h (fun v => (nodeAt c v).2) fuel E) {turn : ℝ → Bool} {joins : Bool} {bounds : (ℝ → Bool) → Prop}
    {found : Nat → Nat → Option (List Nat)} (hfound : ∀ v w, Pipe.Answer (h.net.graph h.env.G) bounds v w (found v w))
    (heven : joins = true → h.Even turn) (fs : Weights.Factors) :
    ∃ cs r, h.candidates fuel = some (.ok cs) ∧ (h.job turn false joins found cs).run fs = .ok r ∧
      (r = MM.Route.Route.bad ∨ (r.isConnected = true ∧ ∀ l ∈ r.lines, ∀ sg ∈ segs l, sg.1 ≠ sg.2 →
        OnPassage h.env.G f es sg.1 sg.2)) := by
  obtain ⟨cs, h1, _, h3⟩ := Pipe.sought_spots hf
  rcases Pipe.none_or_starts (h.job turn false joins found cs) with h4 | ⟨t0, h4⟩
  · exact ⟨cs, _, h1, (Pipe.match_empty _ fs h4).2, .inl rfl⟩
  · have hj : Pipe.Ready (h.job turn false joins found cs) (fun v => (nodeAt c v).2) bounds := ⟨hf.plane, hf.laid, h3, hfound⟩
    rcases Pipe.match_bounded_partial hj (fun hx => ⟨rfl, heven hx⟩) fs h4 with h5 | ⟨_, r, _, _, h5, _, h6, _, _, h7⟩
    · exact ⟨cs, _, h1, h5, .inl rfl⟩
    · exact ⟨cs, r, h1, h5, .inr ⟨h6, fun l hl sg hsg hne => onPassage hprep hnet (h7 rfl l hl sg hsg hne)⟩⟩

/-- **C103, match by the decision process.**  The same for value iteration, without bounds, where errors are skipped: it ends, and
every match is along permitted passages.  Missing: as in C97. -/
theorem found_decided_partial {f : Osm.Filters} {s : Steps} {es : List (Osm.Element P)} {c : Csr.Csr (Nat × P) (Nat × List P)}
    (hprep : prepare f s es = .ok c) {h : Pipe.Hunt Nat P ℝ ℝ} (hnet : h.net = opened c) {fuel : Nat} {E : Nat → List Nat}
    (hf : Pipe.Finds h (fun v => (nodeAt c v).2) fuel E) (habs : ∀ a, 0 ≤ h.env.G.abs a) (hzero : h.env.G.zeroA = 0)
    (hadd : ∀ a b, h.env.G.addA a b = a + b) {turn : ℝ → Bool} {joins : Bool} {found : Nat → Nat → Option (List Nat)}
    (hfound : ∀ v w, Pipe.Answer (h.net.graph h.env.G) (fun b => b = SP.noBound) v w (found v w))
    (heven : joins = true → h.Even turn) {fs : Weights.Factors} (hfo : Weights.FactorsOk fs) {γ : ℝ} (hγ : 0 ≤ γ) {th : ℝ} (hth : 0 ≤ th) :
    ∃ cs j, h.candidates fuel = some (.ok cs) ∧ j = h.job turn false joins found cs ∧ ((∃ t, j.cands.getD t [] ≠ []) → Pipe.NoWideGap j →
      (∃ K, ∀ k, K ≤ k → ∃ r, j.byValues fs true γ th k = .ok (some r)) ∧
      ∀ k r, j.byValues fs true γ th k = .ok (some r) → ∀ l ∈ r.lines, ∀ sg ∈ segs l, sg.1 ≠ sg.2 →
        OnPassage h.env.G f es sg.1 sg.2) := by
  obtain ⟨cs, h1, h2, h3⟩ := Pipe.sought_spots hf
  refine ⟨cs, _, h1, rfl, fun hsome hgap => ?_⟩
  have hj : Pipe.Ready (h.job turn false joins found cs) (fun v => (nodeAt c v).2) (fun b => b = SP.noBound) :=
    ⟨hf.plane, hf.laid, h3, hfound⟩
  have hfair : Pipe.Fair (h.job turn false joins found cs) := by
    refine ⟨?_, habs, hzero, hadd, h2.size.symm⟩
    intro xs hxs x hx
    obtain ⟨i, hi, rfl⟩ := List.mem_iff_getElem.1 hxs
    replace hi : i < cs.length := hi
    have hpt : h.track[i]? = some (h.track[i]'(by rw [← h2.size]; exact hi)) := List.getElem?_eq_getElem _
    have hx' : x ∈ cs.getD i [] := by
      rw [List.getD_eq_getElem?_getD, List.getElem?_eq_getElem hi]; exact hx
    rw [(h2.only i _ hpt x hx').1]
    show 0 ≤ h.env.G.len _ _
    by_cases he : h.track[i]'(by rw [← h2.size]; exact hi) = x.2.proj
    · rw [← he, hf.plane.toMetric.self]
    · exact (hf.plane.toMetric.pos _ _ he).le
  have hstr : (h.job turn false joins found cs).joins = true → MatchRoute.Straight (h.job turn false joins found cs).setting
      (Pipe.OnEdge (h.job turn false joins found cs)) (h.job turn false joins found cs).env.G.len := fun hx => heven hx
  obtain ⟨K, hK⟩ := Pipe.decided_ends hj rfl hfair hstr hgap fs γ hth
  refine ⟨⟨K, hK⟩, fun k r hr => ?_⟩
  obtain ⟨t0, ht⟩ : ∃ t0, Pipe.Starts (h.job turn false joins found cs) t0 := by
    rcases Pipe.none_or_starts (h.job turn false joins found cs) with h4 | h4
    · obtain ⟨t, ht⟩ := hsome
      exact absurd (h4 t) ht
    · exact h4
  obtain ⟨runs, l, v, k1, _⟩ := Pipe.decided_partial hj rfl hfair hstr hgap hfo hγ hr ht
  obtain ⟨parts, k2, k3⟩ := k1.lines
  intro l hl sg hsg hne
  rw [k2] at hl
  obtain ⟨ls, hls, hl⟩ := List.mem_flatten.1 hl
  obtain ⟨hlen, hget⟩ := List.forall₂_iff_get.1 k3
  obtain ⟨i, hi, rfl⟩ := List.mem_iff_getElem.1 hls
  have hst := hget i (by rw [hlen]; exact hi) hi
  exact onPassage hprep hnet (hst.onEdges rfl l (by simpa using hl) sg hsg hne)

/-- What can be driven along edges is reachable for the searches. -/
theorem ride_reachable {c : Csr.Csr (Nat × P) (Nat × List P)} (G : Geo P ℝ ℝ) {d : P → P → ℝ} {u v : Nat} {x : ℝ} (h : Ride c d u v x) :
    SP.Reachable ((opened c).graph G) u v := by
  induction h with
  | stay v => exact ⟨[], .nil⟩
  | go r hr _ ih =>
    obtain ⟨ws, hw⟩ := ih
    obtain ⟨i, hi, rfl⟩ := List.mem_iff_getElem.1 hr
    have hm : ((c.edges[i]).tgt, i) ∈ (opened c).outs (c.edges[i]).src := by
      unfold Pipe.Net.outs
      refine List.mem_filterMap.2 ⟨(⟨(c.edges[i]).src, (c.edges[i]).tgt, (c.edges[i]).data.2⟩, i), ?_, by simp⟩
      rw [List.mem_zipIdx_iff_getElem?]
      simp [opened, hi]
    exact ⟨_, Pipe.walk_cons (List.mem_map_of_mem (f := fun x => (x.1, Pipe.weight G ((opened c).line x.2))) hm) hw⟩

/-- **C103, best match.**  Files are prepared with complete or no simplification and without removal of components and nodes; mode
CIRCLE; routes are searched without a bound and turns are not trimmed.  Choose for each point of the track any edge within the radius.
If by the files one may drive from the end of each to the beginning of the next, then the match is a connected route, every segment of
which is a piece of a permitted passage in its direction, and no choice of candidates, in particular not the one at the projections
on these edges, has a greater sum of weights than the one it is the route for.
Missing: as in C94 and in `prepared_distances_partial`. -/
theorem found_match_partial {f : Osm.Filters} {s : Steps} {es : List (Osm.Element P)} {c : Csr.Csr (Nat × P) (Nat × List P)}
    (hprep : prepare f s es = .ok c) (hm : s.simplify ≠ .osmAware) (hcomp : s.unconnected = false) (hdup : s.duplicateNodes = false)
    {h : Pipe.Hunt Nat P ℝ ℝ} (hnet : h.net = opened c) (hc : Pipe.Circle h (fun v => (nodeAt c v).2)) (hne : h.track ≠ [])
    {turn : ℝ → Bool} {joins : Bool} {found : Nat → Nat → Option (List Nat)}
    (hfound : ∀ v w, Pipe.Answer (h.net.graph h.env.G) (fun b => b = SP.noBound) v w (found v w))
    (heven : joins = true → h.Even turn) (fs : Weights.Factors) {g : Nat → Nat}
    (hg : ∀ t p, h.track[t]? = some p → ∃ x, h.net.edges[g t]? = some x ∧ h.gap p x.line ≤ h.reach t)
    (hgo : ∀ t, 0 < t → t < h.track.length → ∃ a b x, c.edges[g (t - 1)]? = some a ∧ c.edges[g t]? = some b ∧
      Drive f es h.env.G.len (nodeAt c a.tgt) (nodeAt c b.src) x) :
    ∃ fuel cs j ρ σ r, h.candidates fuel = some (.ok cs) ∧ j = h.job turn false joins found cs ∧
      (∀ t p, h.track[t]? = some p → ∃ d, j.entry (t, ρ t) = some (g t, d) ∧ Pipe.Beside h t p (g t) d) ∧
      Weights.score fs j.dists j.legOf 0 ρ (h.track.length - 1) ≤ Weights.score fs j.dists j.legOf 0 σ (h.track.length - 1) ∧
      (∀ σ', Pipe.Choice j 0 σ' → Weights.score fs j.dists j.legOf 0 σ' (h.track.length - 1) ≤
        Weights.score fs j.dists j.legOf 0 σ (h.track.length - 1)) ∧
      Pipe.Choice j 0 σ ∧ j.run fs = .ok r ∧ r.isConnected = true ∧
      ∀ l ∈ r.lines, ∀ sg ∈ segs l, sg.1 ≠ sg.2 → OnPassage h.env.G f es sg.1 sg.2 := by
  obtain ⟨fuel, cs, j, h1, h2, h3⟩ := Pipe.sought_match_partial hc hne (turn := turn) (within := false) (joins := joins) hfound
    (fun hx => ⟨rfl, heven hx⟩) fs
  obtain ⟨ρ, h4, h5⟩ := h3 g hg
  have hlens : ∀ x y, 0 ≤ h.env.G.len x y := by
    intro x y
    by_cases he : x = y
    · rw [he, hc.plane.toMetric.self]
    · exact (hc.plane.toMetric.pos _ _ he).le
  obtain ⟨σ, r, pts, k1, k2, k3, k4, _, k6, _, _, k9⟩ := h5 (by
    intro t h0 ht
    obtain ⟨a, b, x, e1, e2, e3⟩ := hgo t h0 ht
    obtain ⟨d1, g1, _⟩ := h4 (t - 1) _ (List.getElem?_eq_getElem (by omega))
    obtain ⟨d2, g2, _⟩ := h4 t _ (List.getElem?_eq_getElem ht)
    have hnj : j.net = opened c := by rw [h2]; exact hnet
    have f1 : (opened c).edges[g (t - 1)]? = some ⟨a.src, a.tgt, a.data.2⟩ := by simp [opened, e1]
    have f2 : (opened c).edges[g t]? = some ⟨b.src, b.tgt, b.data.2⟩ := by simp [opened, e2]
    have hv1 := (prepared_edges hprep (List.mem_of_getElem? e1)).2.1
    have hv2 := (prepared_edges hprep (List.mem_of_getElem? e2)).1
    obtain ⟨y, hy⟩ := (prepared_distances_partial hprep hm hcomp hdup h.env.G.len hlens hv1 hv2).1.2 ⟨x, e3⟩
    refine ⟨_, _, g1, g2, .inr (.inr ⟨⟨a.src, a.tgt, a.data.2⟩, ⟨b.src, b.tgt, b.data.2⟩, ?_, ?_, ?_⟩)⟩
    · rw [hnj]; exact f1
    · rw [hnj]; exact f2
    · rw [hnj]; exact ride_reachable _ hy)
  exact ⟨fuel, cs, j, ρ, σ, r, h1, h2, h4, k3, k2, k1, k4, k6, fun l hl sg hsg hne' =>
    by
      have := (k9 rfl).1 l hl sg hsg hne'
      rw [h2] at this
      exact onPassage hprep hnet this⟩

/-- **C103, nothing near.**  If no road of the prepared network is within the upper limit of any point, there is no match. -/
theorem found_nothing {c : Csr.Csr (Nat × P) (Nat × List P)} {h : Pipe.Hunt Nat P ℝ ℝ} (hc : Pipe.Circle h (fun v => (nodeAt c v).2))
    (hfar : ∀ p ∈ h.track, ∀ x ∈ h.net.edges, h.upper < h.gap p x.line) (turn : ℝ → Bool) (within joins : Bool)
    (found : Nat → Nat → Option (List Nat)) (fs : Weights.Factors) :
    ∃ fuel cs, h.candidates fuel = some (.ok cs) ∧ (h.job turn within joins found cs).run fs = .ok MM.Route.Route.bad := by
  obtain ⟨fuel, h1⟩ := Pipe.sought_nothing hc hfar
  refine ⟨fuel, _, h1, (Pipe.match_empty _ fs ?_).2⟩
  intro s
  show (List.replicate h.track.length ([] : List (Nat × CandEdge.Cand P ℝ))).getD s [] = []
  rw [List.getD_eq_getElem?_getD, List.getElem?_replicate]
  split_ifs <;> rfl

/-! ### The town (`town`), and points at 2 and 13 -/

noncomputable def townHunt : Pipe.Hunt Nat Int ℝ ℝ where
  net := opened townNet
  env := Pipe.streetEnv
  track := [2, 13]
  mode := .circle
  adaptive := true
  radius := 1
  lower := 1
  upper := 2
  nearby := true
  reverse := false
  siblings := true
  gap := Pipe.streetGap
  box p r := (List.range 4).filter fun e => decide (Pipe.streetGap p ((opened townNet).line e) ≤ r)
  near p := if p ≤ 10 then [0] else [1]
  switch _ _ := 2
  segDist p q r := min (Pipe.streetGeo.len p q) (Pipe.streetGeo.len p r)
  num v := v

theorem town_circle : Pipe.Circle townHunt (fun v => (nodeAt townNet v).2) := by
  refine ⟨Pipe.street_plane, prepared_laid town_plain (fun _ _ => town_apart), rfl, ?_, ?_, ?_, by simp [townHunt], ?_⟩
  · intro p r _
    exact List.pairwise_lt_range.filter _
  · intro p r _ e he
    exact List.mem_range.1 (List.mem_filter.1 he).1
  · intro p r _ e x hx hg
    refine List.mem_filter.2 ⟨List.mem_range.2 (List.getElem?_eq_some_iff.1 hx).1, ?_⟩
    rw [decide_eq_true_eq, Pipe.line_eq (opened townNet) hx]
    exact hg
  · intro i p e x hp hx hgap
    have hp' : p = 2 ∨ p = 13 := by
      have := List.mem_of_getElem? hp
      simpa [townHunt] using this
    have hx' : x = ⟨0, 1, [0, 10]⟩ ∨ x = ⟨1, 2, [10, 20]⟩ ∨ x = ⟨2, 3, [20, 35]⟩ ∨ x = ⟨3, 2, [35, 20]⟩ := by
      have := List.mem_of_getElem? hx
      simpa [townHunt, opened, townNet] using this
    have hgap' : max 0 (max (x.line.headD 0 - p) (p - x.line.getLastD 0)) ≤ 2 := by
      have : ((max 0 (max (x.line.headD 0 - p) (p - x.line.getLastD 0)) : Int) : ℝ) ≤ 2 := hgap
      exact_mod_cast this
    rcases hp' with rfl | rfl <;> rcases hx' with rfl | rfl | rfl | rfl
    · obtain ⟨_, _, h, _⟩ := Pipe.street_cand 0 10 2 (by omega) (by omega)
      exact h
    · simp at hgap'
    · simp at hgap'
    · simp at hgap'
    · simp at hgap'
    · obtain ⟨_, _, h, _⟩ := Pipe.street_cand 10 20 13 (by omega) (by omega)
      exact h
    · simp at hgap'
    · simp at hgap'

theorem town_reach (t : Nat) : 1 ≤ townHunt.reach t := by
  unfold Pipe.Hunt.reach
  refine le_min ?_ (by simp [townHunt])
  rw [if_pos (show townHunt.adaptive = true from rfl)]
  exact le_max_of_le_right (by simp [townHunt])

example (fs : Weights.Factors) : ∃ found fuel cs r, townHunt.candidates fuel = some (.ok cs) ∧
    (townHunt.job (fun d => decide (d ≠ 0)) false false found cs).run fs = .ok r ∧
    (r = MM.Route.Route.bad ∨ (r.isConnected = true ∧ ∀ l ∈ r.lines, ∀ sg ∈ segs l, sg.1 ≠ sg.2 →
      OnPassage Pipe.streetGeo Osm.defaults town sg.1 sg.2)) := by
  choose found hfound using prepared_answers townNet Pipe.streetGeo
  obtain ⟨fuel, E, hf, _⟩ := Pipe.circle_finds town_circle
  obtain ⟨cs, r, h⟩ := found_permitted_partial town_plain rfl hf hfound (turn := fun d => decide (d ≠ 0)) (joins := false)
    (fun hx => by cases hx) fs
  exact ⟨found, fuel, cs, r, h⟩

/-- The point at 2 is on the first road, that at 13 on the second, which begins where the first ends. -/
example (fs : Weights.Factors) : ∃ found fuel cs r, townHunt.candidates fuel = some (.ok cs) ∧
    (townHunt.job (fun d => decide (d ≠ 0)) false false found cs).run fs = .ok r ∧ r.isConnected = true ∧
    ∀ l ∈ r.lines, ∀ sg ∈ segs l, sg.1 ≠ sg.2 → OnPassage Pipe.streetGeo Osm.defaults town sg.1 sg.2 := by
  choose found hfound using prepared_answers townNet Pipe.streetGeo
  obtain ⟨fuel, cs, j, ρ, σ, r, h1, h2, _, _, _, _, h7, h8, h9⟩ := found_match_partial town_plain (by decide) rfl rfl (h := townHunt) rfl
    town_circle (by simp [townHunt]) hfound (turn := fun d => decide (d ≠ 0)) (joins := false) (fun hx => by cases hx) fs
    (g := fun t => t) (by
      intro t p hp
      have hlt : t < 2 := (List.getElem?_eq_some_iff.1 hp).1
      have : t = 0 ∨ t = 1 := by omega
      rcases this with rfl | rfl
      · obtain rfl : p = 2 := by simpa [townHunt] using hp.symm
        exact ⟨⟨0, 1, [0, 10]⟩, rfl, le_trans (by simp [townHunt, Pipe.streetGap]) (town_reach 0)⟩
      · obtain rfl : p = 13 := by simpa [townHunt] using hp.symm
        exact ⟨⟨1, 2, [10, 20]⟩, rfl, le_trans (by simp [townHunt, Pipe.streetGap]) (town_reach 1)⟩) (by
      intro t h0 ht
      replace ht : t < 2 := ht
      obtain rfl : t = 1 := by omega
      exact ⟨⟨0, 1, (100, [0, 10])⟩, ⟨1, 2, (100, [10, 20])⟩, 0, rfl, rfl, .stay _⟩)
  subst h2
  exact ⟨found, fuel, cs, r, h1, h7, h8, h9⟩

/-- Value iteration. -/
example : ∃ found fuel cs, townHunt.candidates fuel = some (.ok cs) ∧
    ((∃ t, cs.getD t [] ≠ []) → Pipe.NoWideGap (townHunt.job (fun d => decide (d ≠ 0)) false false found cs) →
      ∃ k r, (townHunt.job (fun d => decide (d ≠ 0)) false false found cs).byValues Pipe.usual true 0.99 0.001 k = .ok (some r) ∧
        ∀ l ∈ r.lines, ∀ sg ∈ segs l, sg.1 ≠ sg.2 → OnPassage Pipe.streetGeo Osm.defaults town sg.1 sg.2) := by
  choose found hfound using prepared_answers townNet Pipe.streetGeo
  obtain ⟨fuel, E, hf, _⟩ := Pipe.circle_finds town_circle
  obtain ⟨cs, j, h1, rfl, h2⟩ := found_decided_partial town_plain rfl hf (fun a => abs_nonneg _) rfl (fun _ _ => rfl) hfound
    (turn := fun d => decide (d ≠ 0)) (joins := false) (fun hx => by cases hx) Pipe.usual_ok (γ := 0.99) (by norm_num) (th := 0.001)
    (by norm_num)
  refine ⟨found, fuel, cs, h1, fun h3 h4 => ?_⟩
  obtain ⟨⟨K, hK⟩, h5⟩ := h2 h3 h4
  obtain ⟨r, hr⟩ := hK K le_rfl
  exact ⟨K, r, hr, h5 K r hr⟩

/-- Points beyond the town. -/
noncomputable def farHunt : Pipe.Hunt Nat Int ℝ ℝ := { townHunt with track := [100, 200] }

example (fs : Weights.Factors) : ∃ fuel cs, farHunt.candidates fuel = some (.ok cs) ∧
    (farHunt.job (fun d => decide (d ≠ 0)) false false (fun _ _ => none) cs).run fs = .ok MM.Route.Route.bad := by
  have hfar : ∀ p ∈ farHunt.track, ∀ x ∈ farHunt.net.edges, farHunt.upper < farHunt.gap p x.line := by
    intro p hp x hx
    have hp' : p = 100 ∨ p = 200 := by simpa [farHunt] using hp
    have hx' : x = ⟨0, 1, [0, 10]⟩ ∨ x = ⟨1, 2, [10, 20]⟩ ∨ x = ⟨2, 3, [20, 35]⟩ ∨ x = ⟨3, 2, [35, 20]⟩ := by
      simpa [farHunt, townHunt, opened, townNet] using hx
    rcases hp' with rfl | rfl <;> rcases hx' with rfl | rfl | rfl | rfl <;> simp [farHunt, townHunt, Pipe.streetGap] <;> norm_num
  refine found_nothing (c := townNet) (h := farHunt) ⟨town_circle.plane, town_circle.laid, rfl, town_circle.sorted, town_circle.inside, town_circle.within,
    town_circle.radius, ?_⟩ hfar _ _ _ _ fs
  intro i p e x hp hx hg
  exact absurd hg (not_le.2 (hfar p (List.mem_of_getElem? hp) x (List.mem_of_getElem? hx)))

end MM.Prepare
