import Verif.Proofs.PipelineLeg
import Verif.Props.Weights
import Mathlib.Tactic.NormNum

/-!
# C94: the match as a whole

From candidates, edges and Dijkstra's algorithm to the route of the match.  Statements are in terms of candidates on edges,
reachability and shortest distances in the network (`Spec/Walk.lean`).
-/

set_option autoImplicit false
set_option linter.unusedSectionVars false

namespace MM.Pipe

open MM.Line MM.Route MM.Router MM.CandEdge MM.MatchRoute

variable {V P R A : Type} [DecidableEq V] [DecidableEq P] [LinearOrder R] [AddCommGroup R] [IsOrderedAddMonoid R]

/-- From one candidate to another: they are at the same place, or the second is ahead on the same edge, or its edge can be
reached from the end of the edge of the first. -/
def Goes (j : Job V P R A) (p q : Entry) : Prop :=
  ∃ c d, j.entry p = some c ∧ j.entry q = some d ∧ (c.2.proj = d.2.proj ∨ Ahead j c d ∨
    ∃ a b, j.net.edges[c.1]? = some a ∧ j.net.edges[d.1]? = some b ∧ SP.Reachable (j.net.graph j.env.G) a.target b.source)

/-- `x` is the distance from one candidate to another: none at the same place; on the same edge that between the two places; else
the rest of the first edge, the shortest distance in the network and the second edge up to its candidate. -/
def Away (j : Job V P R A) (p q : Entry) (x : R) : Prop :=
  ∃ c d, j.entry p = some c ∧ j.entry q = some d ∧
    ((c.2.proj = d.2.proj ∧ x = 0) ∨
     (c.2.proj ≠ d.2.proj ∧ Ahead j c d ∧ x + CandEdge.total j.env.G c.2.from_ = CandEdge.total j.env.G d.2.from_) ∨
     (c.2.proj ≠ d.2.proj ∧ ¬ Ahead j c d ∧ ∃ a b y, j.net.edges[c.1]? = some a ∧ j.net.edges[d.1]? = some b ∧
       SP.MinCost (j.net.graph j.env.G) a.target b.source y ∧
       x = CandEdge.total j.env.G c.2.to_ + y + CandEdge.total j.env.G d.2.from_))

theorem adds {G : Geo P R A} (h : Metric G) : Adds G := ⟨h.zero, by funext a b; exact h.add a b⟩

variable [Inhabited P]

/-- Everything about the leg between two candidates. -/
theorem leg_all {j : Job V P R A} {pos : V → P} {bounds : (R → Bool) → Prop} (hj : Ready j pos bounds) {p q : Entry}
    {c d : Nat × CandEdge.Cand P R} (hc : j.entry p = some c) (hd : j.entry q = some d) (hpq : p.1 ≠ q.1) :
    ∃ r, j.setting.leg p q = .ok r ∧
      (r.invalid = false → Linked j.setting (Held j) p q ∧ Goes j p q ∧
        (j.within = false → (∀ l ∈ r.lines, ∀ sg ∈ segs l, OnEdge j sg.1 sg.2) ∧
          ((∀ b, bounds b → b = SP.noBound) → Away j p q (segmentSum j.env.G.len r.lines)))) ∧
      ((∀ b, bounds b → b = SP.noBound) → Goes j p q → r.invalid = false) := by
  obtain ⟨_, _, _, c4⟩ := cand_eq hc
  obtain ⟨_, _, _, d4⟩ := cand_eq hd
  by_cases hs : c.2.proj = d.2.proj
  · have hs' : (j.cand p).proj = (j.cand q).proj := by rw [c4, d4, hs]
    refine ⟨_, leg_same hs', fun _ => ⟨.same hpq hs', ⟨c, d, hc, hd, .inl hs⟩, fun _ => ⟨?_, fun _ => ⟨c, d, hc, hd, .inl ⟨hs, ?_⟩⟩⟩⟩,
      fun _ _ => rfl⟩
    · simp [Route.ofRefs, Route.lines]
    · rfl
  by_cases ha : Ahead j c d
  · obtain ⟨h1, _, r, h2, h3, h4, h5⟩ := leg_edge hj hc hd hpq hs ha
    exact ⟨r, h2, fun _ => ⟨h1, ⟨c, d, hc, hd, .inr (.inl ha)⟩, fun _ => ⟨h4, fun _ => ⟨c, d, hc, hd, .inr (.inl ⟨hs, ha, h5⟩)⟩⟩⟩,
      fun _ _ => h3⟩
  obtain ⟨a, _, hea, _⟩ := hj.cut hc
  obtain ⟨b, _, heb, _⟩ := hj.cut hd
  cases hf : j.found a.target b.source with
  | none =>
    refine ⟨_, leg_none hj hc hd hs ha hea heb hf, fun h => by simp [Route.bad] at h, fun hbb hg => ?_⟩
    have hn := hj.found a.target b.source
    rw [hf] at hn
    have := answer_none hn hbb
    obtain ⟨c', d', k1, k2, k3⟩ := hg
    obtain rfl : c = c' := by rw [hc] at k1; exact Option.some.inj k1
    obtain rfl : d = d' := by rw [hd] at k2; exact Option.some.inj k2
    rcases k3 with k3 | k3 | ⟨a', b', k3, k4, k5⟩
    · exact absurd k3 hs
    · exact absurd k3 ha
    · obtain rfl : a = a' := by rw [hea] at k3; exact Option.some.inj k3
      obtain rfl : b = b' := by rw [heb] at k4; exact Option.some.inj k4
      exact absurd k5 this
  | some vs =>
    obtain ⟨h1, h2, r, h3, h4, h5⟩ := leg_over hj hc hd hpq hs ha hea heb hf
    refine ⟨r, h3, fun _ => ⟨h1, ⟨c, d, hc, hd, .inr (.inr ⟨a, b, hea, heb, h2⟩)⟩, fun hw => ⟨(h5 hw).1, fun hbb => ?_⟩⟩, fun _ _ => h4⟩
    obtain ⟨x, h6, h7⟩ := (h5 hw).2 hbb
    exact ⟨c, d, hc, hd, .inr (.inr ⟨hs, ha, a, b, x, hea, heb, h6, h7⟩)⟩

theorem segmentSum_pos {G : Geo P R A} (h : Metric G) {ls : List (List P)} (hm : ∃ l ∈ ls, ∃ sg ∈ segs l, sg.1 ≠ sg.2) :
    0 < segmentSum G.len ls := by
  obtain ⟨l, hl, sg, hsg, hne⟩ := hm
  unfold segmentSum
  have hmem : sg ∈ (ls.flatMap segs).filter (fun s => decide (s.1 ≠ s.2)) := by
    simp only [List.mem_filter, List.mem_flatMap, decide_eq_true_eq]
    exact ⟨⟨l, hl, hsg⟩, hne⟩
  have hall : ∀ s ∈ (ls.flatMap segs).filter (fun s => decide (s.1 ≠ s.2)), 0 < G.len s.1 s.2 := by
    intro s hs
    simp only [List.mem_filter, decide_eq_true_eq] at hs
    exact h.pos _ _ hs.2
  generalize (ls.flatMap segs).filter (fun s => decide (s.1 ≠ s.2)) = xs at hmem hall
  clear hl hsg hne
  induction xs with
  | nil => simp at hmem
  | cons x xs ih =>
    rw [List.map_cons, List.sum_cons]
    have h1 := hall x (by simp)
    have h2 : 0 ≤ (xs.map fun s => G.len s.1 s.2).sum := by
      refine List.sum_nonneg ?_
      simp only [List.mem_map]
      rintro _ ⟨s, hs, rfl⟩
      exact (hall s (by simp [hs])).le
    exact add_pos_of_pos_of_nonneg h1 h2

theorem leads_moves {ls : List (List P)} {p q : P} (hc : Connected ls) (hl : Leads ls p q) (hne : p ≠ q) :
    ∃ l ∈ ls, ∃ sg ∈ segs l, sg.1 ≠ sg.2 := by
  by_contra hcon
  push Not at hcon
  have ht := (still_flatten hc).1 hcon
  rcases hl with ⟨_, h⟩ | ⟨h1, h2⟩
  · exact hne h
  · rw [← squash_head?] at h1
    rw [← squash_getLast?] at h2
    cases hs : squash ls.flatten with
    | nil => rw [hs] at h1; simp at h1
    | cons x xs =>
      rw [hs] at h1 h2 ht
      simp only [List.tail_cons] at ht
      subst ht
      simp only [List.head?_cons, List.getLast?_singleton, Option.some.injEq] at h1 h2
      exact hne (h1.symm.trans h2)

theorem forall₂_of_map {α β γ : Type} {f : α → γ} {g : β → γ} : ∀ (l : List α) (m : List β), l.map f = m.map g →
    List.Forall₂ (fun a b => f a = g b) l m := by
  intro l
  induction l with
  | nil => intro m h; cases m with
    | nil => exact .nil
    | cons _ _ => simp at h
  | cons a l ih => intro m h; cases m with
    | nil => simp at h
    | cons b m =>
      simp only [List.map_cons, List.cons.injEq] at h
      exact .cons h.1 (ih m h.2)

/-- **C94, the route for chosen candidates.**  If every leg between consecutive candidates is valid, the route of the match
refers to living lines only and is connected.  If not all candidates are at the same place, it is valid and leads from the
projection point of the first to that of the last.  Without trimmed turns, each of its segments is a piece of a segment of an
edge, in its direction; without a bound its length is the sum of the distances between consecutive candidates. -/
theorem chosen_route_partial {j : Job V P R A} {pos : V → P} {bounds : (R → Bool) → Prop} (hj : Ready j pos bounds)
    (hstr : j.joins = true → j.within = false ∧ Straight j.setting (OnEdge j) j.env.G.len) (e : Entry) (es : List Entry)
    (hent : ∀ x ∈ e :: es, (j.entry x).isSome = true)
    (hval : (e :: es).IsChain (fun p q => p.1 ≠ q.1 ∧ ∀ r, j.setting.leg p q = .ok r → r.invalid = false)) :
    ∃ r pts, candidatesRoute j.setting (e :: es) = .ok r ∧ (∀ x ∈ r.refs, x ∈ r.own ∨ Held j x) ∧ r.isConnected = true ∧
      r.richLine = .ok pts ∧
      ((∃ t ∈ (e :: es).zip es, (j.cand t.1).proj ≠ (j.cand t.2).proj) → r.invalid = false ∧
        pts.head? = some (j.cand e).proj ∧ pts.getLast? = some (j.cand ((e :: es).getLast (by simp))).proj) ∧
      (j.within = false → ∀ l ∈ r.lines, ∀ sg ∈ segs l, sg.1 ≠ sg.2 → OnEdge j sg.1 sg.2) ∧
      (j.within = false → (∀ b, bounds b → b = SP.noBound) → ∃ xs, List.Forall₂ (fun t x => Away j t.1 t.2 x) ((e :: es).zip es) xs ∧
        (routeLength j.env.G r.lines).getD 0 = xs.sum) := by
  have hm := hj.plane.toMetric
  -- each pair is linked and on the road
  have hpair : ∀ p q, (j.entry p).isSome = true → (j.entry q).isSome = true →
      (p.1 ≠ q.1 ∧ ∀ r, j.setting.leg p q = .ok r → r.invalid = false) → Linked j.setting (Held j) p q ∧
      (∀ r, j.setting.leg p q = .ok r → (j.within = false → (∀ l ∈ r.lines, ∀ sg ∈ segs l, OnEdge j sg.1 sg.2) ∧
        ((∀ b, bounds b → b = SP.noBound) → Away j p q (segmentSum j.env.G.len r.lines)))) := by
    intro p q hp hq h
    obtain ⟨c, hc⟩ := Option.isSome_iff_exists.1 hp
    obtain ⟨d, hd⟩ := Option.isSome_iff_exists.1 hq
    obtain ⟨r, h1, h2, _⟩ := leg_all hj hc hd h.1
    obtain ⟨h3, _, h4⟩ := h2 (h.2 r h1)
    refine ⟨h3, fun r' hr' => ?_⟩
    rw [h1] at hr'
    rw [← Outcome.ok.inj hr']
    exact h4
  have hchain : ∀ (l : List Entry), (∀ x ∈ l, (j.entry x).isSome = true) →
      l.IsChain (fun p q => p.1 ≠ q.1 ∧ ∀ r, j.setting.leg p q = .ok r → r.invalid = false) →
      l.IsChain (Linked j.setting (Held j)) ∧
      l.IsChain (OnRoad j.setting (fun x y => j.within = false → OnEdge j x y)) ∧
      ∀ t ∈ l.zip l.tail, ∀ r, j.setting.leg t.1 t.2 = .ok r → j.within = false → (∀ b, bounds b → b = SP.noBound) →
        Away j t.1 t.2 (segmentSum j.env.G.len r.lines) := by
    intro l
    induction l with
    | nil => intro _ _; simp
    | cons x l ih =>
      intro h1 h2
      cases l with
      | nil => simp
      | cons y l =>
        rw [List.isChain_cons_cons] at h2
        obtain ⟨i1, i2, i3⟩ := ih (fun z hz => h1 z (List.mem_cons_of_mem _ hz)) h2.2
        obtain ⟨k1, k2⟩ := hpair x y (h1 x (by simp)) (h1 y (by simp)) h2.1
        refine ⟨List.isChain_cons_cons.2 ⟨k1, i1⟩, List.isChain_cons_cons.2 ⟨?_, i2⟩, ?_⟩
        · intro r hr l hl sg hsg _ hw
          exact (k2 r hr hw).1 l hl sg hsg
        · intro t ht r hr hw hbb
          simp only [List.tail_cons, List.zip_cons_cons, List.mem_cons] at ht
          rcases ht with rfl | ht
          · exact (k2 r hr hw).2 hbb
          · exact i3 t ht r hr hw hbb
  obtain ⟨c1, c2, c3⟩ := hchain _ hent hval
  have hstr' : j.setting.joins = true → Straight j.setting (fun x y => j.within = false → OnEdge j x y) j.env.G.len := by
    intro hjo
    obtain ⟨hw, hs⟩ := hstr hjo
    intro x y w h1 h2 h3 h4 h5 h6
    obtain ⟨k1, k2⟩ := hs x y w h1 h2 h3 h4 (h5 hw) (h6 hw)
    exact ⟨fun hne _ => k1 hne, k2⟩
  have hruns : Runs j.setting (Held j) (fun x y => j.within = false → OnEdge j x y) [(e :: es, false)] :=
    .cons e es false [] c1 c2 (.inr (.inl rfl)) .nil
  obtain ⟨r, parts, h1, h2, h3, h4, h5⟩ := match_follows_partial (len := j.env.G.len) hstr' hruns
  have hpol : MatchRoute.policyOf [(e :: es, false)] = e :: es := by simp [MatchRoute.policyOf]
  rw [hpol] at h1
  cases h4 with
  | cons h6 h7 =>
    cases h7
    rename_i ls
    rw [List.flatten_cons, List.flatten_nil, List.append_nil] at h3
    obtain ⟨legs, p, q, k1, k2, k3, k4⟩ := h6
    simp only [List.head?_cons, Option.map_some, Option.some.injEq] at k2
    rw [List.getLast?_eq_getLast_of_ne_nil (by simp)] at k3
    simp only [Option.map_some, Option.some.injEq] at k3
    rw [← h3] at k4
    have hlegs := forall₂_of_map _ _ k1
    have hsq := squash_flatten k4.connected
    refine ⟨r, _, h1, h2, connected_reported k4.connected, richLine_connected k4.connected, ?_, fun hw l hl sg hsg hne =>
      k4.road l hl sg hsg hne hw, ?_⟩
    · rintro ⟨t, ht, hne⟩
      have hv : r.invalid = false := h5 ⟨(e :: es, false), by simp, t, ht, hne⟩
      have hpos : 0 < segmentSum j.env.G.len r.lines := by
        rw [k4.length]
        refine segmentSum_pos hm ?_
        -- the leg of the pair
        have hlk : ∀ (l : List Entry), l.IsChain (Linked j.setting (Held j)) → ∀ t ∈ l.zip l.tail, Linked j.setting (Held j) t.1 t.2 := by
          intro l
          induction l with
          | nil => simp
          | cons x l ih =>
            intro hch t ht
            cases l with
            | nil => simp at ht
            | cons y l =>
              rw [List.isChain_cons_cons] at hch
              simp only [List.tail_cons, List.zip_cons_cons, List.mem_cons] at ht
              rcases ht with rfl | ht
              · exact hch.1
              · exact ih hch.2 t ht
        obtain ⟨_, r', m1, m2⟩ := (hlk _ c1 t ht).leg
        have : ∃ x ∈ legs, j.setting.leg t.1 t.2 = .ok x := by
          have h8 : t ∈ (e :: es).zip (e :: es).tail := ht
          clear k1 k4
          generalize (e :: es).zip (e :: es).tail = zs at hlegs h8
          induction hlegs with
          | nil => simp at h8
          | cons a _ ih =>
            rcases List.mem_cons.1 h8 with rfl | h8
            · exact ⟨_, by simp, a⟩
            · obtain ⟨x, hx, hx'⟩ := ih h8
              exact ⟨x, List.mem_cons_of_mem _ hx, hx'⟩
        obtain ⟨x, hx, hx'⟩ := this
        rw [m1] at hx'
        rw [Outcome.ok.inj hx'] at m2
        obtain ⟨l, hl, hl'⟩ := leads_moves m2.connected m2.leads hne
        exact ⟨l, List.mem_flatMap.2 ⟨x, hx, hl⟩, hl'⟩
      have hlead : r.lines.flatten.head? = some p ∧ r.lines.flatten.getLast? = some q := by
        rcases k4.leads with ⟨k5, _⟩ | k5
        · exfalso
          have hz : segmentSum j.env.G.len r.lines = 0 := by
            rw [segmentSum_lines hm]
            rw [List.flatten_eq_nil_iff] at k5
            refine List.sum_eq_zero ?_
            simp only [List.mem_map]
            rintro _ ⟨l, hl, rfl⟩
            rw [k5 l hl]; rfl
          rw [hz] at hpos
          exact lt_irrefl _ hpos
        · exact k5
      refine ⟨hv, ?_, ?_⟩
      · rw [← squash_head?, ← hsq, squash_head?, hlead.1, ← k2]; rfl
      · rw [← squash_getLast?, ← hsq, squash_getLast?, hlead.2, ← k3]; rfl
    · intro hw hbb
      refine ⟨legs.map fun x => segmentSum j.env.G.len x.lines, ?_, ?_⟩
      · have hall : ∀ t ∈ (e :: es).zip (e :: es).tail, ∀ r, j.setting.leg t.1 t.2 = .ok r →
            Away j t.1 t.2 (segmentSum j.env.G.len r.lines) := fun t ht r hr => c3 t ht r hr hw hbb
        show List.Forall₂ _ ((e :: es).zip (e :: es).tail) _
        clear k1 k4
        generalize (e :: es).zip (e :: es).tail = zs at hlegs hall
        induction hlegs with
        | nil => exact .nil
        | cons a _ ih =>
          exact .cons (hall _ (by simp) _ a) (ih (fun t ht => hall t (List.mem_cons_of_mem _ ht)))
      · rw [routeLength_sum (adds hm), k4.length]
        clear hlegs k1 k4
        induction legs with
        | nil => rfl
        | cons x legs ih => rw [List.flatMap_cons, segmentSum_append, ih, List.map_cons, List.sum_cons]

/-! ### Decoding -/

/-- `σ` chooses a candidate of each point from `t0` on, such that one can go from each to the next. -/
def Choice (j : Job V P R A) (t0 : Nat) (σ : Nat → Nat) : Prop :=
  ∀ t, t0 ≤ t → t < j.cands.length → σ t < (j.cands.getD t []).length ∧ (t0 < t → Goes j (t - 1, σ (t - 1)) (t, σ t))

theorem entry_some {j : Job V P R A} {t k : Nat} (hk : k < (j.cands.getD t []).length) : (j.entry (t, k)).isSome = true := by
  unfold Job.entry
  cases h : j.cands[t]? with
  | none => rw [List.getD_eq_getElem?_getD, h] at hk; simp at hk
  | some cs =>
    rw [List.getD_eq_getElem?_getD, h] at hk
    simpa using hk

theorem dists_getD (j : Job V P R A) (t : Nat) : j.dists.getD t [] = (j.cands.getD t []).map (fun c => c.2.dist) := by
  unfold Job.dists
  rw [List.getD_eq_getElem?_getD, List.getD_eq_getElem?_getD, List.getElem?_map]
  cases j.cands[t]? with
  | none => rfl
  | some cs => rfl

theorem range_chain {α : Type} {S : α → α → Prop} {g : Nat → α} : ∀ (n a : Nat), (∀ t, a ≤ t → t + 1 < a + n → S (g t) (g (t + 1))) →
    ((List.range' a n).map g).IsChain S := by
  intro n
  induction n with
  | zero => intro a _; simp
  | succ n ih =>
    intro a h
    rw [List.range'_succ, List.map_cons]
    have := ih (a + 1) (fun t h1 h2 => h t (by omega) (by omega))
    cases n with
    | zero => simp
    | succ n =>
      rw [List.range'_succ, List.map_cons] at this ⊢
      exact List.isChain_cons_cons.2 ⟨h a (by omega) (by omega), this⟩

/-- What the decoder sees: whether there is a route between two candidates. -/
theorem legOf_valid {j : Job V P ℝ ℝ} {pos : V → P} {bounds : (ℝ → Bool) → Prop} (hj : Ready j pos bounds) {t g s : Nat} (ht : 0 < t)
    (hs : (j.entry (t - 1, s)).isSome = true) (hg : (j.entry (t, g)).isSome = true) :
    (∀ r, j.setting.leg (t - 1, s) (t, g) = .ok r → (j.legOf t g s).invalid = r.invalid) ∧
    ((j.legOf t g s).invalid = false → Goes j (t - 1, s) (t, g)) ∧
    ((∀ b, bounds b → b = SP.noBound) → Goes j (t - 1, s) (t, g) → (j.legOf t g s).invalid = false) := by
  obtain ⟨c, hc⟩ := Option.isSome_iff_exists.1 hs
  obtain ⟨d, hd⟩ := Option.isSome_iff_exists.1 hg
  obtain ⟨r, h1, h2, h3⟩ := leg_all hj hc hd (show t - 1 ≠ t by omega)
  have he : (j.legOf t g s).invalid = r.invalid := by rw [Job.legOf, h1]
  refine ⟨fun r' hr' => ?_, fun h => (h2 (he ▸ h)).2.1, fun hbb hgo => by rw [he]; exact h3 hbb hgo⟩
  rw [h1] at hr'
  rw [he, Outcome.ok.inj hr']

theorem path_choice {j : Job V P ℝ ℝ} {pos : V → P} {bounds : (ℝ → Bool) → Prop} (hj : Ready j pos bounds) {t0 : Nat} {σ : Nat → Nat} :
    (Weights.Path j.dists j.legOf t0 σ → Choice j t0 σ) ∧
    ((∀ b, bounds b → b = SP.noBound) → Choice j t0 σ → Weights.Path j.dists j.legOf t0 σ) := by
  have hlen : j.dists.length = j.cands.length := by simp [Job.dists]
  have hcl : ∀ t, (j.dists.getD t []).length = (j.cands.getD t []).length := by intro t; rw [dists_getD, List.length_map]
  constructor
  · intro h t h1 h2
    obtain ⟨k1, k2⟩ := h t h1 (by omega)
    rw [hcl] at k1
    refine ⟨k1, fun h3 => ?_⟩
    obtain ⟨k3, _⟩ := h (t - 1) (by omega) (by omega)
    rw [hcl] at k3
    exact (legOf_valid hj (by omega) (entry_some k3) (entry_some k1)).2.1 (k2 h3)
  · intro hbb h t h1 h2
    obtain ⟨k1, k2⟩ := h t h1 (by omega)
    refine ⟨by rw [hcl]; exact k1, fun h3 => ?_⟩
    obtain ⟨k3, _⟩ := h (t - 1) (by omega) (by omega)
    exact (legOf_valid hj (by omega) (entry_some k3) (entry_some k1)).2.2 hbb (k2 h3)

theorem sum_getD (xs : List ℝ) : xs.sum = ∑ i ∈ Finset.range xs.length, xs.getD i 0 := by
  induction xs with
  | nil => simp
  | cons x xs ih =>
    rw [List.length_cons, Finset.sum_range_succ', List.sum_cons, ih, add_comm]
    simp

/-- The route for the candidates that a path of the decoder chooses. -/
theorem path_route {j : Job V P ℝ ℝ} {pos : V → P} {bounds : (ℝ → Bool) → Prop} (hj : Ready j pos bounds)
    (hstr : j.joins = true → j.within = false ∧ Straight j.setting (OnEdge j) j.env.G.len) {t0 : Nat} (ht : t0 < j.cands.length)
    {σ : Nat → Nat} (hp : Weights.Path j.dists j.legOf t0 σ) :
    ∃ r pts, candidatesRoute j.setting ((List.range' t0 (j.cands.length - t0)).map fun t => (t, σ t)) = .ok r ∧
      (∀ x ∈ r.refs, x ∈ r.own ∨ Held j x) ∧ r.isConnected = true ∧ r.richLine = .ok pts ∧
      ((∃ t, t0 < t ∧ t < j.cands.length ∧ (j.cand (t - 1, σ (t - 1))).proj ≠ (j.cand (t, σ t)).proj) → r.invalid = false ∧
        pts.head? = some (j.cand (t0, σ t0)).proj ∧
        pts.getLast? = some (j.cand (j.cands.length - 1, σ (j.cands.length - 1))).proj) ∧
      (j.within = false → ∀ l ∈ r.lines, ∀ sg ∈ segs l, sg.1 ≠ sg.2 → OnEdge j sg.1 sg.2) ∧
      (j.within = false → (∀ b, bounds b → b = SP.noBound) → ∃ x : Nat → ℝ,
        (∀ t, t0 < t → t < j.cands.length → Away j (t - 1, σ (t - 1)) (t, σ t) (x t)) ∧
        (routeLength j.env.G r.lines).getD 0 = ∑ t ∈ Finset.Ico (t0 + 1) j.cands.length, x t) := by
  have hlen : j.dists.length = j.cands.length := by simp [Job.dists]
  have hcl : ∀ t, (j.dists.getD t []).length = (j.cands.getD t []).length := by intro t; rw [dists_getD, List.length_map]
  have hent : ∀ t, t0 ≤ t → t < j.cands.length → (j.entry (t, σ t)).isSome = true := by
    intro t h1 h2
    have := (hp t h1 (by omega)).1
    rw [hcl] at this
    exact entry_some this
  obtain ⟨n, hn⟩ : ∃ n, j.cands.length = t0 + (n + 1) := ⟨j.cands.length - t0 - 1, by omega⟩
  have hpol : (List.range' t0 (j.cands.length - t0)).map (fun t => ((t, σ t) : Entry)) =
      (t0, σ t0) :: (List.range' (t0 + 1) n).map fun t => (t, σ t) := by
    rw [hn, Nat.add_sub_cancel_left, List.range'_succ, List.map_cons]
  have hmem : ∀ x ∈ (t0, σ t0) :: (List.range' (t0 + 1) n).map (fun t => ((t, σ t) : Entry)), (j.entry x).isSome = true := by
    intro x hx
    rw [← hpol, hn, Nat.add_sub_cancel_left] at hx
    obtain ⟨t, h1, rfl⟩ := List.mem_map.1 hx
    rw [List.mem_range'_1] at h1
    exact hent t h1.1 (by omega)
  have hval : ((t0, σ t0) :: (List.range' (t0 + 1) n).map (fun t => ((t, σ t) : Entry))).IsChain
      (fun p q => p.1 ≠ q.1 ∧ ∀ r, j.setting.leg p q = .ok r → r.invalid = false) := by
    rw [← hpol, hn, Nat.add_sub_cancel_left]
    refine range_chain (n + 1) t0 (fun t h1 h2 => ⟨by simp, fun r hr => ?_⟩)
    have h3 := (hp (t + 1) (by omega) (by omega)).2 (by omega)
    simp only [Nat.add_sub_cancel] at h3
    rw [← (legOf_valid hj (t := t + 1) (by omega) (by simpa using hent t h1 (by omega)) (hent (t + 1) (by omega) (by omega))).1 r
      (by simpa using hr)]
    exact h3
  have hzip : ((t0, σ t0) :: (List.range' (t0 + 1) n).map (fun t => ((t, σ t) : Entry))).zip
      ((List.range' (t0 + 1) n).map (fun t => ((t, σ t) : Entry))) =
      (List.range' (t0 + 1) n).map fun t => ((t - 1, σ (t - 1)), (t, σ t)) := by
    clear hn hpol hmem hval hent hp ht
    induction n generalizing t0 with
    | zero => simp
    | succ n ih =>
      rw [List.range'_succ, List.map_cons, List.zip_cons_cons, ih, List.map_cons]
      simp
  obtain ⟨r, pts, h1, h2, h3, h4, h5, h6, h7⟩ := chosen_route_partial hj hstr _ _ hmem hval
  refine ⟨r, pts, by rw [hpol]; exact h1, h2, h3, h4, ?_, h6, fun hw hbb => ?_⟩
  · rintro ⟨t, k1, k2, k3⟩
    obtain ⟨m1, m2, m3⟩ := h5 ⟨((t - 1, σ (t - 1)), (t, σ t)), by
      rw [hzip]
      exact List.mem_map.2 ⟨t, List.mem_range'_1.2 ⟨by omega, by omega⟩, rfl⟩, k3⟩
    refine ⟨m1, m2, ?_⟩
    rw [m3]
    congr 2
    have hlast : ((t0, σ t0) :: (List.range' (t0 + 1) n).map (fun t => ((t, σ t) : Entry))).getLast? =
        some (j.cands.length - 1, σ (j.cands.length - 1)) := by
      rw [← hpol, hn, Nat.add_sub_cancel_left, List.getLast?_map, List.getLast?_range']
      simp
    rw [List.getLast?_eq_getLast_of_ne_nil (by simp)] at hlast
    rw [Option.some.inj hlast]
  · obtain ⟨xs, k1, k2⟩ := h7 hw hbb
    rw [hzip] at k1
    have hxl : xs.length = n := by simpa using k1.length_eq.symm
    refine ⟨fun t => xs.getD (t - (t0 + 1)) 0, fun t m1 m2 => ?_, ?_⟩
    · have hi : t - (t0 + 1) < n := by omega
      have := List.Forall₂.get k1 (i := t - (t0 + 1)) (by simpa using hi) (by omega)
      simp only [List.get_eq_getElem, List.getElem_map, List.getElem_range'] at this
      show Away j _ _ (xs.getD (t - (t0 + 1)) 0)
      rw [List.getD_eq_getElem?_getD, List.getElem?_eq_getElem (by omega), Option.getD_some]
      have e : t0 + 1 + 1 * (t - (t0 + 1)) = t := by omega
      rw [e] at this
      exact this
    · rw [k2, hn, Finset.sum_Ico_eq_sum_range, show t0 + (n + 1) - (t0 + 1) = n by omega]
      rw [← hxl]
      simp only [Nat.add_sub_cancel_left]
      exact sum_getD xs

/-- Candidates of the first point that has some; before it no point has. -/
structure Starts (j : Job V P R A) (t0 : Nat) : Prop where
  lt : t0 < j.cands.length
  some : j.cands.getD t0 [] ≠ []
  none : ∀ s, s < t0 → j.cands.getD s [] = []

/-- **C94, match.**  Routes are searched without a bound.  If candidates can be chosen such that one can go from each to the next
(`Choice`: the same place, ahead on the same edge, or reachable in the network), then the match is the route for such a
choice, of one candidate for each point, that no other such choice surpasses in the sum of weights.  The route refers to living
lines only and is connected; if not all candidates are at the same place, it is valid and leads from the projection point of the
first to that of the last.  If turns within edges are not trimmed (as by default), each segment is a piece of a segment of an edge
in its direction, and the length is the sum of the distances from candidate to candidate over shortest paths (`Away`).
Where joints are removed, a point that is not an end of the nearest segment is required to be inside a straight piece of road.
Missing: bounds (`match_bounded_partial`), A* search with unreachable goals (C04), lines or candidates as in C74's exceptions. -/
theorem match_partial {j : Job V P ℝ ℝ} {pos : V → P} (hj : Ready j pos (fun b => b = SP.noBound))
    (hstr : j.joins = true → j.within = false ∧ Straight j.setting (OnEdge j) j.env.G.len) (f : Weights.Factors) {t0 : Nat}
    (ht : Starts j t0) (hp : ∃ σ, Choice j t0 σ) :
    ∃ σ r pts, Choice j t0 σ ∧
      (∀ σ', Choice j t0 σ' → Weights.score f j.dists j.legOf t0 σ' (j.cands.length - 1) ≤
        Weights.score f j.dists j.legOf t0 σ (j.cands.length - 1)) ∧
      j.run f = .ok r ∧ (∀ x ∈ r.refs, x ∈ r.own ∨ Held j x) ∧ r.isConnected = true ∧ r.richLine = .ok pts ∧
      ((∃ t, t0 < t ∧ t < j.cands.length ∧ (j.cand (t - 1, σ (t - 1))).proj ≠ (j.cand (t, σ t)).proj) → r.invalid = false ∧
        pts.head? = some (j.cand (t0, σ t0)).proj ∧
        pts.getLast? = some (j.cand (j.cands.length - 1, σ (j.cands.length - 1))).proj) ∧
      (j.within = false → (∀ l ∈ r.lines, ∀ sg ∈ segs l, sg.1 ≠ sg.2 → OnEdge j sg.1 sg.2) ∧ ∃ x : Nat → ℝ,
        (∀ t, t0 < t → t < j.cands.length → Away j (t - 1, σ (t - 1)) (t, σ t) (x t)) ∧
        (routeLength j.env.G r.lines).getD 0 = ∑ t ∈ Finset.Ico (t0 + 1) j.cands.length, x t) := by
  have hbb : ∀ b : ℝ → Bool, b = SP.noBound → b = SP.noBound := fun _ h => h
  have hlen : j.dists.length = j.cands.length := by simp [Job.dists]
  obtain ⟨σ, h1, h2, h3⟩ := Weights.decoded_best f j.dists j.legOf t0 (by rw [hlen]; exact ht.lt)
    (by rw [dists_getD]; simpa using ht.some) (by intro s hs; rw [dists_getD, ht.none s hs]; rfl)
    (by obtain ⟨σ, h⟩ := hp; exact ⟨σ, (path_choice hj).2 hbb h⟩)
  obtain ⟨r, pts, k1, k2, k3, k4, k5, k6, k7⟩ := path_route hj hstr ht.lt h2
  refine ⟨σ, r, pts, (path_choice hj).1 h2, fun σ' h => ?_, ?_, k2, k3, k4, k5, fun hw => ⟨k6 hw, k7 hw hbb⟩⟩
  · rw [← hlen]; exact h3 σ' ((path_choice hj).2 hbb h)
  · rw [Job.run, Job.policy, h1, hlen]; exact k1

/-- **C94, no match.**  Without such a choice there is no match: the route is invalid. -/
theorem match_none {j : Job V P ℝ ℝ} {pos : V → P} {bounds : (ℝ → Bool) → Prop} (hj : Ready j pos bounds) (f : Weights.Factors)
    {t0 : Nat} (ht : Starts j t0) (hp : ¬ ∃ σ, Choice j t0 σ) : j.policy f = [] ∧ j.run f = .ok Route.bad := by
  have hlen : j.dists.length = j.cands.length := by simp [Job.dists]
  have h := Weights.decoded_none f j.dists j.legOf t0 (by rw [hlen]; exact ht.lt)
    (by rw [dists_getD]; simpa using ht.some) (by intro s hs; rw [dists_getD, ht.none s hs]; rfl)
    (by rintro ⟨σ, h⟩; exact hp ⟨σ, (path_choice hj).1 h⟩)
  refine ⟨h, ?_⟩
  rw [Job.run, Job.policy, h, MatchRoute.candidatesRoute, collect, Outcome.bind_ok]
  · exact merge_invalid (rs := []) false false _ (by simp)
  · simp

/-- **C94, with a bound.**  Whatever bounds the searches use, a match is the route for candidates of which each can be reached from
the one before, with the same properties except for the length, or there is no match. -/
theorem match_bounded_partial {j : Job V P ℝ ℝ} {pos : V → P} {bounds : (ℝ → Bool) → Prop} (hj : Ready j pos bounds)
    (hstr : j.joins = true → j.within = false ∧ Straight j.setting (OnEdge j) j.env.G.len) (f : Weights.Factors) {t0 : Nat}
    (ht : Starts j t0) : j.run f = .ok Route.bad ∨
    ∃ σ r pts, Choice j t0 σ ∧ j.run f = .ok r ∧ (∀ x ∈ r.refs, x ∈ r.own ∨ Held j x) ∧ r.isConnected = true ∧ r.richLine = .ok pts ∧
      ((∃ t, t0 < t ∧ t < j.cands.length ∧ (j.cand (t - 1, σ (t - 1))).proj ≠ (j.cand (t, σ t)).proj) → r.invalid = false ∧
        pts.head? = some (j.cand (t0, σ t0)).proj ∧
        pts.getLast? = some (j.cand (j.cands.length - 1, σ (j.cands.length - 1))).proj) ∧
      (j.within = false → ∀ l ∈ r.lines, ∀ sg ∈ segs l, sg.1 ≠ sg.2 → OnEdge j sg.1 sg.2) := by
  have hlen : j.dists.length = j.cands.length := by simp [Job.dists]
  by_cases hp : ∃ σ, Weights.Path j.dists j.legOf t0 σ
  · right
    obtain ⟨σ, h1, h2, _⟩ := Weights.decoded_best f j.dists j.legOf t0 (by rw [hlen]; exact ht.lt)
      (by rw [dists_getD]; simpa using ht.some) (by intro s hs; rw [dists_getD, ht.none s hs]; rfl) hp
    obtain ⟨r, pts, k1, k2, k3, k4, k5, k6, _⟩ := path_route hj hstr ht.lt h2
    exact ⟨σ, r, pts, (path_choice hj).1 h2, by rw [Job.run, Job.policy, h1, hlen]; exact k1, k2, k3, k4, k5, k6⟩
  · left
    have h := Weights.decoded_none f j.dists j.legOf t0 (by rw [hlen]; exact ht.lt)
      (by rw [dists_getD]; simpa using ht.some) (by intro s hs; rw [dists_getD, ht.none s hs]; rfl) hp
    rw [Job.run, Job.policy, h, MatchRoute.candidatesRoute, collect, Outcome.bind_ok]
    · exact merge_invalid (rs := []) false false _ (by simp)
    · simp

theorem find_head : ∀ ls : List (List P), (ls.find? (fun l => !l.isEmpty)).bind List.head? = ls.flatten.head?
  | [] => rfl
  | [] :: ls => by rw [List.find?_cons]; exact find_head ls
  | (x :: l) :: ls => by simp [List.find?_cons]

theorem find_last (ls : List (List P)) : (ls.reverse.find? (fun l => !l.isEmpty)).bind List.getLast? = ls.flatten.getLast? := by
  induction ls using List.reverseRecOn with
  | nil => rfl
  | append_singleton ls l ih =>
    rw [List.reverse_append, List.reverse_singleton, List.singleton_append, List.find?_cons, List.flatten_append,
      List.flatten_singleton]
    cases l with
    | nil => simpa using ih
    | cons x l =>
      rw [List.getLast?_append, List.getLast?_cons]
      simp [List.getLast?_cons]

theorem leads_azimuth (G : Geo P R A) {ls : List (List P)} {p q : P} (h : Leads ls p q) :
    routeAzimuth G ls = if p = q then none else some (G.az p q) := by
  have he : endsAzimuth G ls = if p = q then none else some (G.az p q) := by
    unfold endsAzimuth
    rw [find_head, find_last]
    rcases h with ⟨h, rfl⟩ | ⟨h1, h2⟩
    · rw [h]; simp
    · rw [h1, h2]
  match ls with
  | [] =>
    rcases h with ⟨_, rfl⟩ | ⟨h1, _⟩
    · simp [routeAzimuth]
    · simp at h1
  | [l] =>
    rw [← he]
    show plainAzimuth G l = _
    unfold plainAzimuth endsAzimuth
    rw [find_head, find_last, List.flatten_singleton]
    cases l.head? <;> cases l.getLast? <;> rfl
  | a :: b :: ls => exact he

/-- **C94, what the weights depend on.**  The weight of a transition depends on the length and azimuth of the route and of the
segment of the track.  For candidates one of which can be reached from the other, the length of the route is their distance over
shortest paths, its azimuth is that from projection to projection (neither exists if these are equal), and length, azimuth and turn
of the track are those of its points.  (As to the directions of the route, see C29.) -/
theorem weight_inputs_partial {j : Job V P ℝ ℝ} {pos : V → P} (hj : Ready j pos (fun b => b = SP.noBound)) (hw : j.within = false)
    {t g s : Nat} (ht : 0 < t) {c d : Nat × CandEdge.Cand P ℝ} (hc : j.entry (t - 1, s) = some c) (hd : j.entry (t, g) = some d)
    (hgo : Goes j (t - 1, s) (t, g)) {a b : P} (ha : j.track[t - 1]? = some a) (hb : j.track[t]? = some b) :
    (∃ x, Away j (t - 1, s) (t, g) x ∧
      (j.legOf t g s).routeLength = if c.2.proj = d.2.proj then none else some x) ∧
    (j.legOf t g s).routeAzimuth = (if c.2.proj = d.2.proj then none else some (j.env.G.az c.2.proj d.2.proj)) ∧
    (j.legOf t g s).same = decide (a = b) ∧
    (j.legOf t g s).trackLength = (if a = b then none else some (j.env.G.len a b)) ∧
    (j.legOf t g s).trackAzimuth = (if a = b then none else some (j.env.G.az a b)) ∧
    (t = 1 → (j.legOf t g s).turn = none) ∧
    (∀ z, 2 ≤ t → j.track[t - 2]? = some z → (j.legOf t g s).turn =
      if z = a ∨ a = b then none else some (j.env.G.az z a, j.env.G.dir (j.env.G.az z a) (j.env.G.az a b))) ∧
    (∃ r, j.setting.leg (t - 1, s) (t, g) = .ok r ∧
      ∀ x, routeDirections j.env.G j.env.G.abs r.lines = .ok x → (j.legOf t g s).routeDirections = x) := by
  have hm := hj.plane.toMetric
  obtain ⟨r, h1, h2, h3⟩ := leg_all hj hc hd (show t - 1 ≠ t by omega)
  obtain ⟨k1, k2, k3⟩ := h2 (h3 (fun _ h => h) hgo)
  obtain ⟨_, k4⟩ := k3 hw
  have hal := k4 (fun _ h => h)
  obtain ⟨_, r', m1, m2⟩ := k1.leg
  have hrr : r' = r := by
    rw [h1] at m1
    exact (Outcome.ok.inj m1).symm
  subst hrr
  replace m2 : Leg (Held j) r' (j.cand (t - 1, s)).proj (j.cand (t, g)).proj := m2
  rw [(cand_eq hc).2.2.2, (cand_eq hd).2.2.2] at m2
  have hleg : j.legOf t g s = ⟨r'.invalid, decide (j.track[t - 1]? = j.track[t]?), routeLength j.env.G r'.lines, j.segment j.env.G.len t,
      routeAzimuth j.env.G r'.lines, j.segment j.env.G.az t, j.turnBefore t, turns j.env.G r'⟩ := by rw [Job.legOf, h1]
  have hseg : ∀ v : P → P → ℝ, j.segment v t = if a = b then none else some (v a b) := by
    intro v; unfold Job.segment; rw [ha, hb]
  rw [hleg]
  refine ⟨⟨_, hal, ?_⟩, ?_, ?_, hseg _, hseg _, ?_, ?_, r', h1, ?_⟩
  · show routeLength j.env.G r'.lines = _
    by_cases hpq : c.2.proj = d.2.proj
    · rw [if_pos hpq]
      have : r' = Route.ofRefs [] := by
        have := leg_same (j := j) (p := (t - 1, s)) (q := (t, g)) (by rw [(cand_eq hc).2.2.2, (cand_eq hd).2.2.2, hpq])
        rw [h1] at this
        exact Outcome.ok.inj this
      rw [this]; rfl
    · rw [if_neg hpq, ← routeLength_sum (adds hm)]
      have := (routeLength_isSome j.env.G r'.lines).2 (leads_moves m2.connected m2.leads hpq)
      obtain ⟨x, hx⟩ := Option.isSome_iff_exists.1 this
      rw [hx]; rfl
  · exact leads_azimuth j.env.G m2.leads
  · show decide (j.track[t - 1]? = j.track[t]?) = _
    rw [ha, hb]; simp
  · rintro rfl
    show j.turnBefore 1 = none
    rw [Job.turnBefore, if_neg (by omega)]
  · intro z h2t hz
    show j.turnBefore t = _
    have hseg' : j.segment j.env.G.az (t - 1) = if z = a then none else some (j.env.G.az z a) := by
      unfold Job.segment; rw [show t - 1 - 1 = t - 2 by omega, hz, ha]
    rw [Job.turnBefore, if_pos h2t, hseg, hseg']
    by_cases h5 : z = a
    · simp [h5]
    · by_cases h6 : a = b
      · simp [h6]
      · simp [h5, h6]
  · intro x hx
    show turns j.env.G r' = x
    rw [turns, hx]

/-- Answers of Dijkstra's algorithm exist for every graph with finitely many vertices. -/
theorem answers_exist {V : Type} [DecidableEq V] [Fintype V] (g : SP.Graph V (Weight R)) (v w : V) :
    ∃ o, Answer g (fun b => b = SP.noBound) v w o := by
  obtain ⟨s, h1, h2⟩ : ∃ s : SP.State V R, SP.Reach g SP.noBound (SP.goalsStop [w]) v s ∧ SP.Done (SP.goalsStop [w]) s := by
    by_contra hcon
    push Not at hcon
    have hstep : ∀ s : {s : SP.State V R // SP.Reach g SP.noBound (SP.goalsStop [w]) v s},
        ∃ t : {s : SP.State V R // SP.Reach g SP.noBound (SP.goalsStop [w]) v s}, SP.Step g SP.noBound (SP.goalsStop [w]) s.1 t.1 := by
      intro s
      obtain ⟨t, ht⟩ := SP.dijkstra_progress (g := g) (exceeds := SP.noBound) s.1 (hcon s.1 s.2)
      exact ⟨⟨t, .step s.2 ht⟩, ht⟩
    choose next hnext using hstep
    refine SP.dijkstra_terminates g SP.noBound (SP.goalsStop [w]) v ⟨fun n => (next^[n] ⟨_, .init⟩).1, rfl, fun n => ?_⟩
    show SP.Step _ _ _ (next^[n] _).1 (next^[n + 1] _).1
    rw [Function.iterate_succ_apply']
    exact hnext _
  by_cases hf : w ∈ s.finished
  · obtain ⟨_, d, hd, _⟩ := (SP.inv_reach h1).fin w hf
    obtain ⟨n, p, _, hp, _⟩ := SP.dijkstra_path v h1 w d hd
    exact ⟨_, .path SP.noBound [w] s v n p rfl (by simp) h1 h2 hf hp⟩
  · exact ⟨_, .nothing SP.noBound [w] s rfl (by simp) h1 h2 hf⟩

/-! ### A road in two edges, from 0 over 10 to 20, and points at 2, 5 and 13 -/

/-- Points are numbers, directions are east and west. -/
noncomputable def streetGeo : Geo Int ℝ ℝ where
  len x y := ((x - y).natAbs : ℝ)
  az x y := if x ≤ y then 90 else 270
  dir a b := b - a
  abs a := |a|
  zeroR := 0
  addR a b := a + b
  zeroA := 0
  addA a b := a + b

noncomputable def streetEnv : CandEdge.Env Int ℝ ℝ where
  G := streetGeo
  interp l _ := l.headD 0
  proj q s := if s.1 ≤ q ∧ q ≤ s.2 then q else s.1
  closest q _ := q
  nearest q := some (if q ≤ 10 then (0, 10) else (10, 20))
  one := 1
  eps := 0

def streetNet : Net (Fin 3) Int := ⟨[⟨0, 1, [0, 10]⟩, ⟨1, 2, [10, 20]⟩]⟩

abbrev Spots : Type := List (List (Nat × CandEdge.Cand Int ℝ))

/-- Two candidates for the point at 5 on the first edge and none for the point in front. -/
noncomputable def onward : Spots :=
  [[], [(0, ⟨2, 0, [0, 2], [2, 10]⟩)], [(0, ⟨4, 1, [0, 4], [4, 10]⟩), (0, ⟨5, 0, [0, 5], [5, 10]⟩)],
    [(1, ⟨13, 0, [10, 13], [13, 20]⟩)]]

/-- From the second edge back to the first. -/
noncomputable def backward : Spots := [[(1, ⟨13, 0, [10, 13], [13, 20]⟩)], [(0, ⟨2, 0, [0, 2], [2, 10]⟩)]]

noncomputable def street (track : List Int) (cs : Spots) (found : Fin 3 → Fin 3 → Option (List (Fin 3))) :
    Job (Fin 3) Int ℝ ℝ where
  net := streetNet
  env := streetEnv
  turn d := decide (d ≠ 0)
  within := false
  joins := true
  track := track
  cands := cs
  found := found

theorem street_metric : Metric streetGeo := by
  refine ⟨rfl, fun _ _ => rfl, fun x => by simp [streetGeo], fun x y => ?_, fun x y h => ?_⟩
  · simp only [streetGeo]
    rw [show (x - y).natAbs = (y - x).natAbs by omega]
  · simp only [streetGeo, Nat.cast_pos]
    omega

theorem street_between (s x t : Int) : Between streetGeo s x t ↔ (s - x).natAbs + (x - t).natAbs = (s - t).natAbs := by
  unfold Between streetGeo
  simp only
  exact_mod_cast Iff.rfl

theorem street_plane : Plane streetGeo := by
  refine ⟨street_metric, fun s t x y h1 h2 h3 => ?_⟩
  rw [street_between] at *
  have h4 : (s - x).natAbs ≤ (s - y).natAbs := by
    simp only [streetGeo] at h3
    exact_mod_cast h3
  omega

theorem street_laid : Laid streetNet (fun v => 10 * (v.val : Int)) := by
  refine ⟨?_, ?_, ?_, ?_⟩ <;> simp [streetNet]

/-- Candidates within a road of one segment. -/
theorem street_cand (a b p : Int) (h1 : a < p) (h2 : p < b) : ∃ d, candidate streetEnv 2 p [a, b] = some (.ok d) ∧
    At streetEnv [a, b] (snapped streetEnv 2 p [a, b]).1 ∧ p = d.proj ∧ [a, p] = d.from_ ∧ [p, b] = d.to_ := by
  have hl : plainLength streetGeo [a, b] = some (CandEdge.total streetGeo [a, b]) :=
    length_total street_metric (by simp) (by simp; omega)
  have hs : snapped streetEnv 2 p [a, b] = (p, streetGeo.len p p) := by
    have hp : project streetEnv p [a, b] = (p, streetGeo.len p p) := by
      unfold project; simp [streetEnv]
    have hsn : ∀ v x, snapTo streetEnv p v x = x ∨ ∃ y, v = some y ∧ y.2 < 0 := by
      intro v x
      unfold snapTo
      cases v with
      | none => left; rfl
      | some y =>
        by_cases hy : y.1 ≠ x.1 ∧ y.2 < streetEnv.eps
        · right; exact ⟨y, rfl, hy.2⟩
        · left; simp only [if_neg hy]
    unfold snapped
    rw [if_pos (by simp), hp]
    rcases hsn (nearestPoint streetEnv p [a, b] none) (p, streetGeo.len p p) with h | ⟨y, h, hy⟩
    · exact h
    · exfalso
      rcases nearestPoint_mem streetEnv p [a, b] none y h with h3 | ⟨_, h3⟩
      · simp at h3
      · rw [h3] at hy
        exact absurd hy (not_lt.2 (len_nonneg street_metric _ _))
  have hat : At streetEnv [a, b] p := by
    refine .inr (.inr ⟨[] ++ [a], [], b :: [], .inner ?_ ?_ ?_ ?_ ?_ ?_, by simp, by simp, rfl⟩)
    · simp; omega
    · simp; omega
    · show (if a ≤ p ∧ p ≤ b then p else a) = p
      rw [if_pos ⟨h1.le, h2.le⟩]
    · exact (street_between a p b).2 (by omega)
    · simp [segs]
    · simp [segs]
  obtain ⟨c, k1, k2, _, k4, _⟩ := divides_partial streetEnv street_metric p (edge := [a, b]) (p, streetGeo.len p p) rfl (by simp)
    (by simp; omega) hat
  refine ⟨c, ?_, by rw [hs]; exact hat, k2.symm, ?_⟩
  · unfold candidate
    rw [hs, k1, if_pos]
    show (plainLength streetGeo [a, b]).isSome = true
    rw [hl]; rfl
  · rw [k2] at k4
    rcases k4 with ⟨_, _, h⟩ | ⟨_, _, h⟩ | ⟨pre, r, hp, hr, he, h5, h6⟩
    · simp at h; omega
    · simp at h; omega
    · obtain ⟨x, pre, rfl⟩ := List.exists_cons_of_ne_nil hp
      obtain ⟨z, r, rfl⟩ := List.exists_cons_of_ne_nil hr
      rcases he with he | he
      · cases pre with
        | nil =>
          simp only [List.cons_append, List.nil_append, List.cons.injEq] at he
          obtain ⟨rfl, rfl, rfl⟩ := he
          exact ⟨h5.symm, h6.symm⟩
        | cons y pre => have := congrArg List.length he; simp at this
      · have := congrArg List.length he
        simp only [List.length_append, List.length_cons, List.length_nil] at this
        omega

theorem street_ready (track : List Int) (cs : Spots) (hcs : cs = onward ∨ cs = backward) :
    ∃ found, Ready (street track cs found) (fun v => 10 * (v.val : Int)) (fun b => b = SP.noBound) := by
  choose found hf using answers_exist (streetNet.graph streetGeo)
  refine ⟨found, street_plane, street_laid, ?_, hf⟩
  have h2 : ∃ e q r d, (street track cs found).net.edges[0]? = some e ∧ candidate streetEnv r q e.line = some (.ok d) ∧
      At streetEnv e.line (snapped streetEnv r q e.line).1 ∧ 2 = d.proj ∧ [0, 2] = d.from_ ∧ [2, 10] = d.to_ := by
    obtain ⟨d, h⟩ := street_cand 0 10 2 (by omega) (by omega)
    exact ⟨_, 2, 2, d, rfl, h⟩
  have h4 : ∃ e q r d, (street track cs found).net.edges[0]? = some e ∧ candidate streetEnv r q e.line = some (.ok d) ∧
      At streetEnv e.line (snapped streetEnv r q e.line).1 ∧ 4 = d.proj ∧ [0, 4] = d.from_ ∧ [4, 10] = d.to_ := by
    obtain ⟨d, h⟩ := street_cand 0 10 4 (by omega) (by omega)
    exact ⟨_, 4, 2, d, rfl, h⟩
  have h5 : ∃ e q r d, (street track cs found).net.edges[0]? = some e ∧ candidate streetEnv r q e.line = some (.ok d) ∧
      At streetEnv e.line (snapped streetEnv r q e.line).1 ∧ 5 = d.proj ∧ [0, 5] = d.from_ ∧ [5, 10] = d.to_ := by
    obtain ⟨d, h⟩ := street_cand 0 10 5 (by omega) (by omega)
    exact ⟨_, 5, 2, d, rfl, h⟩
  have h13 : ∃ e q r d, (street track cs found).net.edges[1]? = some e ∧ candidate streetEnv r q e.line = some (.ok d) ∧
      At streetEnv e.line (snapped streetEnv r q e.line).1 ∧ 13 = d.proj ∧ [10, 13] = d.from_ ∧ [13, 20] = d.to_ := by
    obtain ⟨d, h⟩ := street_cand 10 20 13 (by omega) (by omega)
    exact ⟨_, 13, 2, d, rfl, h⟩
  intro xs hxs c hc
  replace hxs : xs ∈ cs := hxs
  rcases hcs with rfl | rfl
  · simp only [onward, List.mem_cons, List.not_mem_nil, or_false] at hxs
    rcases hxs with rfl | rfl | rfl | rfl
    · simp at hc
    · simp only [List.mem_singleton] at hc
      subst hc; exact h2
    · simp only [List.mem_cons, List.not_mem_nil, or_false] at hc
      rcases hc with rfl | rfl
      · exact h4
      · exact h5
    · simp only [List.mem_singleton] at hc
      subst hc; exact h13
  · simp only [backward, List.mem_cons, List.not_mem_nil, or_false] at hxs
    rcases hxs with rfl | rfl <;> simp only [List.mem_singleton] at hc <;> subst hc
    · exact h13
    · exact h2

theorem street_onEdge (track : List Int) (cs : Spots) (found : Fin 3 → Fin 3 → Option (List (Fin 3))) (x y : Int) :
    OnEdge (street track cs found) x y ↔ (0 ≤ x ∧ x ≤ y ∧ y ≤ 10) ∨ (10 ≤ x ∧ x ≤ y ∧ y ≤ 20) := by
  unfold OnEdge PieceOf
  have hb : ∀ s x t, Between (street track cs found).env.G s x t ↔ (s - x).natAbs + (x - t).natAbs = (s - t).natAbs := street_between
  simp only [hb]
  simp only [street, streetNet, List.mem_cons, List.not_mem_nil, or_false, exists_eq_or_imp, exists_eq_left, segs,
    List.tail_cons, List.zip_cons_cons, List.zip_nil_right, Prod.mk.injEq]
  constructor
  · rintro (⟨s, t, ⟨rfl, rfl⟩, h1, h2, h3⟩ | ⟨s, t, ⟨rfl, rfl⟩, h1, h2, h3⟩)
    · left; omega
    · right; omega
  · rintro (h | h)
    · left; exact ⟨0, 10, ⟨rfl, rfl⟩, by omega, by omega, by omega⟩
    · right; exact ⟨10, 20, ⟨rfl, rfl⟩, by omega, by omega, by omega⟩

theorem street_straight (track : List Int) (cs : Spots) (found : Fin 3 → Fin 3 → Option (List (Fin 3))) :
    Straight (street track cs found).setting (OnEdge (street track cs found)) (street track cs found).env.G.len := by
  intro x y w h1 h2 h3 _ h5 h6
  rw [street_onEdge] at *
  have hy : y ≠ 0 ∧ y ≠ 10 ∧ y ≠ 20 := by
    refine ⟨?_, ?_, ?_⟩ <;> rintro rfl <;> refine h1 ?_
    · exact ⟨0, 10, rfl, .inl rfl⟩
    · exact ⟨0, 10, rfl, .inr rfl⟩
    · exact ⟨10, 20, rfl, .inr rfl⟩
  have hxw : x < w := by omega
  refine ⟨fun _ => by omega, ?_⟩
  unfold span
  rw [if_neg (by omega)]
  show ((x - w).natAbs : ℝ) = ((x - y).natAbs : ℝ) + ((y - w).natAbs : ℝ)
  have : (x - w).natAbs = (x - y).natAbs + (y - w).natAbs := by omega
  exact_mod_cast this

/-- The hypotheses of `match_partial` hold of the road: from 2 on, the second point matches at 4 or 5. -/
example (f : Weights.Factors) : ∃ (found : Fin 3 → Fin 3 → Option (List (Fin 3))) (σ : Nat → Nat) (r : Route Int) (pts : List Int),
    Choice (street [-7, 2, 5, 13] onward found) 1 σ ∧ (street [-7, 2, 5, 13] onward found).run f = .ok r ∧ r.invalid = false ∧ r.richLine = .ok pts ∧
    pts.head? = some 2 ∧ pts.getLast? = some 13 := by
  obtain ⟨found, hj⟩ := street_ready [-7, 2, 5, 13] onward (.inl rfl)
  have hs : Starts (street [-7, 2, 5, 13] onward found) 1 := ⟨by simp [street, onward], by simp [street, onward], by
    intro s hs
    obtain rfl : s = 0 := by omega
    rfl⟩
  have hlen : (street [-7, 2, 5, 13] onward found).cands.length = 4 := rfl
  have e1 : ∀ k, k < 1 → (street [-7, 2, 5, 13] onward found).entry (1, k) = some (0, ⟨2, 0, [0, 2], [2, 10]⟩) := by
    intro k hk; obtain rfl : k = 0 := by omega
    rfl
  have e3 : ∀ k, k < 1 → (street [-7, 2, 5, 13] onward found).entry (3, k) = some (1, ⟨13, 0, [10, 13], [13, 20]⟩) := by
    intro k hk; obtain rfl : k = 0 := by omega
    rfl
  have hch : Choice (street [-7, 2, 5, 13] onward found) 1 (fun _ => 0) := by
    intro t h1 h2
    rw [hlen] at h2
    have : t = 1 ∨ t = 2 ∨ t = 3 := by omega
    rcases this with rfl | rfl | rfl
    · exact ⟨by simp [street, onward], by omega⟩
    · refine ⟨by simp [street, onward], fun _ => ⟨_, _, rfl, rfl, .inr (.inl ⟨rfl, by simp, by simp, by simp, ?_⟩)⟩⟩
      simp only [CandEdge.total, street, streetEnv, streetGeo]
      norm_num
    · refine ⟨by simp [street, onward], fun _ => ⟨_, _, rfl, rfl, .inr (.inr ⟨_, _, rfl, rfl, [], ?_⟩)⟩⟩
      exact .nil
  obtain ⟨σ, r, pts, h1, _, h3, _, _, h6, h7, _⟩ := match_partial hj (fun _ => ⟨rfl, street_straight _ _ found⟩) f hs ⟨_, hch⟩
  have c1 : ((street [-7, 2, 5, 13] onward found).cand (1, σ 1)).proj = 2 := by
    rw [(cand_eq (e1 _ (h1 1 (by omega) (by rw [hlen]; omega)).1)).2.2.2]
  have c3 : ((street [-7, 2, 5, 13] onward found).cand (3, σ 3)).proj = 13 := by
    rw [(cand_eq (e3 _ (h1 3 (by omega) (by rw [hlen]; omega)).1)).2.2.2]
  have hmove : ∃ t, 1 < t ∧ t < (street [-7, 2, 5, 13] onward found).cands.length ∧
      ((street [-7, 2, 5, 13] onward found).cand (t - 1, σ (t - 1))).proj ≠ ((street [-7, 2, 5, 13] onward found).cand (t, σ t)).proj := by
    by_contra hcon
    push Not at hcon
    have k2 := hcon 2 (by omega) (by rw [hlen]; omega)
    have k3 := hcon 3 (by omega) (by rw [hlen]; omega)
    simp only [Nat.add_one_sub_one] at k2 k3
    rw [← k2, c1, c3] at k3
    simp at k3
  obtain ⟨m1, m2, m3⟩ := h7 hmove
  refine ⟨found, σ, r, pts, h1, h3, m1, h6, ?_, ?_⟩
  · rw [m2, c1]
  · rw [m3]
    show some ((street [-7, 2, 5, 13] onward found).cand (3, σ 3)).proj = some 13
    rw [c3]

/-- There is no way back: the hypotheses of `match_none` and `match_bounded_partial` hold. -/
example (f : Weights.Factors) : ∃ found, (¬ ∃ σ, Choice (street [13, 2] backward found) 0 σ) ∧
    (street [13, 2] backward found).run f = .ok Route.bad := by
  obtain ⟨found, hj⟩ := street_ready [13, 2] backward (.inr rfl)
  have hs : Starts (street [13, 2] backward found) 0 :=
    ⟨by simp [street, backward], by simp [street, backward], by intro s hs; omega⟩
  have hno : ¬ ∃ σ, Choice (street [13, 2] backward found) 0 σ := by
    rintro ⟨σ, h⟩
    have k0 : σ 0 < 1 := (h 0 (by omega) (by simp [street, backward])).1
    obtain ⟨k1, k2⟩ := h 1 (by omega) (by simp [street, backward])
    replace k1 : σ 1 < 1 := k1
    obtain ⟨c, d, hc, hd, hcd⟩ := k2 (by omega)
    have e0 : σ 0 = 0 := by omega
    have e1 : σ 1 = 0 := by omega
    rw [show (1 : Nat) - 1 = 0 from rfl, e0] at hc
    rw [e1] at hd
    have hc' := Option.some.inj hc
    have hd' := Option.some.inj hd
    subst hc' hd'
    rcases hcd with hcd | ⟨hcd, _⟩ | ⟨a, b, ha, hb, ws, hw⟩
    · simp at hcd
    · simp at hcd
    · have ha' := Option.some.inj ha
      have hb' := Option.some.inj hb
      subst ha' hb'
      cases hw with
      | snoc _ hmem =>
        simp only [Net.graph, List.mem_map, Prod.mk.injEq] at hmem
        obtain ⟨x, hx, h0, _⟩ := hmem
        simp only [street, streetNet, Net.outs, List.mem_filterMap] at hx
        obtain ⟨y, hy, hyx⟩ := hx
        split at hyx
        · simp only [List.zipIdx_cons, List.zipIdx_nil, List.mem_cons, List.not_mem_nil, or_false] at hy
          have := Option.some.inj hyx
          subst this
          rcases hy with rfl | rfl <;> simp at h0
        · simp at hyx
  exact ⟨found, hno, (match_none hj f hs hno).2⟩

/-- The hypotheses of `weight_inputs_partial` hold for the last two points. -/
example : ∃ found, ((street [-7, 2, 5, 13] onward found).legOf 3 0 1).routeAzimuth = some 90 := by
  obtain ⟨found, hj⟩ := street_ready [-7, 2, 5, 13] onward (.inl rfl)
  refine ⟨found, ?_⟩
  have h := weight_inputs_partial hj rfl (t := 3) (g := 0) (s := 1) (by omega) (c := (0, ⟨5, 0, [0, 5], [5, 10]⟩))
    (d := (1, ⟨13, 0, [10, 13], [13, 20]⟩)) rfl rfl ⟨_, _, rfl, rfl, .inr (.inr ⟨_, _, rfl, rfl, [], .nil⟩)⟩ (a := 5) (b := 13) rfl rfl
  rw [h.2.1, if_neg (by simp)]
  show some (if (5 : Int) ≤ 13 then (90 : ℝ) else 270) = some 90
  norm_num

end MM.Pipe
