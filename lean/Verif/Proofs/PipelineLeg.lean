import Verif.Proofs.Pipeline

/-! # The route between two candidates of a job: over the edge, over the network, or none -/

set_option autoImplicit false
set_option linter.unusedSectionVars false

namespace MM.Pipe

open MM.Line MM.Route MM.Router MM.CandEdge MM.MatchRoute

variable {V P R A : Type} [DecidableEq V] [DecidableEq P] [LinearOrder R] [AddCommGroup R] [IsOrderedAddMonoid R]

/-! ### Notions of the statements -/

/-- `q` is an end of the line, or on it at exactly one place. -/
def At (E : CandEdge.Env P R A) (l : List P) (q : P) : Prop :=
  l.head? = some q ∨ l.getLast? = some q ∨ ∃ pre w r, Once E q pre w r ∧ pre ≠ [] ∧ r ≠ [] ∧ l = pre ++ w ++ r

/-- What the cache answers for two vertices was found by Dijkstra's algorithm from the first, possibly together with other
goals and with a bound (one of `bounds`): the path in its predecessors if the goal was finished, else nothing. -/
inductive Answer (g : SP.Graph V (Weight R)) (bounds : (R → Bool) → Prop) (v w : V) : Option (List V) → Prop
  | path (exceeds : R → Bool) (goals : List V) (s : SP.State V R) (dflt : V) (n : Nat) (p : List V) (hb : bounds exceeds)
      (hg : w ∈ goals) (hr : SP.Reach g exceeds (SP.goalsStop goals) v s) (hd : SP.Done (SP.goalsStop goals) s)
      (hf : w ∈ s.finished) (hp : SP.pathBack dflt n s.pred w [] = some p) : Answer g bounds v w (some p)
  | nothing (exceeds : R → Bool) (goals : List V) (s : SP.State V R) (hb : bounds exceeds)
      (hg : w ∈ goals) (hr : SP.Reach g exceeds (SP.goalsStop goals) v s) (hd : SP.Done (SP.goalsStop goals) s)
      (hf : w ∉ s.finished) : Answer g bounds v w none

/-- The job is as the search for candidates and the routing leave it: straight segments; lines of edges from node to node;
each candidate divides its edge at the projection of some point, which is an end of the edge or on it at one place (its
distance may have been measured from another point); paths as Dijkstra's algorithm finds them. -/
structure Ready (j : Job V P R A) (pos : V → P) (bounds : (R → Bool) → Prop) : Prop where
  plane : Plane j.env.G
  laid : Laid j.net pos
  cands : ∀ cs ∈ j.cands, ∀ c ∈ cs, ∃ e p switch d, j.net.edges[c.1]? = some e ∧
    candidate j.env switch p e.line = some (.ok d) ∧ At j.env e.line (snapped j.env switch p e.line).1 ∧
    c.2.proj = d.proj ∧ c.2.from_ = d.from_ ∧ c.2.to_ = d.to_
  found : ∀ v w, Answer (j.net.graph j.env.G) bounds v w (j.found v w)

/-- Of two candidates on the same edge, neither at its end, the first not at its begin, the second is not before the first. -/
def Ahead (j : Job V P R A) (c d : Nat × CandEdge.Cand P R) : Prop :=
  c.1 = d.1 ∧ c.2.from_ ≠ [] ∧ c.2.to_ ≠ [] ∧ d.2.from_ ≠ [] ∧ CandEdge.total j.env.G c.2.from_ ≤ CandEdge.total j.env.G d.2.from_

/-- What may be referred to: lines of edges and of candidates. -/
def Held [Inhabited P] (j : Job V P R A) (x : Ref P) : Prop :=
  (∃ e, j.net.edges[x.addr]? = some e ∧ x.line = e.line) ∨
  ∃ p c, j.entry p = some c ∧ (x = (j.cand p).before ∨ x = (j.cand p).behind)

/-- A piece of a segment of an edge, in its direction. -/
def OnEdge (j : Job V P R A) (x y : P) : Prop := ∃ e ∈ j.net.edges, PieceOf j.env.G e.line x y

/-! ### Divisions -/

theorem cut_two {G : Geo P R A} {l : List P} (h2 : 2 ≤ l.length) {q : P} {f t : List P} (hc : Cut G l q f t) :
    (f ≠ [] → 2 ≤ f.length) ∧ (t ≠ [] → 2 ≤ t.length) := by
  rcases hc.divides with ⟨h1, h3, _⟩ | ⟨h1, h3, _⟩ | ⟨pre, r, hp, hr, _, h5, h6⟩
  · exact ⟨fun h => absurd h1 h, fun _ => h3 ▸ h2⟩
  · exact ⟨fun _ => h1 ▸ h2, fun h => absurd h3 h⟩
  · obtain ⟨a, pre, rfl⟩ := List.exists_cons_of_ne_nil hp
    obtain ⟨b, r, rfl⟩ := List.exists_cons_of_ne_nil hr
    exact ⟨fun _ => by rw [h5]; simp, fun _ => by rw [h6]; simp⟩

theorem cut_leads {G : Geo P R A} {l : List P} (h2 : 2 ≤ l.length) {q : P} {f t : List P} (hc : Cut G l q f t) {x z : P}
    (hx : l.head? = some x) (hz : l.getLast? = some z) : Leads [f] x q ∧ Leads [t] q z := by
  rcases hc.divides with ⟨h1, h3, h4⟩ | ⟨h1, h3, h4⟩ | ⟨pre, r, hp, hr, he, h5, h6⟩
  · subst h1 h3
    rw [hx] at h4
    exact ⟨.inl ⟨rfl, Option.some.inj h4⟩, .inr ⟨by simpa [Option.some.inj h4] using hx, by simpa using hz⟩⟩
  · subst h1 h3
    rw [hz] at h4
    exact ⟨.inr ⟨by simpa using hx, by simpa [Option.some.inj h4] using hz⟩, .inl ⟨rfl, (Option.some.inj h4).symm⟩⟩
  · obtain ⟨a, pre, rfl⟩ := List.exists_cons_of_ne_nil hp
    subst h5 h6
    constructor
    · right
      have hq : (a :: pre ++ [q]).getLast? = some q := List.getLast?_concat
      rw [List.cons_append] at hq
      rcases he with rfl | rfl <;> simpa [hq] using hx
    · right
      obtain ⟨k, b, rfl⟩ : ∃ k b, r = k ++ [b] := by
        rcases List.eq_nil_or_concat r with rfl | ⟨k, b, rfl⟩
        · exact absurd rfl hr
        · exact ⟨k, b, by simp⟩
      have : z = b := by
        rcases he with rfl | rfl
        · rw [← List.append_assoc, List.getLast?_concat] at hz; exact (Option.some.inj hz).symm
        · rw [← List.cons_append, ← List.append_assoc, List.getLast?_concat] at hz; exact (Option.some.inj hz).symm
      subst this
      simp only [List.flatten_cons, List.flatten_nil, List.append_nil, List.head?_cons, true_and]
      rw [← List.cons_append, List.getLast?_concat]

theorem segs_left {G : Geo P R A} (h : Metric G) (k : List P) (s : P) (l : List P) {sg : P × P} (hs : sg ∈ segs (k ++ [s])) :
    PieceOf G (k ++ s :: l) sg.1 sg.2 := by
  refine pieceOf_seg h ?_
  cases l with
  | nil => exact hs
  | cons u l => rw [CandEdge.segs_split]; exact List.mem_append_left _ hs

theorem segs_right {G : Geo P R A} (h : Metric G) (k : List P) (l : List P) {sg : P × P} (hs : sg ∈ segs l) :
    PieceOf G (k ++ l) sg.1 sg.2 := by
  refine pieceOf_seg h ?_
  cases l with
  | nil => simp [segs] at hs
  | cons u l =>
    rcases List.eq_nil_or_concat k with rfl | ⟨k, x, rfl⟩
    · exact hs
    · rw [List.concat_eq_append, List.append_assoc, List.singleton_append, CandEdge.segs_split]
      exact List.mem_append_right _ (List.mem_cons_of_mem _ hs)

theorem cut_pieces {G : Geo P R A} (h : Metric G) {l : List P} {q : P} {f t : List P} (hc : Cut G l q f t) :
    (∀ sg ∈ segs f, PieceOf G l sg.1 sg.2) ∧ (∀ sg ∈ segs t, PieceOf G l sg.1 sg.2) := by
  rcases hc.divides with ⟨h1, h3, _⟩ | ⟨h1, h3, _⟩ | ⟨pre, r, hp, hr, he, h5, h6⟩
  · subst h1 h3; exact ⟨by simp [segs], fun sg hs => pieceOf_seg h hs⟩
  · subst h1 h3; exact ⟨fun sg hs => pieceOf_seg h hs, by simp [segs]⟩
  · rcases List.eq_nil_or_concat pre with rfl | ⟨k, s, rfl⟩
    · exact absurd rfl hp
    · obtain ⟨u, post, rfl⟩ := List.exists_cons_of_ne_nil hr
      rw [List.concat_eq_append] at he h5
      have hf : f = k ++ [s, q] := by rw [h5]; simp
      have ht : CandEdge.total G f = CandEdge.total G (k ++ [s]) + G.len s q := by rw [hf]; exact total_snoc2 G k s q
      rcases he with he | he
      · have hb : Between G s q u := by
          have hs := hc.sum
          have e1 : CandEdge.total G (q :: u :: post) = G.len q u + CandEdge.total G (u :: post) := rfl
          have e2 : CandEdge.total G (k ++ [s] ++ u :: post) = CandEdge.total G (k ++ [s]) + (G.len s u + CandEdge.total G (u :: post)) := by
            rw [List.append_assoc, List.singleton_append, CandEdge.total_append G k s]; rfl
          rw [ht, h6, he, e1, e2] at hs
          unfold Between
          have := add_left_cancel (a := CandEdge.total G (k ++ [s]))
            (b := G.len s q + (G.len q u + CandEdge.total G (u :: post))) (c := G.len s u + CandEdge.total G (u :: post))
            (by rw [← add_assoc]; exact hs)
          rw [← add_assoc] at this
          exact add_right_cancel this
        have hl : l = k ++ s :: u :: post := by rw [he]; simp
        have hsu : (s, u) ∈ segs l := by rw [hl, CandEdge.segs_split]; simp
        constructor
        · intro sg hs
          rw [hf, MatchRoute.segs_snoc] at hs
          rcases List.mem_append.1 hs with hs | hs
          · rw [hl]; exact segs_left h k s _ hs
          · simp only [List.mem_singleton] at hs
            rw [hs]
            exact ⟨s, u, hsu, between_left h _ _, hb, between_left h _ _⟩
        · intro sg hs
          rw [h6, MatchRoute.segs_cons2] at hs
          rcases List.mem_cons.1 hs with rfl | hs
          · exact ⟨s, u, hsu, hb, between_right h _ _, hb⟩
          · rw [he]; exact segs_right h _ _ hs
      · have hl : l = k ++ s :: q :: u :: post := by rw [he]; simp
        constructor
        · intro sg hs
          rw [hf] at hs
          have := segs_left h (k ++ [s]) q (u :: post) (sg := sg) (by simpa using hs)
          rw [hl]; simpa using this
        · intro sg hs
          rw [h6] at hs
          rw [he]
          exact segs_right h _ _ hs

/-- The candidates of a job divide their edges. -/
theorem Ready.cut {j : Job V P R A} {pos : V → P} {bounds : (R → Bool) → Prop} (hj : Ready j pos bounds) {p : Entry}
    {c : Nat × CandEdge.Cand P R} (hc : j.entry p = some c) :
    ∃ e ∈ j.net.edges, j.net.edges[c.1]? = some e ∧ Cut j.env.G e.line c.2.proj c.2.from_ c.2.to_ := by
  unfold Job.entry at hc
  obtain ⟨cs, h1, h2⟩ := Option.bind_eq_some_iff.1 hc
  obtain ⟨e, p, switch, d, h3, h4, h5, h6, h7, h8⟩ := hj.cands cs (List.mem_of_getElem? h1) c (List.mem_of_getElem? h2)
  have he := List.mem_of_getElem? h3
  refine ⟨e, he, h3, ?_⟩
  have hm := hj.plane.toMetric
  have hy : (snapped j.env switch p e.line).2 = j.env.G.len p (snapped j.env switch p e.line).1 :=
    (CandEdge.projection j.env hm switch p e.line).1
  obtain ⟨c', k1, k2, k3, k4, k5, k6, k7⟩ := divides_partial j.env hm p _ hy (hj.laid.size e he) (hj.laid.chain e he) h5
  unfold candidate at h4
  split_ifs at h4
  rw [k1] at h4
  simp only [Option.some.injEq, Outcome.ok.injEq] at h4
  subst h4
  rw [h6, h7, h8]
  exact ⟨k4, k5, k6, k7⟩

/-! ### Paths the cache holds -/

theorem pathBack_mono (dflt : V) : ∀ (n m : Nat) (pred : V → Option V) (v : V) (acc p : List V), n ≤ m →
    SP.pathBack dflt n pred v acc = some p → SP.pathBack dflt m pred v acc = some p := by
  intro n
  induction n with
  | zero => intro m pred v acc p _ h; simp [SP.pathBack] at h
  | succ n ih =>
    intro m pred v acc p hm h
    obtain ⟨m, rfl⟩ : ∃ k, m = k + 1 := ⟨m - 1, by omega⟩
    simp only [SP.pathBack] at h ⊢
    split_ifs at h ⊢ with hp
    · exact h
    · exact ih m _ _ _ _ (by omega) h

theorem answer_some {g : SP.Graph V (Weight R)} {bounds : (R → Bool) → Prop} {v w : V} {p : List V}
    (h : Answer g bounds v w (some p)) : p.head? = some v ∧ p.getLast? = some w ∧ ∃ ws, SP.VPath g p ws ∧
      ((∀ b, bounds b → b = SP.noBound) → SP.MinCost g v w (SP.cost R ws)) := by
  cases h with
  | path exceeds goals s dflt n p hb hg hr hd hf hp =>
    obtain ⟨_, d, hdist, _⟩ := (SP.inv_reach hr).fin w hf
    obtain ⟨m, p', ws, k1, k2, k3, k4, k5⟩ := SP.dijkstra_path dflt hr w d hdist
    have e : p' = p := by
      have h1 := pathBack_mono dflt n (max n m) _ _ _ _ (le_max_left _ _) hp
      have h2 := pathBack_mono dflt m (max n m) _ _ _ _ (le_max_right _ _) k1
      rw [h1] at h2
      exact (Option.some.inj h2).symm
    subst e
    refine ⟨k2, k3, ws, k4, fun hbb => ?_⟩
    have := hbb exceeds hb
    subst this
    obtain ⟨d', h1, h2⟩ := SP.dijkstra_finished_exact hr w hf
    rw [hdist] at h1
    rw [k5, Option.some.inj h1]
    exact h2

theorem answer_none {g : SP.Graph V (Weight R)} {bounds : (R → Bool) → Prop} {v w : V}
    (h : Answer g bounds v w none) (hbb : ∀ b, bounds b → b = SP.noBound) : ¬ SP.Reachable g v w := by
  cases h with
  | nothing exceeds goals s hb hg hr hd hf =>
    have := hbb exceeds hb
    subst this
    intro hreach
    exact hf ((SP.dijkstra_goals_exact v goals hr hd w hg).1 hreach).1

theorem routed_path {j : Job V P R A} {pos : V → P} {bounds : (R → Bool) → Prop} (hj : Ready j pos bounds) {v w : V} {p : List V}
    (hf : j.found v w = some p) : ∃ refs : List (Ref P), j.routed v w = Route.ofRefs refs ∧
      (∀ x ∈ refs, ∃ e ∈ j.net.edges, j.net.edges[x.addr]? = some e ∧ x.line = e.line) ∧ Connected (refs.map Ref.line) ∧
      Leads (refs.map Ref.line) (pos v) (pos w) ∧ SP.Reachable (j.net.graph j.env.G) v w ∧
      ((∀ b, bounds b → b = SP.noBound) →
        SP.MinCost (j.net.graph j.env.G) v w (refs.map fun x => CandEdge.total j.env.G x.line).sum) := by
  have ha := hj.found v w
  rw [hf] at ha
  obtain ⟨h1, h2, ws, h3, h4⟩ := answer_some ha
  obtain ⟨refs, k1, k2, k3, k4, k5, ws', k6, k7⟩ := path_lines hj.laid hj.plane.toMetric h3 h1 h2
  refine ⟨refs, by rw [Job.routed, hf]; exact k1, ?_, k3, k4, ⟨ws', k6⟩, fun hbb => ?_⟩
  · intro x hx
    obtain ⟨e, e1, e2⟩ := k2 x hx
    exact ⟨e, List.mem_of_getElem? e1, e1, e2⟩
  · obtain ⟨⟨ws0, m1, m2⟩, m3⟩ := h4 hbb
    refine ⟨⟨ws', k6, k7⟩, fun us hu => k5.trans (m3 us hu)⟩

/-! ### The leg between two candidates -/

theorem cut_length {G : Geo P R A} (hm : Metric G) {l : List P} (h2 : 2 ≤ l.length) {q : P} {f t : List P} (hc : Cut G l q f t) :
    (plainLength G f = if f = [] then none else some (CandEdge.total G f)) ∧
    (plainLength G t = if t = [] then none else some (CandEdge.total G t)) := by
  obtain ⟨h1, h3⟩ := cut_two h2 hc
  constructor
  · split_ifs with hf
    · rw [hf]; rfl
    · exact length_total hm (h1 hf) hc.from_
  · split_ifs with hf
    · rw [hf]; rfl
    · exact length_total hm (h3 hf) hc.to_

theorem segmentSum_line {G : Geo P R A} (hm : Metric G) (l : List P) : segmentSum G.len [l] = CandEdge.total G l := by
  induction l with
  | nil => rfl
  | cons x l ih =>
    cases l with
    | nil => rfl
    | cons y l =>
      rw [CandEdge.total, ← ih]
      simp only [segmentSum, List.flatMap_cons, List.flatMap_nil, List.append_nil, MatchRoute.segs_cons2, List.filter_cons]
      by_cases h : x = y
      · simp [h, hm.self]
      · simp [h]

theorem segmentSum_lines {G : Geo P R A} (hm : Metric G) (ls : List (List P)) :
    segmentSum G.len ls = (ls.map (CandEdge.total G)).sum := by
  induction ls with
  | nil => rfl
  | cons l ls ih => rw [show l :: ls = [l] ++ ls from rfl, segmentSum_append, ih, segmentSum_line hm]; simp

variable [Inhabited P]

theorem cand_eq {j : Job V P R A} {p : Entry} {c : Nat × CandEdge.Cand P R} (hc : j.entry p = some c) :
    (j.cand p).edge = c.1 ∧ (j.cand p).before.line = c.2.from_ ∧ (j.cand p).behind.line = c.2.to_ ∧ (j.cand p).proj = c.2.proj := by
  rw [Job.cand, hc]
  exact ⟨rfl, rfl, rfl, rfl⟩

theorem overlap_ahead {j : Job V P R A} {pos : V → P} {bounds : (R → Bool) → Prop} (hj : Ready j pos bounds) {p q : Entry}
    {c d : Nat × CandEdge.Cand P R} (hc : j.entry p = some c) (hd : j.entry q = some d) :
    (Ahead j c d → overlap j.env.G j.net.line (j.cand p) (j.cand q) =
      some (CandEdge.total j.env.G c.2.from_, CandEdge.total j.env.G d.2.from_)) ∧
    (¬ Ahead j c d → overlap j.env.G j.net.line (j.cand p) (j.cand q) = none) := by
  have hm := hj.plane.toMetric
  obtain ⟨c1, c2, c3, c4⟩ := cand_eq hc
  obtain ⟨d1, d2, d3, d4⟩ := cand_eq hd
  obtain ⟨e, he, e1, e2⟩ := hj.cut hc
  obtain ⟨e', he', e1', e2'⟩ := hj.cut hd
  have h2 := hj.laid.size e he
  have h2' := hj.laid.size e' he'
  obtain ⟨l1, l2⟩ := cut_length hm h2 e2
  obtain ⟨l3, _⟩ := cut_length hm h2' e2'
  have hw : plainLength j.env.G (j.net.line c.1) = some (CandEdge.total j.env.G e.line) := by
    rw [line_eq j.net e1]; exact length_total hm h2 (hj.laid.chain e he)
  unfold overlap
  rw [c1, c2, c3, d1, d2, l1, l2, l3, hw]
  constructor
  · rintro ⟨a1, a2, a3, a4, a5⟩
    rw [if_pos a1, if_neg a2, if_neg a3, if_neg a4]
    simp only
    rw [if_pos]
    refine ⟨?_, a5⟩
    rw [hm.add, ← e2.sum, add_comm]
    exact add_le_add le_rfl a5
  · intro hn
    by_cases a1 : c.1 = d.1
    · rw [if_pos a1]
      by_cases a2 : c.2.from_ = []
      · rw [if_pos a2]; split <;> simp_all
      by_cases a3 : c.2.to_ = []
      · rw [if_pos a3]
      by_cases a4 : d.2.from_ = []
      · rw [if_pos a4]; split <;> simp_all
      rw [if_neg a2, if_neg a3, if_neg a4]
      simp only
      rw [if_neg]
      rintro ⟨_, a5⟩
      exact hn ⟨a1, a2, a3, a4, a5⟩
    · rw [if_neg a1]

theorem sum_take_lt : ∀ (l : List Nat) (t k : Nat), l[t]? = some k → ∀ i, i < k → (l.take t).sum + i < l.sum := by
  intro l
  induction l with
  | nil => intro t k h; simp at h
  | cons x l ih =>
    intro t k h i hi
    cases t with
    | zero =>
      simp only [List.getElem?_cons_zero, Option.some.injEq] at h
      simp only [List.take_zero, List.sum_nil, List.sum_cons]
      omega
    | succ t =>
      rw [List.getElem?_cons_succ] at h
      have := ih t k h i hi
      simp only [List.take_succ_cons, List.sum_cons]
      omega

theorem held_cand {j : Job V P R A} {p : Entry} {c : Nat × CandEdge.Cand P R} (hc : j.entry p = some c) :
    Known (Held j) j.setting.free (j.cand p).before ∧ Known (Held j) j.setting.free (j.cand p).behind := by
  have hlt : j.place p < (j.cands.map List.length).sum := by
    unfold Job.entry at hc
    obtain ⟨cs, h1, h2⟩ := Option.bind_eq_some_iff.1 hc
    unfold Job.place
    rw [List.map_take]
    refine sum_take_lt _ p.1 cs.length ?_ p.2 ?_
    · rw [List.getElem?_map, h1]; rfl
    · rw [List.getElem?_eq_some_iff] at h2; exact h2.1
  have hfree : j.setting.free = j.net.edges.length + 2 * (j.cands.map List.length).sum := rfl
  have e1 : (j.cand p).before.addr = j.net.edges.length + 2 * j.place p := by rw [Job.cand, hc]
  have e2 : (j.cand p).behind.addr = j.net.edges.length + 2 * j.place p + 1 := by rw [Job.cand, hc]
  refine ⟨⟨.inr ⟨p, c, hc, .inl rfl⟩, ?_⟩, ⟨.inr ⟨p, c, hc, .inr rfl⟩, ?_⟩⟩
  · rw [e1, hfree]; omega
  · rw [e2, hfree]; omega

theorem held_edge {j : Job V P R A} {x : Ref P} {e : Edge V P} (h : j.net.edges[x.addr]? = some e) (hl : x.line = e.line) :
    Known (Held j) j.setting.free x := by
  refine ⟨.inl ⟨e, h, hl⟩, ?_⟩
  rw [List.getElem?_eq_some_iff] at h
  obtain ⟨h, _⟩ := h
  show x.addr < j.net.edges.length + _
  omega

/-- At the same place. -/
theorem leg_same {j : Job V P R A} {p q : Entry} (h : (j.cand p).proj = (j.cand q).proj) :
    j.setting.leg p q = .ok (Route.ofRefs []) :=
  (candidate_route_none j.setting.G j.setting.interp j.setting.turn j.setting.edgeLine j.setting.within j.setting.free _ _ _).1 h

/-- Further along the same edge. -/
theorem leg_edge {j : Job V P R A} {pos : V → P} {bounds : (R → Bool) → Prop} (hj : Ready j pos bounds) {p q : Entry}
    {c d : Nat × CandEdge.Cand P R} (hc : j.entry p = some c) (hd : j.entry q = some d) (hpq : p.1 ≠ q.1)
    (hne : c.2.proj ≠ d.2.proj) (ha : Ahead j c d) : Linked j.setting (Held j) p q ∧
      CandEdge.total j.env.G c.2.from_ < CandEdge.total j.env.G d.2.from_ ∧
      ∃ r, j.setting.leg p q = .ok r ∧ r.invalid = false ∧ (∀ l ∈ r.lines, ∀ sg ∈ segs l, OnEdge j sg.1 sg.2) ∧
        segmentSum j.env.G.len r.lines + CandEdge.total j.env.G c.2.from_ = CandEdge.total j.env.G d.2.from_ := by
  have hm := hj.plane.toMetric
  obtain ⟨c1, c2, c3, c4⟩ := cand_eq hc
  obtain ⟨d1, d2, d3, d4⟩ := cand_eq hd
  obtain ⟨e, he, e1, e2⟩ := hj.cut hc
  obtain ⟨e', he', e1', e2'⟩ := hj.cut hd
  have a1 := ha.1
  have hee : e' = e := by rw [← a1, e1] at e1'; exact (Option.some.inj e1').symm
  subst hee
  have h2 := hj.laid.size e' he
  have hch := hj.laid.chain e' he
  obtain ⟨l1, l2⟩ := cut_length hm h2 e2
  obtain ⟨l3, _⟩ := cut_length hm h2 e2'
  rw [if_neg ha.2.1] at l1
  rw [if_neg ha.2.2.1] at l2
  rw [if_neg ha.2.2.2.1] at l3
  obtain ⟨pre, s, u, post, hp⟩ := cut_place hm h2 e2 ha.2.1
  obtain ⟨pre', s', u', post', hp'⟩ := cut_place hm h2 e2' ha.2.2.2.1
  obtain ⟨hlt, hpc, htot⟩ := piece_pieces hj.plane hch hp hp' ha.2.2.2.2 hne
  have hpos : 0 < CandEdge.total j.env.G c.2.from_ := lt_of_le_of_lt (CandEdge.total_nonneg hm _) (place_le hm hp).1
  have hline : j.net.line (j.cand p).edge = e'.line := by rw [c1]; exact line_eq j.net e1
  have hne' : (j.setting.cand p).proj ≠ (j.setting.cand q).proj := by
    show (j.cand p).proj ≠ (j.cand q).proj
    rw [c4, d4]; exact hne
  have hend : ∃ x ∈ Substring.marks j.env.G e'.line, CandEdge.total j.env.G c.2.from_ < x.2 := by
    obtain ⟨k, z, hz⟩ : ∃ k z, e'.line = k ++ [z] := by
      rcases List.eq_nil_or_concat e'.line with h0 | ⟨k, z, h0⟩
      · rw [h0] at h2; simp at h2
      · exact ⟨k, z, by rw [h0]; simp⟩
    refine ⟨(z, CandEdge.total j.env.G e'.line), ?_, ?_⟩
    · rw [CandEdge.marks_M hm, hz, (CandEdge.M_last hm (hz ▸ hch) 0).1, zero_add]; simp
    · refine lt_of_lt_of_le hlt ?_
      rw [← e2'.sum]
      exact le_add_of_nonneg_right (CandEdge.total_nonneg hm _)
  have hwh : plainLength j.env.G e'.line = some (CandEdge.total j.env.G e'.line) := length_total hm h2 hch
  have hsum : CandEdge.total j.env.G e'.line ≤ j.env.G.addR (CandEdge.total j.env.G c.2.to_) (CandEdge.total j.env.G d.2.from_) := by
    rw [hm.add, ← e2.sum, add_comm]
    exact add_le_add le_rfl ha.2.2.2.2
  have hs : (Substring.marks j.env.G e'.line).Pairwise (fun x y => x.2 ≤ y.2) := by
    rw [CandEdge.marks_M hm]; exact CandEdge.M_sorted hm _ _
  have hl := candidate_route_same_edge_partial j.env.G j.env.interp j.turn j.net.line j.within j.free (j.path p q)
    (c := j.cand p) (d := j.cand q) (a := CandEdge.total j.env.G c.2.from_) (b := CandEdge.total j.env.G d.2.from_)
    (start := CandEdge.total j.env.G c.2.to_) (whole := CandEdge.total j.env.G e'.line) hne' (by rw [c1, d1, a1])
    (by rw [hline]; exact h2) (by rw [hline]; exact hch) (by rw [hline]; exact hs) (by rw [c2]; exact l1) (by rw [d2]; exact l3)
    (by rw [c3]; exact l2) (by rw [hline]; exact hwh) (by rw [hm.zero]; exact hpos) hlt hsum (by rw [hline]; exact hend)
  refine ⟨.edge _ _ _ _ hpq hne' ?_ ?_ ?_ ?_ (by show plainLength _ (j.cand p).before.line = _; rw [c2]; exact l1)
    (by show plainLength _ (j.cand q).before.line = _; rw [d2]; exact l3)
    (by show plainLength _ (j.cand p).behind.line = _; rw [c3]; exact l2) ?_ (by show j.env.G.zeroR < _; rw [hm.zero]; exact hpos) hlt
      hsum ?_, hlt, _, hl, rfl, ?_, ?_⟩
  · show (j.cand p).edge = (j.cand q).edge
    rw [c1, d1, a1]
  · show 2 ≤ (j.net.line (j.cand p).edge).length
    rw [hline]; exact h2
  · show (j.net.line (j.cand p).edge).IsChain _
    rw [hline]; exact hch
  · show (Substring.marks j.env.G (j.net.line (j.cand p).edge)).Pairwise _
    rw [hline]; exact hs
  · show plainLength j.env.G (j.net.line (j.cand p).edge) = _
    rw [hline]; exact hwh
  · show ∃ x ∈ Substring.marks j.env.G (j.net.line (j.cand p).edge), _
    rw [hline]; exact hend
  · simp only [Route.ofOwn, Route.lines, List.map_cons, List.map_nil, List.mem_singleton, forall_eq]
    rw [hline, c4, d4]
    intro sg hsg
    exact ⟨e', he, hpc sg hsg⟩
  · simp only [Route.ofOwn, Route.lines, List.map_cons, List.map_nil]
    rw [segmentSum_line hm, hline, c4, d4]
    exact htot

/-- Neither, and the cache has a path. -/
theorem leg_over {j : Job V P R A} {pos : V → P} {bounds : (R → Bool) → Prop} (hj : Ready j pos bounds) {p q : Entry}
    {c d : Nat × CandEdge.Cand P R} (hc : j.entry p = some c) (hd : j.entry q = some d) (hpq : p.1 ≠ q.1)
    (hne : c.2.proj ≠ d.2.proj) (ha : ¬ Ahead j c d) {a b : Edge V P} (hea : j.net.edges[c.1]? = some a)
    (heb : j.net.edges[d.1]? = some b) {vs : List V} (hf : j.found a.target b.source = some vs) :
    Linked j.setting (Held j) p q ∧ SP.Reachable (j.net.graph j.env.G) a.target b.source ∧
      ∃ r, j.setting.leg p q = .ok r ∧ r.invalid = false ∧ (j.within = false →
        (∀ l ∈ r.lines, ∀ sg ∈ segs l, OnEdge j sg.1 sg.2) ∧
        ((∀ b, bounds b → b = SP.noBound) → ∃ x, SP.MinCost (j.net.graph j.env.G) a.target b.source x ∧
          segmentSum j.env.G.len r.lines = CandEdge.total j.env.G c.2.to_ + x + CandEdge.total j.env.G d.2.from_)) := by
  have hm := hj.plane.toMetric
  obtain ⟨c1, c2, c3, c4⟩ := cand_eq hc
  obtain ⟨d1, d2, d3, d4⟩ := cand_eq hd
  obtain ⟨e, he, e1, e2⟩ := hj.cut hc
  obtain ⟨e', he', e1', e2'⟩ := hj.cut hd
  obtain rfl : e = a := by rw [hea] at e1; exact (Option.some.inj e1).symm
  obtain rfl : e' = b := by rw [heb] at e1'; exact (Option.some.inj e1').symm
  obtain ⟨refs, r1, r2, r3, r4, r5, r6⟩ := routed_path hj hf
  have hpath : j.path p q = Route.ofRefs refs := by
    rw [Job.path, hc, hd]
    simp only [Option.bind_some, hea, heb]
    exact r1
  have hov := (overlap_ahead hj hc hd).2 ha
  have hlc := (cut_leads (hj.laid.size e he) e2 (hj.laid.first e he) (hj.laid.last e he)).2
  have hld := (cut_leads (hj.laid.size e' he') e2' (hj.laid.first e' he') (hj.laid.last e' he')).1
  have hne' : (j.cand p).proj ≠ (j.cand q).proj := by rw [c4, d4]; exact hne
  have hlc' : Leads [(j.cand p).behind.line] (j.cand p).proj (pos e.target) := by rw [c3, c4]; exact hlc
  have hld' : Leads [(j.cand q).before.line] (pos e'.source) (j.cand q).proj := by rw [d2, d4]; exact hld
  have hk : ∀ x ∈ refs, Known (Held j) j.setting.free x ∧ x.line ≠ [] := by
    intro x hx
    obtain ⟨y, y1, y2, y3⟩ := r2 x hx
    refine ⟨held_edge y2 y3, ?_⟩
    have := hj.laid.size y y1
    rw [y3]; rintro h0; rw [h0] at this; simp at this
  have hl : Linked j.setting (Held j) p q := .over refs (pos e.target) (pos e'.source) hpq hpath hk r3 r4 (held_cand hc).2
    (held_cand hd).1 hlc' hld' hne' hov (.inr fun x hx => by
      obtain ⟨y, y1, y2, y3⟩ := r2 x hx
      rw [y3]; exact ⟨hj.laid.size y y1, hj.laid.chain y y1⟩)
  obtain ⟨_, r, h1, h2⟩ := hl.leg
  refine ⟨hl, r5, r, h1, h2.valid, fun hw => ?_⟩
  have ls := ofRefs_leg (ext := Held j) (held_cand hc).2.1 hlc'
  have le := ofRefs_leg (ext := Held j) (held_cand hd).1.1 hld'
  have lm : Leg (Held j) (Route.ofRefs refs) (pos e.target) (pos e'.source) := by
    refine ⟨rfl, ⟨j.setting.free, by simp [Route.ofRefs], by simp [Route.ofRefs], ?_, ?_⟩, r3, r4⟩
    · intro x hx; exact .inr (hk x hx).1.1
    · intro x hx; exact (hk x hx).1.2
  have hdrop : Drop ([(j.cand p).behind.line] ++ refs.map Ref.line ++ [(j.cand q).before.line]) r.lines := by
    have hlg : j.setting.leg p q = mergeAdjacent j.free [Route.ofRefs [(j.cand p).behind], Route.ofRefs refs, Route.ofRefs [(j.cand q).before]] := by
      show candidateRoute j.env.G j.env.interp j.turn j.net.line j.within j.free (j.path p q) (j.cand p) (j.cand q) = _
      rw [candidateRoute, if_neg hne', hov, hpath]
      simp only
      rw [if_neg (by simp [Route.ofRefs]), if_neg (by simp [hw])]
    rw [hlg] at h1
    have hm3 : merge false true ([Route.ofRefs [(j.cand p).behind], Route.ofRefs refs, Route.ofRefs [(j.cand q).before]].foldr
        (fun r n => max r.top n) j.free) [Route.ofRefs [(j.cand p).behind], Route.ofRefs refs, Route.ofRefs [(j.cand q).before]] = .ok r := by
      unfold mergeAdjacent at h1
      split_ifs at h1 with hg
      · have := h2.valid
        rw [← Outcome.ok.inj h1] at this
        simp [Route.bad] at this
      · exact h1
    have hgood : ∀ x ∈ [Route.ofRefs [(j.cand p).behind], Route.ofRefs refs, Route.ofRefs [(j.cand q).before]],
        Good (Held j) ([Route.ofRefs [(j.cand p).behind], Route.ofRefs refs, Route.ofRefs [(j.cand q).before]].foldr
          (fun r n => max r.top n) j.free) x := by
      intro x hx
      have hle := tops (next := j.free) hx
      have : ∃ n, Good (Held j) n x := by
        simp only [List.mem_cons, List.not_mem_nil, or_false] at hx
        rcases hx with rfl | rfl | rfl
        · exact ls.good
        · exact lm.good
        · exact le.good
      obtain ⟨n, hn⟩ := this
      exact hn.top hle
    have hconn : Connected ([Route.ofRefs [(j.cand p).behind], Route.ofRefs refs, Route.ofRefs [(j.cand q).before]].flatMap Route.lines) := by
      have h3 := connected_append ls.connected lm.connected ls.leads lm.leads
      have h4 := connected_append h3 le.connected (leads_append ls.leads lm.leads) le.leads
      simpa using h4
    obtain ⟨s, n, k1, k2, k3, k4, _⟩ := merge_parts (ext := Held j) true hgood (by simp [Route.ofRefs]) (by simp) hconn
    rw [hm3] at k1
    rw [Outcome.ok.inj k1, k4]
    have := drop_usable [Route.ofRefs [(j.cand p).behind], Route.ofRefs refs, Route.ofRefs [(j.cand q).before]] (by simp [Route.ofRefs])
    have hu : ∀ rs : List (Route P), (usable rs).flatten = (rs.filter Route.mergeable).flatMap Route.lines := fun _ => rfl
    rw [hu] at this
    simpa [Route.lines, Route.ofRefs] using this
  constructor
  · have hall : ∀ l ∈ [(j.cand p).behind.line] ++ refs.map Ref.line ++ [(j.cand q).before.line], ∀ sg ∈ segs l, OnEdge j sg.1 sg.2 := by
      intro l hl sg hsg
      rw [List.mem_append, List.mem_append, List.mem_singleton, List.mem_singleton, List.mem_map] at hl
      rcases hl with (rfl | ⟨x, hx, rfl⟩) | rfl
      · rw [c3] at hsg
        exact ⟨e, he, (cut_pieces hm e2).2 sg hsg⟩
      · obtain ⟨y, y1, y2, y3⟩ := r2 x hx
        rw [y3] at hsg
        exact ⟨y, y1, pieceOf_seg hm hsg⟩
      · rw [d2] at hsg
        exact ⟨e', he', (cut_pieces hm e2').1 sg hsg⟩
    intro l hl
    refine hall l ?_
    clear hall h1 h2
    generalize [(j.cand p).behind.line] ++ refs.map Ref.line ++ [(j.cand q).before.line] = ls at hdrop
    generalize r.lines = ms at hdrop hl
    induction hdrop with
    | nil => exact hl
    | keep x _ ih =>
      rcases List.mem_cons.1 hl with rfl | hl
      · exact List.mem_cons_self
      · exact List.mem_cons_of_mem _ (ih hl)
    | drop x _ _ ih => exact List.mem_cons_of_mem _ (ih hl)
  · intro hbb
    refine ⟨_, r6 hbb, ?_⟩
    rw [← drop_segmentSum _ hdrop, segmentSum_lines hm, List.map_append, List.map_append, List.sum_append, List.sum_append, c3, d2]
    simp [Function.comp_def]

/-- Neither, and the cache has none. -/
theorem leg_none {j : Job V P R A} {pos : V → P} {bounds : (R → Bool) → Prop} (hj : Ready j pos bounds) {p q : Entry}
    {c d : Nat × CandEdge.Cand P R} (hc : j.entry p = some c) (hd : j.entry q = some d)
    (hne : c.2.proj ≠ d.2.proj) (ha : ¬ Ahead j c d) {a b : Edge V P} (hea : j.net.edges[c.1]? = some a)
    (heb : j.net.edges[d.1]? = some b) (hf : j.found a.target b.source = none) : j.setting.leg p q = .ok Route.bad := by
  obtain ⟨_, _, _, c4⟩ := cand_eq hc
  obtain ⟨_, _, _, d4⟩ := cand_eq hd
  have hpath : j.path p q = Route.bad := by
    rw [Job.path, hc, hd]
    simp only [Option.bind_some, hea, heb]
    rw [Job.routed, hf]
  refine (candidate_route_none j.env.G j.env.interp j.turn j.net.line j.within j.free (j.path p q) (j.cand p) (j.cand q)).2 ?_
    ((overlap_ahead hj hc hd).2 ha) (by rw [hpath]; rfl)
  rw [c4, d4]; exact hne

end MM.Pipe
