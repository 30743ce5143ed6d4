import Verif.Model.Seek
import Verif.Props.Pipeline
import Verif.Props.Candidates
import Verif.Props.NextSearch

/-!
# C102: the match is the best among the roads near the points

The search for candidates together with the match (`Props/Pipeline.lean`).
-/

set_option autoImplicit false
set_option linter.unusedSectionVars false

namespace MM.Pipe

open MM.Line MM.Route MM.Router MM.CandEdge MM.MatchRoute

variable {V P A : Type} [DecidableEq V] [DecidableEq P]

/-! ### Notions of the statements -/

/-- `c` is at the projection of point `p` (number `i`) on edge `e`, and divides it there. -/
def Beside (h : Hunt V P ℝ A) (i : Nat) (p : P) (e : Nat) (c : CandEdge.Cand P ℝ) : Prop :=
  ∃ x, h.net.edges[e]? = some x ∧ c.proj = (snapped h.env (h.switch i e) p x.line).1 ∧ Divides x.line c.proj c.from_ c.to_

/-- The search for point number `i` finds the edges `E i`, each once; the projection on each is an end of the edge or on it at
one place. -/
structure Finds (h : Hunt V P ℝ A) (pos : V → P) (fuel : Nat) (E : Nat → List Nat) : Prop where
  plane : Plane h.env.G
  laid : Laid h.net pos
  edges : ∀ i p, h.track[i]? = some p → h.edges fuel i p = some (.ok (E i)) ∧ (E i).Nodup
  clear : ∀ i p, h.track[i]? = some p → ∀ e ∈ E i, ∃ x, h.net.edges[e]? = some x ∧
    At h.env x.line (snapped h.env (h.switch i e) p x.line).1

/-! ### Divisions and sets -/

theorem candidate_place {h : Hunt V P ℝ A} {pos : V → P} (hp : Plane h.env.G) (hl : Laid h.net pos) {i : Nat} {p : P} {e : Nat}
    {x : Edge V P} (hx : h.net.edges[e]? = some x) (hat : At h.env x.line (snapped h.env (h.switch i e) p x.line).1) :
    ∃ d, candidate h.env (h.switch i e) p (h.net.line e) = some (.ok d) ∧ Beside h i p e d ∧ d.dist = h.env.G.len p d.proj := by
  have he := List.mem_of_getElem? hx
  have hm := hp.toMetric
  have hy := (CandEdge.projection h.env hm (h.switch i e) p x.line).1
  obtain ⟨c, k1, k2, k3, k4, _⟩ := divides_partial h.env hm p _ hy (hl.size x he) (hl.chain x he) hat
  refine ⟨c, ?_, ⟨x, hx, k2, k4⟩, k3⟩
  unfold candidate
  rw [line_eq h.net hx, k1, if_pos]
  rw [length_total hm (hl.size x he) (hl.chain x he)]
  rfl

theorem divisions_ok {h : Hunt V P ℝ A} {pos : V → P} (hp : Plane h.env.G) (hl : Laid h.net pos) {i : Nat} {p : P} :
    ∀ es : List Nat, (∀ e ∈ es, ∃ x, h.net.edges[e]? = some x ∧ At h.env x.line (snapped h.env (h.switch i e) p x.line).1) →
    ∃ cs, h.divisions i p es = .ok cs ∧ cs.map Cand.CE.edge = es ∧ ∀ c ∈ cs, ∃ d,
      candidate h.env (h.switch i c.edge) p (h.net.line c.edge) = some (.ok d) ∧ Beside h i p c.edge d ∧
      d.dist = h.env.G.len p d.proj ∧ c = spot c.edge d := by
  intro es
  induction es with
  | nil => intro _; exact ⟨[], rfl, rfl, by simp⟩
  | cons e es ih =>
    intro hes
    obtain ⟨cs, h1, h2, h3⟩ := ih (fun x hx => hes x (List.mem_cons_of_mem _ hx))
    obtain ⟨x, hx, hat⟩ := hes e (by simp)
    obtain ⟨d, k1, k2, k3⟩ := candidate_place hp hl hx hat
    refine ⟨spot e d :: cs, ?_, by simp [h2, spot], ?_⟩
    · rw [Hunt.divisions, k1, h1]; rfl
    · intro c hc
      rcases List.mem_cons.1 hc with rfl | hc
      · exact ⟨d, k1, k2, k3, rfl⟩
      · exact h3 c hc

theorem gathered_spec (cs : List (Spot P ℝ)) : (gathered cs).Perm cs ∧ Cand.Ordered (gathered cs) := by
  have key : ∀ (cs s : List (Spot P ℝ)), Cand.Ordered s →
      (cs.foldl (fun s c => NextSearch.insertBy Cand.CE.dist c s) s).Perm (cs ++ s) ∧
      Cand.Ordered (cs.foldl (fun s c => NextSearch.insertBy Cand.CE.dist c s) s) := by
    intro cs
    induction cs with
    | nil => intro s h; exact ⟨List.Perm.refl _, h⟩
    | cons c cs ih =>
      intro s h
      obtain ⟨h1, h2⟩ := ih _ (NextSearch.insertBy_sorted Cand.CE.dist c s h)
      refine ⟨?_, h2⟩
      refine h1.trans ((List.Perm.append_left cs (NextSearch.insertBy_perm Cand.CE.dist c s)).trans ?_)
      exact List.perm_middle
  have := key cs [] List.Pairwise.nil
  rwa [List.append_nil] at this

theorem setsFrom_ok {h : Hunt V P ℝ A} {fuel : Nat} {S : Nat → List (Spot P ℝ)} : ∀ (ps : List P) (i : Nat),
    (∀ k p, ps[k]? = some p → h.setOf fuel (i + k) p = some (.ok (S (i + k)))) →
    h.setsFrom fuel i ps = some (.ok ((List.range ps.length).map fun k => S (i + k))) := by
  intro ps
  induction ps with
  | nil => intro i _; rfl
  | cons p ps ih =>
    intro i hs
    have h0 := hs 0 p rfl
    have h1 := ih (i + 1) (fun k q hk => by
      have := hs (k + 1) q (by simpa using hk)
      rwa [show i + (k + 1) = i + 1 + k by omega] at this)
    rw [Nat.add_zero] at h0
    rw [Hunt.setsFrom, h0]
    simp only [Nat.add_zero, h1, Option.map_some, Outcome.map_ok, List.length_cons, List.range_succ_eq_map, List.map_cons,
      List.map_map, Option.some.injEq, Outcome.ok.injEq, List.cons.injEq, true_and]
    refine List.map_congr_left (fun k _ => ?_)
    show S (i + 1 + k) = S (i + (k + 1))
    congr 1; omega

/-- The sets before adoption. -/
theorem Finds.sets {h : Hunt V P ℝ A} {pos : V → P} {fuel : Nat} {E : Nat → List Nat} (hf : Finds h pos fuel E) :
    ∃ S : Nat → List (Spot P ℝ), h.setsFrom fuel 0 h.track = some (.ok ((List.range h.track.length).map S)) ∧
      ∀ i p, h.track[i]? = some p → ((S i).map Cand.CE.edge).Perm (E i) ∧ Cand.Ordered (S i) ∧ ∀ c ∈ S i, ∃ d,
        candidate h.env (h.switch i c.edge) p (h.net.line c.edge) = some (.ok d) ∧ Beside h i p c.edge d ∧
        d.dist = h.env.G.len p d.proj ∧ c = spot c.edge d := by
  have hone : ∀ i, ∃ s : List (Spot P ℝ), ∀ p, h.track[i]? = some p → h.setOf fuel i p = some (.ok s) ∧
      (s.map Cand.CE.edge).Perm (E i) ∧ Cand.Ordered s ∧ ∀ c ∈ s, ∃ d,
        candidate h.env (h.switch i c.edge) p (h.net.line c.edge) = some (.ok d) ∧ Beside h i p c.edge d ∧
        d.dist = h.env.G.len p d.proj ∧ c = spot c.edge d := by
    intro i
    cases hp : h.track[i]? with
    | none => exact ⟨[], by simp⟩
    | some p =>
      obtain ⟨cs, h1, h2, h3⟩ := divisions_ok hf.plane hf.laid (E i) (hf.clear i p hp)
      obtain ⟨g1, g2⟩ := gathered_spec cs
      refine ⟨gathered cs, ?_⟩
      intro p' hp'
      cases hp'
      refine ⟨?_, ?_, g2, ?_⟩
      · rw [Hunt.setOf, (hf.edges i p hp).1]
        simp [h1]
      · rw [← h2]; exact g1.map _
      · intro c hc; exact h3 c (g1.mem_iff.1 hc)
  choose S hS using hone
  refine ⟨S, ?_, fun i p hp => (hS i p hp).2⟩
  have := setsFrom_ok (h := h) (fuel := fuel) (S := S) h.track 0 (fun k p hk => by
    rw [Nat.zero_add]; exact (hS k p hk).1)
  simpa using this

/-! ### Candidates -/

variable [Inhabited P]

theorem getD_range {α : Type} (n i : Nat) (f : Nat → List α) : ((List.range n).map f).getD i [] = if i < n then f i else [] := by
  rw [List.getD_eq_getElem?_getD, List.getElem?_map]
  split_ifs with h
  · simp [h]
  · simp [h]

theorem path_pt {h : Hunt V P ℝ A} {i : Nat} {p : P} (hp : h.track[i]? = some p) : h.path.pt i = p := by
  simp [Hunt.path, hp]

/-- The candidates a search leaves: where the edges `E i` are found for point `i`, it gets a candidate at its projection on each of
them, in order of distance and no place twice; any other is one at the projection of another point on an edge found for that, a
neighbour or, with adoption of nearby candidates, any; neighbours' are complete if siblings are adopted.  The distance is that from
the point itself. -/
structure Sought (h : Hunt V P ℝ A) (E : Nat → List Nat) (cs : List (List (Nat × CandEdge.Cand P ℝ))) : Prop where
  size : cs.length = h.track.length
  own : ∀ i p, h.track[i]? = some p → ∀ e ∈ E i, ∃ c, (e, c) ∈ cs.getD i [] ∧ Beside h i p e c
  only : ∀ i p, h.track[i]? = some p → ∀ x ∈ cs.getD i [], x.2.dist = h.env.G.len p x.2.proj ∧
    ((x.1 ∈ E i ∧ Beside h i p x.1 x.2) ∨ ∃ k q, k ≠ i ∧ h.track[k]? = some q ∧ x.1 ∈ E k ∧ Beside h k q x.1 x.2 ∧
      (h.nearby = true ∨ (h.siblings = true ∧ (k + 1 = i ∨ i + 1 = k))))
  near : ∀ i k q, h.siblings = true → i < h.track.length → h.track[k]? = some q → (k + 1 = i ∨ i + 1 = k) → ∀ e ∈ E k,
    ∃ c, (e, c) ∈ cs.getD i [] ∧ ∃ x, h.net.edges[e]? = some x ∧ c.proj = (snapped h.env (h.switch k e) q x.line).1
  order : ∀ i, (cs.getD i []).Pairwise (fun a b => a.2.dist ≤ b.2.dist)
  once : ∀ i, (cs.getD i []).Pairwise (fun a b => ¬ (a.1 = b.1 ∧ a.2.proj = b.2.proj))

/-- As `Ready` has it. -/
def Divided (h : Hunt V P ℝ A) (cs : List (List (Nat × CandEdge.Cand P ℝ))) : Prop :=
  ∀ s ∈ cs, ∀ c ∈ s, ∃ e p switch d, h.net.edges[c.1]? = some e ∧ candidate h.env switch p e.line = some (.ok d) ∧
    At h.env e.line (snapped h.env switch p e.line).1 ∧ c.2.proj = d.proj ∧ c.2.from_ = d.from_ ∧ c.2.to_ = d.to_

theorem sought_spots {h : Hunt V P ℝ A} {pos : V → P} {fuel : Nat} {E : Nat → List Nat} (hf : Finds h pos fuel E) :
    ∃ cs, h.candidates fuel = some (.ok cs) ∧ Sought h E cs ∧ Divided h cs := by
  obtain ⟨S, h1, h2⟩ := hf.sets
  set s0 : Nat → List (Spot P ℝ) := fun i => ((List.range h.track.length).map S).getD i [] with hs0
  have hS : ∀ i p, h.track[i]? = some p → s0 i = S i := by
    intro i p hp
    have hi : i < h.track.length := (List.getElem?_eq_some_iff.1 hp).1
    rw [hs0]; simp only [getD_range, if_pos hi]
  have hs1 : ∀ i, s0 i = if i < h.track.length then S i else [] := fun i => getD_range _ _ _
  have hmem : ∀ {i : Nat} {c : Spot P ℝ}, c ∈ s0 i → ∃ p, h.track[i]? = some p ∧ c ∈ S i := by
    intro i c hc
    by_cases hi : i < h.track.length
    · refine ⟨h.track[i], by simp [hi], ?_⟩
      rwa [hs1, if_pos hi] at hc
    · rw [hs1, if_neg hi] at hc
      simp at hc
  have hfresh : Cand.Fresh h.path s0 := by
    refine ⟨fun i c hc => ?_, fun i => ?_, fun i c hc => ?_⟩
    · obtain ⟨p, hp, hc⟩ := hmem hc
      obtain ⟨d, _, _, _, h6⟩ := (h2 i p hp).2.2 c hc
      rw [h6]; rfl
    · cases hp : h.track[i]? with
      | none =>
        have hi : ¬ i < h.track.length := by simpa using hp
        rw [hs0]; simp only [getD_range, if_neg hi]; exact List.Pairwise.nil
      | some p =>
        rw [hS i p hp]
        have hn := (h2 i p hp).1.nodup_iff.2 (hf.edges i p hp).2
        exact List.pairwise_map.1 hn
    · obtain ⟨p, hp, hc⟩ := hmem hc
      obtain ⟨d, _, _, h5, h6⟩ := (h2 i p hp).2.2 c hc
      rw [path_pt hp, h6]
      exact h5
  have hord0 : ∀ i, Cand.Ordered (s0 i) := by
    intro i
    cases hp : h.track[i]? with
    | none =>
      have hi : ¬ i < h.track.length := by simpa using hp
      rw [hs0]; simp only [getD_range, if_neg hi]; exact List.Pairwise.nil
    | some p => rw [hS i p hp]; exact (h2 i p hp).2.1
  obtain ⟨a1, a2, a3⟩ := Cand.adoption_sound_partial h.path h.nearby h.reverse h.siblings s0 hfresh
  have hord := Cand.adopt_ordered h.path h.nearby h.reverse h.siblings s0 hord0
  set D := Cand.adopt h.path h.nearby h.reverse h.siblings s0 with hD
  set cs : List (List (Nat × CandEdge.Cand P ℝ)) := (List.range h.track.length).map fun i => (D i).map plain with hcs
  have hget : ∀ i, cs.getD i [] = if i < h.track.length then (D i).map plain else [] := by
    intro i; rw [hcs, getD_range]
  have hlt : ∀ {i : Nat} {p : P}, h.track[i]? = some p → i < h.track.length := fun hp => (List.getElem?_eq_some_iff.1 hp).1
  -- every candidate and its origin
  have horigin : ∀ {i : Nat} {c : Spot P ℝ}, i < h.track.length → c ∈ D i → ∃ k q, h.track[k]? = some q ∧ ∃ c0 ∈ S k, plain c =
      (c0.edge, ⟨c0.proj, c.dist, c0.lines.1, c0.lines.2⟩) ∧ c.dist = h.path.d (h.path.pt i) c0.proj ∧ (k = i ∨ (k ≠ i ∧
      (h.nearby = true ∨ (h.siblings = true ∧ (k + 1 = i ∨ i + 1 = k))))) := by
    intro i c hi hc
    cases hca : c.adopted with
    | false =>
      have hown : c ∈ Cand.own (D i) := List.mem_filter.2 ⟨hc, by simp [hca]⟩
      rw [a1 i] at hown
      obtain ⟨p, hp, hc'⟩ := hmem hown
      refine ⟨i, p, hp, c, hc', rfl, hfresh.dist i c hown, .inl rfl⟩
    | true =>
      obtain ⟨k, c0, hc0, b1, b2, b3, b4, b5⟩ := a2 i c hc hca
      obtain ⟨q, hq, hc0'⟩ := hmem hc0
      refine ⟨k, q, hq, c0, hc0', ?_, b4, .inr ⟨fun hk => b5.1 hk.symm, ?_⟩⟩
      · unfold plain; rw [b1, b2, b3]
      · rcases b5.2 with ⟨b6, b7⟩ | ⟨b6, _⟩ | ⟨b6, _⟩
        · exact .inr ⟨b6, b7⟩
        · exact .inl b6
        · exact .inl b6
  refine ⟨cs, ?_, ⟨?_, ?_, ?_, ?_, ?_, ?_⟩, ?_⟩
  · rw [Hunt.candidates, h1]
    simp only [Option.map_some, Outcome.map_ok, Hunt.finished, List.map_map, Option.some.injEq, Outcome.ok.injEq]
    rfl
  · simp [hcs]
  · intro i p hp e he
    obtain ⟨c, hc, rfl⟩ := List.mem_map.1 ((h2 i p hp).1.mem_iff.2 he)
    obtain ⟨d, _, h4, _, h6⟩ := (h2 i p hp).2.2 c hc
    have hown : c ∈ D i := by
      have : c ∈ Cand.own (D i) := by rw [a1 i, hS i p hp]; exact hc
      exact (List.mem_filter.1 this).1
    refine ⟨d, ?_, h4⟩
    rw [hget, if_pos (hlt hp)]
    refine List.mem_map.2 ⟨c, hown, ?_⟩
    rw [h6]; rfl
  · intro i p hp x hx
    rw [hget, if_pos (hlt hp)] at hx
    obtain ⟨c, hc, rfl⟩ := List.mem_map.1 hx
    obtain ⟨k, q, hq, c0, hc0, b1, b2, b3⟩ := horigin (hlt hp) hc
    obtain ⟨d, _, h4, _, h6⟩ := (h2 k q hq).2.2 c0 hc0
    have hE : c0.edge ∈ E k := (h2 k q hq).1.mem_iff.1 (List.mem_map.2 ⟨c0, hc0, rfl⟩)
    have hbes : Beside h k q (plain c).1 (plain c).2 := by
      rw [b1]
      obtain ⟨x, k1, k2, k3⟩ := h4
      have e1 : c0.proj = d.proj := by rw [h6]; rfl
      have e2 : c0.lines = (d.from_, d.to_) := by rw [h6]; rfl
      refine ⟨x, k1, ?_, ?_⟩
      · simpa [e1] using k2
      · simpa [e1, e2] using k3
    refine ⟨?_, ?_⟩
    · show c.dist = _
      rw [b2, b1]
      show h.env.G.len (h.path.pt i) c0.proj = _
      rw [path_pt hp]
    · rcases b3 with rfl | ⟨b3, b4⟩
      · left
        rw [hp] at hq; cases hq
        exact ⟨by rw [b1]; exact hE, hbes⟩
      · exact .inr ⟨k, q, b3, hq, by rw [b1]; exact hE, hbes, b4⟩
  · intro i k q hsib hi hq hik e he
    obtain ⟨c, hc, rfl⟩ := List.mem_map.1 ((h2 k q hq).1.mem_iff.2 he)
    obtain ⟨d, _, h4, _, h6⟩ := (h2 k q hq).2.2 c hc
    obtain ⟨x, hx, ht⟩ := Cand.siblings_complete h.path h.nearby h.reverse s0 hfresh i k hi (hlt hq) hik c (by rw [hS k q hq]; exact hc)
    rw [← hsib] at hx
    refine ⟨(plain x).2, ?_, ?_⟩
    · rw [hget, if_pos hi]
      refine List.mem_map.2 ⟨x, hx, ?_⟩
      unfold plain
      rw [ht.1]
    · obtain ⟨y, k1, k2, _⟩ := h4
      refine ⟨y, k1, ?_⟩
      have e1 : c.proj = d.proj := by rw [h6]; rfl
      show x.proj = _
      rw [ht.2, e1]; exact k2
  · intro i
    rw [hget]
    split_ifs with hi
    · exact List.pairwise_map.2 (hord i)
    · exact List.Pairwise.nil
  · intro i
    rw [hget]
    split_ifs with hi
    · exact List.pairwise_map.2 (a3 i)
    · exact List.Pairwise.nil
  · intro s hs x hx
    obtain ⟨i, hi, rfl⟩ := List.mem_map.1 hs
    obtain ⟨c, hc, rfl⟩ := List.mem_map.1 hx
    obtain ⟨k, q, hq, c0, hc0, b1, _, _⟩ := horigin (List.mem_range.1 hi) hc
    obtain ⟨d, h3, _, _, h6⟩ := (h2 k q hq).2.2 c0 hc0
    have hE : c0.edge ∈ E k := (h2 k q hq).1.mem_iff.1 (List.mem_map.2 ⟨c0, hc0, rfl⟩)
    obtain ⟨x, hx, hat⟩ := hf.clear k q hq _ hE
    have e1 : c0.proj = d.proj := by rw [h6]; rfl
    have e2 : c0.lines = (d.from_, d.to_) := by rw [h6]; rfl
    rw [b1]
    refine ⟨x, q, h.switch k c0.edge, d, hx, ?_, hat, e1, by simp [e2], by simp [e2]⟩
    rw [← line_eq h.net hx]; exact h3

/-! ### Search within a radius -/

/-- The radius does not shrink below that of the first round. -/
theorem search_least {R E : Type} [CommRing R] [LinearOrder R] [IsStrictOrderedRing R] (s : Cand.Search R E) :
    ∀ (fuel : Nat) (a : Bool) (cur : R) (prev : List E) (r : R)
    (es : List E), Cand.search s fuel a cur prev = some (.ok (r, es)) → 0 ≤ Cand.clamp s a cur → Cand.clamp s a cur ≤ r := by
  intro fuel
  induction fuel with
  | zero => intro a cur prev r es h; simp [Cand.search] at h
  | succ fuel ih =>
    intro a cur prev r es h h0
    unfold Cand.search at h
    split_ifs at h with h1 h2
    · cases h
    · have hup := Cand.clamp_le s a cur
      have hle : Cand.clamp s a cur ≤ Cand.clamp s false (Cand.clamp s a cur * 2) := by
        rw [Cand.clamp_false]
        refine le_min ?_ hup
        linarith
      exact hle.trans (ih _ _ _ _ _ h (h0.trans hle))
    · simp only [Option.some.injEq, Outcome.ok.injEq, Prod.mk.injEq] at h
      rw [← h.1]

/-- The radius within which every edge is considered: the smaller of radius (with an adaptive radius, reduced to the length of the
adjacent segments of the track but not below the lower limit) and upper limit. -/
def Hunt.reach (h : Hunt V P ℝ A) (i : Nat) : ℝ :=
  min (if h.adaptive then max (((if 0 < i then (h.step (i - 1)).toList else []) ++ (h.step i).toList).foldl min h.radius) h.lower
    else h.radius) h.upper

/-- The setting of the mode CIRCLE: straight segments, lines from node to node, an index that answers with the edges within the box,
positive radii; for edges within the upper limit, the projection is an end of the edge or on it at one place. -/
structure Circle (h : Hunt V P ℝ A) (pos : V → P) : Prop where
  plane : Plane h.env.G
  laid : Laid h.net pos
  mode : h.mode = .circle
  sorted : ∀ p r, 0 < r → (h.box p r).Pairwise (· < ·)
  inside : ∀ p r, 0 < r → ∀ e ∈ h.box p r, e < h.net.edges.length
  within : ∀ p r, 0 < r → ∀ e x, h.net.edges[e]? = some x → h.gap p x.line ≤ r → e ∈ h.box p r
  radius : 0 < h.upper ∧ if h.adaptive then 0 < h.lower else 0 < h.radius
  clear : ∀ i p e x, h.track[i]? = some p → h.net.edges[e]? = some x → h.gap p x.line ≤ h.upper →
    At h.env x.line (snapped h.env (h.switch i e) p x.line).1

theorem reach_eq (h : Hunt V P ℝ A) (i : Nat) (p : P) : Cand.clamp (h.looks i p) h.adaptive h.radius = h.reach i := by
  unfold Cand.clamp Hunt.reach Hunt.looks
  simp only
  congr 1
  split_ifs with h1 h2
  · congr 1
    cases h.step (i - 1) <;> cases h.step i <;> simp [Cand.minOpt]
  · congr 1
    cases h.step i <;> simp [Cand.minOpt]
  · rfl

theorem Circle.reach_pos {h : Hunt V P ℝ A} {pos : V → P} (hc : Circle h pos) (i : Nat) : 0 < h.reach i := by
  obtain ⟨h1, h2⟩ := hc.radius
  unfold Hunt.reach
  refine lt_min ?_ h1
  by_cases ha : h.adaptive = true
  · rw [if_pos ha] at h2 ⊢
    exact lt_max_of_lt_right h2
  · rw [if_neg ha] at h2 ⊢
    exact h2

/-- What is found for the points: the edges within a radius from `reach` to the upper limit; it is greater than `reach` only if
nothing is within `reach`, and nothing is found only if nothing is within the upper limit. -/
def Ranges (h : Hunt V P ℝ A) (E : Nat → List Nat) : Prop :=
  ∀ i p, h.track[i]? = some p → ∃ r, h.reach i ≤ r ∧ r ≤ h.upper ∧
    (∀ e, e ∈ E i ↔ ∃ x, h.net.edges[e]? = some x ∧ h.gap p x.line ≤ r) ∧
    ((∃ (e : Nat) (x : Edge V P), h.net.edges[e]? = some x ∧ h.gap p x.line ≤ h.upper) → E i ≠ []) ∧
    ((∃ (e : Nat) (x : Edge V P), h.net.edges[e]? = some x ∧ h.gap p x.line ≤ h.reach i) → r = h.reach i)

theorem circle_one {h : Hunt V P ℝ A} {pos : V → P} (hc : Circle h pos) (i : Nat) (p : P) :
    ∃ fuel es r, (∀ k, h.edges (fuel + k) i p = some (.ok es)) ∧ es.Nodup ∧ h.reach i ≤ r ∧ r ≤ h.upper ∧
      (∀ e, e ∈ es ↔ ∃ x, h.net.edges[e]? = some x ∧ h.gap p x.line ≤ r) ∧
      ((∃ (e : Nat) (x : Edge V P), h.net.edges[e]? = some x ∧ h.gap p x.line ≤ h.upper) → es ≠ []) ∧
      ((∃ (e : Nat) (x : Edge V P), h.net.edges[e]? = some x ∧ h.gap p x.line ≤ h.reach i) → r = h.reach i) := by
  have hcirc : (h.looks i p).circle = true := by simp [Hunt.looks, hc.mode]
  have hpos : 0 < Cand.clamp (h.looks i p) h.adaptive h.radius := by rw [reach_eq]; exact hc.reach_pos i
  obtain ⟨fuel, r, es, hs⟩ := Cand.search_ends (h.looks i p) h.adaptive h.radius [] hpos
  obtain ⟨s1, _, s3, s4, _⟩ := Cand.search_result _ fuel _ _ _ _ _ hs
  have s5 := Cand.search_pos _ hcirc fuel _ _ _ _ _ hs
  have s6 := search_least _ fuel _ _ _ _ _ hs hpos.le
  rw [reach_eq] at s6
  have hround : ∀ {r : ℝ}, 0 < r → ∀ e, e ∈ (h.box p r).filter (fun e => decide (h.gap p (h.net.line e) ≤ r)) ↔
      ∃ x, h.net.edges[e]? = some x ∧ h.gap p x.line ≤ r := by
    intro r hr e
    rw [List.mem_filter, decide_eq_true_eq]
    constructor
    · rintro ⟨b1, b2⟩
      obtain ⟨x, hx⟩ : ∃ x, h.net.edges[e]? = some x := ⟨_, List.getElem?_eq_getElem (hc.inside p r hr e b1)⟩
      rw [line_eq h.net hx] at b2
      exact ⟨_, hx, b2⟩
    · rintro ⟨x, b1, b2⟩
      refine ⟨hc.within p r hr e x b1 b2, ?_⟩
      rw [line_eq h.net b1]; exact b2
  have hes : es = (h.box p r).filter (fun e => decide (h.gap p (h.net.line e) ≤ r)) := s4 hcirc
  have hmem : ∀ e, e ∈ es ↔ ∃ x, h.net.edges[e]? = some x ∧ h.gap p x.line ≤ r := by
    intro e; rw [hes]; exact hround s5 e
  refine ⟨fuel, es, r, ?_, ?_, s6, s1, hmem, ?_, ?_⟩
  · intro k
    have := Cand.search_stable _ fuel _ _ _ _ hs k
    rw [Hunt.edges, hc.mode]
    simp only [Cand.radiusSearch, hcirc, if_true]
    rw [show (h.looks i p).radius = h.radius from rfl, this]
    rfl
  · rw [hes]
    exact ((hc.sorted p r s5).imp (fun hlt => Nat.ne_of_lt hlt)).filter _
  · rintro ⟨e, x, h1, h2⟩ hnil
    have hr : r = h.upper := s3 hnil
    have := (hmem e).2 ⟨x, h1, by rw [hr]; exact h2⟩
    rw [hnil] at this
    simp at this
  · rintro ⟨e, x, h1, h2⟩
    cases fuel with
    | zero => simp [Cand.search] at hs
    | succ fuel =>
      have hm : e ∈ Cand.round (h.looks i p) (Cand.clamp (h.looks i p) h.adaptive h.radius) [] := by
        unfold Cand.round
        rw [reach_eq, if_pos hcirc]
        exact (hround (hc.reach_pos i) e).2 ⟨x, h1, h2⟩
      unfold Cand.search at hs
      rw [if_neg (by simp [hcirc, hpos]), if_neg] at hs
      · simp only [Option.some.injEq, Outcome.ok.injEq, Prod.mk.injEq] at hs
        rw [← hs.1, reach_eq]
      · intro hcon
        rw [Bool.and_eq_true, List.isEmpty_iff] at hcon
        rw [hcon.1] at hm
        simp at hm

theorem circle_finds {h : Hunt V P ℝ A} {pos : V → P} (hc : Circle h pos) :
    ∃ fuel E, Finds h pos fuel E ∧ Ranges h E := by
  have hone : ∀ i, ∃ fuel es, ∀ p, h.track[i]? = some p → (∀ k, h.edges (fuel + k) i p = some (.ok es)) ∧ es.Nodup ∧
      ∃ r, h.reach i ≤ r ∧ r ≤ h.upper ∧ (∀ e, e ∈ es ↔ ∃ x, h.net.edges[e]? = some x ∧ h.gap p x.line ≤ r) ∧
      ((∃ (e : Nat) (x : Edge V P), h.net.edges[e]? = some x ∧ h.gap p x.line ≤ h.upper) → es ≠ []) ∧
      ((∃ (e : Nat) (x : Edge V P), h.net.edges[e]? = some x ∧ h.gap p x.line ≤ h.reach i) → r = h.reach i) := by
    intro i
    cases hp : h.track[i]? with
    | none => exact ⟨0, [], by simp⟩
    | some p =>
      obtain ⟨fuel, es, r, h1, h2, h3⟩ := circle_one hc i p
      refine ⟨fuel, es, ?_⟩
      intro q hq
      cases hq
      exact ⟨h1, h2, r, h3⟩
  choose fuel E hE using hone
  have hle : ∀ i, i < h.track.length → fuel i ≤ ∑ k ∈ Finset.range h.track.length, fuel k := fun i hi =>
    Finset.single_le_sum (f := fuel) (fun _ _ => Nat.zero_le _) (Finset.mem_range.2 hi)
  refine ⟨∑ k ∈ Finset.range h.track.length, fuel k, E, ⟨hc.plane, hc.laid, ?_, ?_⟩, fun i p hp => (hE i p hp).2.2⟩
  · intro i p hp
    obtain ⟨h1, h2, _⟩ := hE i p hp
    have hi := hle i (List.getElem?_eq_some_iff.1 hp).1
    refine ⟨?_, h2⟩
    have := h1 (∑ k ∈ Finset.range h.track.length, fuel k - fuel i)
    rwa [Nat.add_sub_cancel' hi] at this
  · intro i p hp e he
    obtain ⟨_, _, r, _, h4, h5, _⟩ := hE i p hp
    obtain ⟨x, h6, h7⟩ := (h5 e).1 he
    exact ⟨x, h6, hc.clear i p e x hp h6 (h7.trans h4)⟩

/-- **C102, candidates.**  In mode CIRCLE the search ends without an exception, and its candidates are as stated (`Sought`), for the
edges within the radius (`Ranges`). -/
theorem sought {h : Hunt V P ℝ A} {pos : V → P} (hc : Circle h pos) :
    ∃ fuel E cs, h.candidates fuel = some (.ok cs) ∧ Ranges h E ∧ Sought h E cs := by
  obtain ⟨fuel, E, h1, h2⟩ := circle_finds hc
  obtain ⟨cs, h3, h4, _⟩ := sought_spots h1
  exact ⟨fuel, E, cs, h3, h2, h4⟩

theorem combined_edges {R E : Type} [CommRing R] [LinearOrder R] (s : Cand.Search R E) (hc : s.circle = false) :
    ∀ (fuel : Nat) (a : Bool) (cur : R) (prev : List E) (r : R) (es : List E),
    Cand.search s fuel a cur prev = some (.ok (r, es)) → es = prev.filter (fun e => decide (s.dist e ≤ Cand.clamp s a cur)) := by
  intro fuel
  induction fuel with
  | zero => intro a cur prev r es h; simp [Cand.search] at h
  | succ fuel ih =>
    intro a cur prev r es h
    unfold Cand.search at h
    have hr : Cand.round s (Cand.clamp s a cur) prev = prev.filter (fun e => decide (s.dist e ≤ Cand.clamp s a cur)) := by
      simp [Cand.round, hc]
    split_ifs at h with h1 h2
    · cases h
    · rw [Bool.and_eq_true, List.isEmpty_iff] at h2
      have := ih _ _ _ _ _ h
      rw [h2.1] at this
      rw [this, ← hr, h2.1]
      rfl
    · simp only [Option.some.injEq, Outcome.ok.injEq, Prod.mk.injEq] at h
      rw [← h.2, hr]

theorem combined_finds {h : Hunt V P ℝ A} {pos : V → P} (hp : Plane h.env.G) (hl : Laid h.net pos) (hmode : h.mode = .combined)
    (hpos : ∀ i, 0 < h.reach i) (hs : ∀ p ∈ h.track, (h.near p).Nodup ∧ ∀ e ∈ h.near p, e < h.net.edges.length)
    (hclear : ∀ i p e x, h.track[i]? = some p → e ∈ h.near p → h.net.edges[e]? = some x → h.gap p x.line ≤ h.reach i →
      At h.env x.line (snapped h.env (h.switch i e) p x.line).1) :
    ∃ fuel E, Finds h pos fuel E ∧ ∀ i p, h.track[i]? = some p →
      ∀ e, e ∈ E i ↔ e ∈ h.near p ∧ h.gap p (h.net.line e) ≤ h.reach i := by
  have hcirc : ∀ i p, (h.looks i p).circle = false := by intro i p; simp [Hunt.looks, hmode]
  have hone : ∀ i, ∃ fuel, ∀ p, h.track[i]? = some p → ∀ k, h.edges (fuel + k) i p =
      some (.ok ((h.near p).filter (fun e => decide (h.gap p (h.net.line e) ≤ h.reach i)))) := by
    intro i
    cases hpt : h.track[i]? with
    | none => exact ⟨0, by simp⟩
    | some p =>
      obtain ⟨fuel, r, es, hse⟩ := Cand.search_ends (h.looks i p) h.adaptive h.radius (h.near p) (by rw [reach_eq]; exact hpos i)
      refine ⟨fuel, ?_⟩
      intro q hq k
      cases hq
      have h1 := Cand.search_stable _ fuel _ _ _ _ hse k
      have h2 := combined_edges _ (hcirc i p) fuel _ _ _ _ _ hse
      rw [reach_eq] at h2
      rw [Hunt.edges, hmode]
      simp only [Cand.radiusSearch, hcirc, Bool.false_eq_true, if_false]
      rw [show (h.looks i p).radius = h.radius from rfl, show (h.looks i p).nearest = h.near p from rfl, h1, h2]
      rfl
  choose fuel hE using hone
  have hle : ∀ i, i < h.track.length → fuel i ≤ ∑ k ∈ Finset.range h.track.length, fuel k := fun i hi =>
    Finset.single_le_sum (f := fuel) (fun _ _ => Nat.zero_le _) (Finset.mem_range.2 hi)
  have hf : Finds h pos (∑ k ∈ Finset.range h.track.length, fuel k) (fun i => ((h.track[i]?.toList).flatMap h.near).filter
      (fun e => decide ((h.track[i]?.toList).all fun p => decide (h.gap p (h.net.line e) ≤ h.reach i)))) := by
    refine ⟨hp, hl, ?_, ?_⟩
    · intro i p hpt
      have hi := hle i (List.getElem?_eq_some_iff.1 hpt).1
      have := hE i p hpt (∑ k ∈ Finset.range h.track.length, fuel k - fuel i)
      rw [Nat.add_sub_cancel' hi] at this
      rw [hpt]
      refine ⟨by simpa using this, ?_⟩
      simpa using (hs p (List.mem_of_getElem? hpt)).1.filter _
    · intro i p hpt e he
      rw [hpt] at he
      simp only [Option.toList_some, List.flatMap_cons, List.flatMap_nil, List.append_nil, List.all_cons, List.all_nil, Bool.and_true,
        Bool.decide_eq_true, List.mem_filter, decide_eq_true_eq] at he
      obtain ⟨x, hx⟩ : ∃ x, h.net.edges[e]? = some x :=
        ⟨_, List.getElem?_eq_getElem ((hs p (List.mem_of_getElem? hpt)).2 e he.1)⟩
      refine ⟨x, hx, hclear i p e x hpt he.1 hx ?_⟩
      rw [← line_eq h.net hx]; exact he.2
  refine ⟨_, _, hf, ?_⟩
  intro i p hpt e
  rw [hpt]
  simp

/-- **C102, candidates in mode COMBINED** (the default).  The search ends; it finds, of the edges of the nearest segments, those
within the radius of the first round.  Farther ones are not found, whatever the upper limit (C20). -/
theorem sought_combined {h : Hunt V P ℝ A} {pos : V → P} (hp : Plane h.env.G) (hl : Laid h.net pos) (hmode : h.mode = .combined)
    (hpos : ∀ i, 0 < h.reach i) (hs : ∀ p ∈ h.track, (h.near p).Nodup ∧ ∀ e ∈ h.near p, e < h.net.edges.length)
    (hclear : ∀ i p e x, h.track[i]? = some p → e ∈ h.near p → h.net.edges[e]? = some x → h.gap p x.line ≤ h.reach i →
      At h.env x.line (snapped h.env (h.switch i e) p x.line).1) :
    ∃ fuel E cs, h.candidates fuel = some (.ok cs) ∧ Sought h E cs ∧ ∀ i p, h.track[i]? = some p →
      ∀ e, e ∈ E i ↔ e ∈ h.near p ∧ h.gap p (h.net.line e) ≤ h.reach i := by
  obtain ⟨fuel, E, hf, hE⟩ := combined_finds hp hl hmode hpos hs hclear
  obtain ⟨cs, h1, h2, _⟩ := sought_spots hf
  exact ⟨fuel, E, cs, h1, h2, hE⟩

theorem nearest_finds {h : Hunt V P ℝ A} {pos : V → P} (hp : Plane h.env.G) (hl : Laid h.net pos) {E : Nat → List Nat}
    (hmode : (h.mode = .nearest ∧ ∀ i p, h.track[i]? = some p → E i = h.near p) ∨ (h.mode = .next ∧
      ∀ i p, h.track[i]? = some p → E i = NextSearch.additionsNext h.pairs (fun e => h.gap p (h.net.line e)) (h.near p)))
    (hs : ∀ p ∈ h.track, (h.near p).Pairwise (· < ·) ∧ ∀ e ∈ h.near p, e < h.net.edges.length)
    (hclear : ∀ i p e x, h.track[i]? = some p → e ∈ E i → h.net.edges[e]? = some x →
      At h.env x.line (snapped h.env (h.switch i e) p x.line).1) :
    Finds h pos 0 E := by
  have hlen : h.pairs.length = h.net.edges.length := by simp [Hunt.pairs]
  have hsort : ∀ i p, h.track[i]? = some p → (E i).Pairwise (· < ·) ∧ ∀ e ∈ E i, e < h.net.edges.length := by
    intro i p hp
    have hn := hs p (List.mem_of_getElem? hp)
    rcases hmode with ⟨_, hE⟩ | ⟨_, hE⟩
    · rw [hE i p hp]; exact hn
    · rw [hE i p hp]
      obtain ⟨a1, _, a3, _⟩ := NextSearch.additions_partial h.pairs (fun e => h.gap p (h.net.line e)) (h.near p) hn.1
        (by rw [hlen]; exact hn.2)
      exact ⟨a1, fun e he => hlen ▸ ((a3 e).1 he).1⟩
  refine ⟨hp, hl, ?_, ?_⟩
  · intro i p hp
    refine ⟨?_, (hsort i p hp).1.imp (fun hlt => Nat.ne_of_lt hlt)⟩
    rcases hmode with ⟨hm, hE⟩ | ⟨hm, hE⟩
    · rw [Hunt.edges, hm, hE i p hp]
    · rw [Hunt.edges, hm, hE i p hp]
  · intro i p hp e he
    obtain ⟨x, hx⟩ : ∃ x, h.net.edges[e]? = some x := ⟨_, List.getElem?_eq_getElem ((hsort i p hp).2 e he)⟩
    exact ⟨_, hx, hclear i p e _ hp he hx⟩

/-- **C102, candidates in the other modes.**  NEAREST finds the edges of the nearest segments, NEXT adds to them as C75 says; the
candidates are as stated for them. -/
theorem sought_nearest {h : Hunt V P ℝ A} {pos : V → P} (hp : Plane h.env.G) (hl : Laid h.net pos) {E : Nat → List Nat}
    (hmode : (h.mode = .nearest ∧ ∀ i p, h.track[i]? = some p → E i = h.near p) ∨ (h.mode = .next ∧
      ∀ i p, h.track[i]? = some p → E i = NextSearch.additionsNext h.pairs (fun e => h.gap p (h.net.line e)) (h.near p)))
    (hs : ∀ p ∈ h.track, (h.near p).Pairwise (· < ·) ∧ ∀ e ∈ h.near p, e < h.net.edges.length)
    (hclear : ∀ i p e x, h.track[i]? = some p → e ∈ E i → h.net.edges[e]? = some x →
      At h.env x.line (snapped h.env (h.switch i e) p x.line).1) :
    ∃ cs, h.candidates 0 = some (.ok cs) ∧ Sought h E cs := by
  obtain ⟨cs, h1, h2, _⟩ := sought_spots (nearest_finds hp hl hmode hs hclear)
  exact ⟨cs, h1, h2⟩

/-! ### The nearest segments -/

theorem mem_nearest (n : Net V P) (far : P × P → ℝ) (k e : Nat) :
    e ∈ n.nearest far k ↔ ∃ s, (s, e) ∈ (n.segments.insertionSort fun a b => far a.1 ≤ far b.1).take k := by
  unfold Net.nearest
  rw [NextSearch.mem_putAll, List.mem_map]
  constructor
  · rintro (⟨a, ha, rfl⟩ | h)
    · exact ⟨a.1, ha⟩
    · simp at h
  · rintro ⟨s, hs⟩
    exact Or.inl ⟨_, hs, rfl⟩

theorem mem_segments {n : Net V P} {s : P × P} {e : Nat} : (s, e) ∈ n.segments ↔ ∃ x, n.edges[e]? = some x ∧ s ∈ segs x.line := by
  unfold Net.segments
  simp only [List.mem_flatMap, List.mem_map]
  constructor
  · rintro ⟨⟨x, i⟩, h1, s', h2, h3⟩
    obtain ⟨rfl, rfl⟩ := Prod.mk.inj h3
    exact ⟨x, List.mem_zipIdx_iff_getElem?.1 h1, h2⟩
  · rintro ⟨x, h1, h2⟩
    exact ⟨(x, e), List.mem_zipIdx_iff_getElem?.2 h1, s, h2, rfl⟩

/-- **C102, nearest segments (in part).**  The edges of the nearest segments are edges, each once; an edge is among them if it
has a segment such that at most `k` segments are as near.  It is segments that are counted: an edge near the point is left out if
another edge has many (`combined_misses_fails`). -/
theorem nearest_partial (n : Net V P) (far : P × P → ℝ) (k : Nat) :
    (n.nearest far k).Pairwise (· < ·) ∧ (∀ e ∈ n.nearest far k, e < n.edges.length) ∧
    ∀ e x s, n.edges[e]? = some x → s ∈ segs x.line → (n.segments.filter fun y => decide (far y.1 ≤ far s)).length ≤ k →
      e ∈ n.nearest far k := by
  set L := n.segments.insertionSort fun a b => far a.1 ≤ far b.1 with hL
  have hperm : L.Perm n.segments := List.perm_insertionSort _ _
  refine ⟨NextSearch.sorted_putAll _ _ List.Pairwise.nil, ?_, ?_⟩
  · intro e he
    obtain ⟨s, hs⟩ := (mem_nearest n far k e).1 he
    obtain ⟨x, hx, _⟩ := mem_segments.1 (hperm.mem_iff.1 (List.mem_of_mem_take hs))
    exact (List.getElem?_eq_some_iff.1 hx).1
  · intro e x s hx hs hk
    rw [mem_nearest]
    refine ⟨s, ?_⟩
    have hm : (s, e) ∈ L := hperm.mem_iff.2 (mem_segments.2 ⟨x, hx, hs⟩)
    rw [← List.take_append_drop k L] at hm
    rcases List.mem_append.1 hm with hm | hm
    · exact hm
    · exfalso
      have hsort : L.Pairwise (fun a b => far a.1 ≤ far b.1) := by
        have : Std.Total (α := (P × P) × Nat) (fun a b => far a.1 ≤ far b.1) := ⟨fun a b => le_total _ _⟩
        have : IsTrans ((P × P) × Nat) (fun a b => far a.1 ≤ far b.1) := ⟨fun a b c => le_trans⟩
        exact List.pairwise_insertionSort _ _
      rw [← List.take_append_drop k L, List.pairwise_append] at hsort
      have hall : ∀ y ∈ L.take k, decide (far y.1 ≤ far s) = true := by
        intro y hy
        simpa using hsort.2.2 y hy _ hm
      have hlen : (L.filter fun y => decide (far y.1 ≤ far s)).length ≤ k := by
        rw [(hperm.filter _).length_eq]; exact hk
      rw [← List.take_append_drop k L, List.filter_append, List.length_append, List.filter_eq_self.2 hall] at hlen
      have hd : 0 < ((L.drop k).filter fun y => decide (far y.1 ≤ far s)).length := by
        refine List.length_pos_of_mem (a := (s, e)) (List.mem_filter.2 ⟨hm, by simp⟩)
      have hdk : 0 < (L.drop k).length := List.length_pos_of_mem hm
      rw [List.length_drop] at hdk
      rw [List.length_take] at hlen
      omega

/-! ### The match -/

theorem entry_of_mem {j : Job V P ℝ A} {t : Nat} {x : Nat × CandEdge.Cand P ℝ} (hx : x ∈ j.cands.getD t []) :
    ∃ k, k < (j.cands.getD t []).length ∧ j.entry (t, k) = some x := by
  obtain ⟨k, hk, he⟩ := List.mem_iff_getElem.1 hx
  refine ⟨k, hk, ?_⟩
  unfold Job.entry
  cases hc : j.cands[t]? with
  | none => rw [List.getD_eq_getElem?_getD, hc] at hk; simp at hk
  | some s =>
    simp only [List.getD_eq_getElem?_getD, hc, Option.getD_some] at he hk
    simp only [Option.bind_some]
    rw [List.getElem?_eq_getElem hk, he]

theorem finds_match {h : Hunt V P ℝ ℝ} {E : Nat → List Nat} {cs : List (List (Nat × CandEdge.Cand P ℝ))}
    (hs : Sought h E cs) {j : Job V P ℝ ℝ} {pos : V → P} (hjc : j.cands = cs) (hj : Ready j pos (fun b => b = SP.noBound))
    (hstr : j.joins = true → j.within = false ∧ Straight j.setting (OnEdge j) j.env.G.len) (f : Weights.Factors)
    (hne : h.track ≠ []) (g : Nat → Nat) (hg : ∀ t, t < h.track.length → g t ∈ E t) :
    ∃ ρ, (∀ t p, h.track[t]? = some p → ∃ c, j.entry (t, ρ t) = some (g t, c) ∧ Beside h t p (g t) c) ∧
      ((∀ t, 0 < t → t < h.track.length → Goes j (t - 1, ρ (t - 1)) (t, ρ t)) →
      ∃ σ r pts, Choice j 0 σ ∧
        (∀ σ', Choice j 0 σ' → Weights.score f j.dists j.legOf 0 σ' (h.track.length - 1) ≤
          Weights.score f j.dists j.legOf 0 σ (h.track.length - 1)) ∧
        Weights.score f j.dists j.legOf 0 ρ (h.track.length - 1) ≤ Weights.score f j.dists j.legOf 0 σ (h.track.length - 1) ∧
        j.run f = .ok r ∧ (∀ x ∈ r.refs, x ∈ r.own ∨ Held j x) ∧ r.isConnected = true ∧ r.richLine = .ok pts ∧
        ((∃ t, 0 < t ∧ t < h.track.length ∧ (j.cand (t - 1, σ (t - 1))).proj ≠ (j.cand (t, σ t)).proj) → r.invalid = false ∧
          pts.head? = some (j.cand (0, σ 0)).proj ∧
          pts.getLast? = some (j.cand (h.track.length - 1, σ (h.track.length - 1))).proj) ∧
        (j.within = false → (∀ l ∈ r.lines, ∀ sg ∈ segs l, sg.1 ≠ sg.2 → OnEdge j sg.1 sg.2) ∧ ∃ x : Nat → ℝ,
          (∀ t, 0 < t → t < h.track.length → Away j (t - 1, σ (t - 1)) (t, σ t) (x t)) ∧
          (routeLength j.env.G r.lines).getD 0 = ∑ t ∈ Finset.Ico 1 h.track.length, x t)) := by
  have hlen : j.cands.length = h.track.length := by rw [hjc, hs.size]
  have hpick : ∀ t, ∃ k, ∀ p, h.track[t]? = some p → k < (j.cands.getD t []).length ∧
      ∃ c, j.entry (t, k) = some (g t, c) ∧ Beside h t p (g t) c := by
    intro t
    cases hp : h.track[t]? with
    | none => exact ⟨0, by simp⟩
    | some p =>
      obtain ⟨c, h1, h2⟩ := hs.own t p hp (g t) (hg t (List.getElem?_eq_some_iff.1 hp).1)
      rw [← hjc] at h1
      obtain ⟨k, h3, h4⟩ := entry_of_mem h1
      refine ⟨k, ?_⟩
      intro q hq
      cases hq
      exact ⟨h3, c, h4, h2⟩
  choose ρ hρ using hpick
  refine ⟨ρ, fun t p hp => (hρ t p hp).2, fun hgo => ?_⟩
  have hch : Choice j 0 ρ := by
    intro t _ ht
    rw [hlen] at ht
    exact ⟨(hρ t _ (List.getElem?_eq_getElem ht)).1, fun h0 => hgo t h0 ht⟩
  have h0 : 0 < h.track.length := List.length_pos_of_ne_nil hne
  have hst : Starts j 0 := by
    refine ⟨by rw [hlen]; exact h0, ?_, by intro s hs; omega⟩
    have := (hch 0 le_rfl (by rw [hlen]; exact h0)).1
    intro hnil
    rw [hnil] at this
    simp at this
  obtain ⟨σ, r, pts, k1, k2, k3, k4, k5, k6, k7, k8⟩ := match_partial hj hstr f hst ⟨ρ, hch⟩
  rw [hlen] at k2 k7 k8
  exact ⟨σ, r, pts, k1, k2, k2 ρ hch, k3, k4, k5, k6, k7, k8⟩

/-- Roads are straight where joints are removed (`match_partial`). -/
def Hunt.Even (h : Hunt V P ℝ ℝ) (turn : ℝ → Bool) : Prop :=
  ∀ x y w, ¬ AtEnd h.env.nearest y → x ≠ y → y ≠ w → turn (h.env.G.dir (h.env.G.az x y) (h.env.G.az y w)) = false →
    (∃ e ∈ h.net.edges, PieceOf h.env.G e.line x y) → (∃ e ∈ h.net.edges, PieceOf h.env.G e.line y w) →
    (x ≠ w → ∃ e ∈ h.net.edges, PieceOf h.env.G e.line x w) ∧ span h.env.G.len x w = h.env.G.len x y + h.env.G.len y w

/-- **C102, match.**  In mode CIRCLE, routes searched without a bound.  The search for candidates ends, and then: choose for each point
of the track any edge within the radius (`reach`); if one can go from the projection on each to that on the next (`Goes`: the
same place, ahead on the same edge, or reachable in the network), the match is valid in the sense of C94 and at least as good:
no choice of candidates has a greater sum of weights, in particular not the chosen one.
Missing: as in C94. -/
theorem sought_match_partial {h : Hunt V P ℝ ℝ} {pos : V → P} (hc : Circle h pos) (hne : h.track ≠ []) {turn : ℝ → Bool}
    {within joins : Bool} {found : V → V → Option (List V)}
    (hfound : ∀ v w, Answer (h.net.graph h.env.G) (fun b => b = SP.noBound) v w (found v w))
    (heven : joins = true → within = false ∧ h.Even turn) (f : Weights.Factors) :
    ∃ fuel cs j, h.candidates fuel = some (.ok cs) ∧ j = h.job turn within joins found cs ∧
    ∀ g : Nat → Nat, (∀ t p, h.track[t]? = some p → ∃ x, h.net.edges[g t]? = some x ∧ h.gap p x.line ≤ h.reach t) →
    ∃ ρ, (∀ t p, h.track[t]? = some p → ∃ c, j.entry (t, ρ t) = some (g t, c) ∧ Beside h t p (g t) c) ∧
      ((∀ t, 0 < t → t < h.track.length → Goes j (t - 1, ρ (t - 1)) (t, ρ t)) →
      ∃ σ r pts, Choice j 0 σ ∧
        (∀ σ', Choice j 0 σ' → Weights.score f j.dists j.legOf 0 σ' (h.track.length - 1) ≤
          Weights.score f j.dists j.legOf 0 σ (h.track.length - 1)) ∧
        Weights.score f j.dists j.legOf 0 ρ (h.track.length - 1) ≤ Weights.score f j.dists j.legOf 0 σ (h.track.length - 1) ∧
        j.run f = .ok r ∧ (∀ x ∈ r.refs, x ∈ r.own ∨ Held j x) ∧ r.isConnected = true ∧ r.richLine = .ok pts ∧
        ((∃ t, 0 < t ∧ t < h.track.length ∧ (j.cand (t - 1, σ (t - 1))).proj ≠ (j.cand (t, σ t)).proj) → r.invalid = false ∧
          pts.head? = some (j.cand (0, σ 0)).proj ∧
          pts.getLast? = some (j.cand (h.track.length - 1, σ (h.track.length - 1))).proj) ∧
        (within = false → (∀ l ∈ r.lines, ∀ sg ∈ segs l, sg.1 ≠ sg.2 → OnEdge j sg.1 sg.2) ∧ ∃ x : Nat → ℝ,
          (∀ t, 0 < t → t < h.track.length → Away j (t - 1, σ (t - 1)) (t, σ t) (x t)) ∧
          (routeLength j.env.G r.lines).getD 0 = ∑ t ∈ Finset.Ico 1 h.track.length, x t)) := by
  obtain ⟨fuel, E, h1, h2⟩ := circle_finds hc
  obtain ⟨cs, h3, h4, h5⟩ := sought_spots h1
  refine ⟨fuel, cs, _, h3, rfl, fun g hg => ?_⟩
  have hj : Ready (h.job turn within joins found cs) pos (fun b => b = SP.noBound) := ⟨hc.plane, hc.laid, h5, hfound⟩
  exact finds_match h4 rfl hj (fun hx => ⟨(heven hx).1, (heven hx).2⟩) f hne g (fun t ht => by
    obtain ⟨r, r1, _, r3, _⟩ := h2 t _ (List.getElem?_eq_getElem ht)
    obtain ⟨x, x1, x2⟩ := hg t _ (List.getElem?_eq_getElem ht)
    exact (r3 (g t)).2 ⟨x, x1, x2.trans r1⟩)

/-- **C102, no roads.**  If no edge is within the upper limit of a point, it gets no candidate of its own; if this holds of all points,
none gets any. -/
theorem sought_nothing {h : Hunt V P ℝ A} {pos : V → P} (hc : Circle h pos)
    (hfar : ∀ p ∈ h.track, ∀ x ∈ h.net.edges, h.upper < h.gap p x.line) :
    ∃ fuel, h.candidates fuel = some (.ok (List.replicate h.track.length [])) := by
  obtain ⟨fuel, E, cs, h1, h2, h3⟩ := sought hc
  have hnone : ∀ i p, h.track[i]? = some p → ∀ e, e ∉ E i := by
    intro i p hp e he
    obtain ⟨r, _, r2, r3, _⟩ := h2 i p hp
    obtain ⟨x, x1, x2⟩ := (r3 e).1 he
    exact absurd (x2.trans r2) (not_le.2 (hfar p (List.mem_of_getElem? hp) x (List.mem_of_getElem? x1)))
  refine ⟨fuel, ?_⟩
  rw [h1]
  congr 2
  refine List.eq_replicate_iff.2 ⟨h3.size, ?_⟩
  intro s hs
  obtain ⟨i, hi, rfl⟩ := List.mem_iff_getElem.1 hs
  have hp : h.track[i]? = some (h.track[i]'(h3.size ▸ hi)) := List.getElem?_eq_getElem _
  have hget : cs.getD i [] = cs[i] := by simp [List.getD_eq_getElem?_getD, hi]
  refine List.eq_nil_iff_forall_not_mem.2 (fun x hx => ?_)
  rcases (h3.only i _ hp x (by rw [hget]; exact hx)).2 with ⟨k1, _⟩ | ⟨k, q, _, k2, k3, _⟩
  · exact hnone i _ hp _ k1
  · exact hnone k q k2 _ k3

/-! ### The road in two edges again (`streetNet`), and points at 2 and 13 -/

/-- Distance of a point and a road of one segment. -/
def streetGap (p : Int) (l : List Int) : ℝ := (max 0 (max (l.headD 0 - p) (p - l.getLastD 0)) : Int)

noncomputable def streetHunt (mode : Mode) : Hunt (Fin 3) Int ℝ ℝ where
  net := streetNet
  env := streetEnv
  track := [2, 13]
  mode := mode
  adaptive := true
  radius := 1
  lower := 1
  upper := 2
  nearby := true
  reverse := false
  siblings := true
  gap := streetGap
  box p r := (List.range 2).filter fun e => decide (streetGap p (streetNet.line e) ≤ r)
  near p := if p ≤ 10 then [0] else [1]
  switch _ _ := 2
  segDist p q r := min (streetGeo.len p q) (streetGeo.len p r)
  num v := v.val

theorem street_clear (mode : Mode) : ∀ i p e x, (streetHunt mode).track[i]? = some p → (streetHunt mode).net.edges[e]? = some x →
    (streetHunt mode).gap p x.line ≤ 2 →
    At streetEnv x.line (snapped streetEnv ((streetHunt mode).switch i e) p x.line).1 := by
  intro i p e x hp hx hgap
  have hp' : p = 2 ∨ p = 13 := by
    have := List.mem_of_getElem? hp
    simpa [streetHunt] using this
  have hx' : x = ⟨0, 1, [0, 10]⟩ ∨ x = ⟨1, 2, [10, 20]⟩ := by
    have := List.mem_of_getElem? hx
    simpa [streetHunt, streetNet] using this
  have hgap' : max 0 (max (x.line.headD 0 - p) (p - x.line.getLastD 0)) ≤ 2 := by
    have : ((max 0 (max (x.line.headD 0 - p) (p - x.line.getLastD 0)) : Int) : ℝ) ≤ 2 := hgap
    exact_mod_cast this
  rcases hp' with rfl | rfl <;> rcases hx' with rfl | rfl
  · obtain ⟨_, _, h, _⟩ := street_cand 0 10 2 (by omega) (by omega)
    exact h
  · simp at hgap'
  · simp at hgap'
  · obtain ⟨_, _, h, _⟩ := street_cand 10 20 13 (by omega) (by omega)
    exact h

theorem street_circle : Circle (streetHunt .circle) (fun v => 10 * (v.val : Int)) := by
  refine ⟨street_plane, street_laid, rfl, ?_, ?_, ?_, ?_, street_clear _⟩
  · intro p r _
    exact List.pairwise_lt_range.filter _
  · intro p r _ e he
    exact List.mem_range.1 (List.mem_filter.1 he).1
  · intro p r _ e x hx hg
    refine List.mem_filter.2 ⟨List.mem_range.2 (List.getElem?_eq_some_iff.1 hx).1, ?_⟩
    rw [decide_eq_true_eq, line_eq streetNet hx]
    exact hg
  · simp [streetHunt]

example : ∃ fuel E cs, (streetHunt .circle).candidates fuel = some (.ok cs) ∧ Ranges (streetHunt .circle) E ∧
    Sought (streetHunt .circle) E cs := sought street_circle

example : ∃ fuel E cs, (streetHunt .combined).candidates fuel = some (.ok cs) ∧ Sought (streetHunt .combined) E cs ∧
    ∀ i p, (streetHunt .combined).track[i]? = some p → ∀ e, e ∈ E i ↔ e ∈ (streetHunt .combined).near p ∧
      (streetHunt .combined).gap p ((streetHunt .combined).net.line e) ≤ (streetHunt .combined).reach i := by
  have hr : ∀ i, 0 < (streetHunt .combined).reach i ∧ (streetHunt .combined).reach i ≤ 2 := by
    intro i
    unfold Hunt.reach
    refine ⟨lt_min ?_ (by simp [streetHunt]), min_le_right _ _⟩
    rw [if_pos (show (streetHunt .combined).adaptive = true from rfl)]
    exact lt_max_of_lt_right (by simp [streetHunt])
  refine sought_combined (pos := fun v => 10 * (v.val : Int)) street_plane street_laid rfl (fun i => (hr i).1) ?_ ?_
  · intro p _
    simp only [streetHunt]
    split_ifs <;> simp [streetNet]
  · intro i p e x hp _ hx hg
    exact street_clear _ i p e x hp hx (hg.trans (hr i).2)

example : ∃ cs, (streetHunt .nearest).candidates 0 = some (.ok cs) ∧ Sought (streetHunt .nearest) (fun i => if i = 0 then [0] else [1]) cs := by
  have hE : ∀ i p, (streetHunt .nearest).track[i]? = some p → (if i = 0 then [0] else [1]) = (streetHunt .nearest).near p := by
    intro i p hp
    have ht : i = 0 ∨ i = 1 := by
      have := (List.getElem?_eq_some_iff.1 hp).1
      simp [streetHunt] at this
      omega
    rcases ht with rfl | rfl
    · have : p = 2 := by simpa [streetHunt] using hp.symm
      subst this; simp [streetHunt]
    · have : p = 13 := by simpa [streetHunt] using hp.symm
      subst this; simp [streetHunt]
  refine sought_nearest (pos := fun v => 10 * (v.val : Int)) street_plane street_laid (.inl ⟨rfl, hE⟩) ?_ ?_
  · intro p _
    simp only [streetHunt]
    split_ifs <;> simp [streetNet]
  · intro i p e x hp he hx
    refine street_clear _ i p e x hp hx ?_
    have hp' : p = 2 ∨ p = 13 := by
      have := List.mem_of_getElem? hp
      simpa [streetHunt] using this
    rw [hE i p hp] at he
    rcases hp' with rfl | rfl
    · have : e = 0 := by simpa [streetHunt] using he
      subst this
      have : x = ⟨0, 1, [0, 10]⟩ := by simpa [streetHunt, streetNet] using hx.symm
      subst this
      simp [streetHunt, streetGap]
    · have : e = 1 := by simpa [streetHunt] using he
      subst this
      have : x = ⟨1, 2, [10, 20]⟩ := by simpa [streetHunt, streetNet] using hx.symm
      subst this
      simp [streetHunt, streetGap]

/-- A point far away has no candidates. -/
example : ∃ fuel, ({ streetHunt .circle with track := [100] } : Hunt (Fin 3) Int ℝ ℝ).candidates fuel = some (.ok [[]]) := by
  have hfar : ∀ x ∈ streetNet.edges, (2 : ℝ) < streetGap 100 x.line := by
    intro x hx
    have hx' : x = ⟨0, 1, [0, 10]⟩ ∨ x = ⟨1, 2, [10, 20]⟩ := by simpa [streetNet] using hx
    rcases hx' with rfl | rfl <;> simp [streetGap] <;> norm_num
  refine sought_nothing (pos := fun v => 10 * (v.val : Int)) ⟨street_plane, street_laid, rfl, street_circle.sorted, street_circle.inside,
    street_circle.within, street_circle.radius, ?_⟩ ?_
  · intro i p e x hp hx hg
    have : p = 100 := by simpa using List.mem_of_getElem? hp
    subst this
    exact absurd hg (not_le.2 (hfar x (List.mem_of_getElem? hx)))
  · intro p hp x hx
    have : p = 100 := by simpa using hp
    subst this
    exact hfar x hx

theorem street_even (mode : Mode) : (streetHunt mode).Even (fun d => decide (d ≠ 0)) := by
  have := street_straight [] [] (fun _ _ => none)
  exact this

/-- The candidates at the projections are chosen: one can go from 2 on the first edge to 13 on the second. -/
example (f : Weights.Factors) : ∃ found fuel cs, (streetHunt .circle).candidates fuel = some (.ok cs) ∧
    ∃ r, ((streetHunt .circle).job (fun d => decide (d ≠ 0)) false true found cs).run f = .ok r ∧ r.isConnected = true := by
  choose found hf using answers_exist (streetNet.graph streetGeo)
  obtain ⟨fuel, cs, j, h1, hj, h2⟩ := sought_match_partial (h := streetHunt .circle) street_circle (by simp [streetHunt])
    (turn := fun d => decide (d ≠ 0)) (within := false) (joins := true) (found := found) hf (fun _ => ⟨rfl, street_even _⟩) f
  obtain ⟨ρ, h3, h4⟩ := h2 (fun t => if t = 0 then 0 else 1) (by
    have hr : ∀ i, (0 : ℝ) ≤ (streetHunt .circle).reach i := fun i => (street_circle.reach_pos i).le
    intro t p hp
    have ht : t = 0 ∨ t = 1 := by
      have := (List.getElem?_eq_some_iff.1 hp).1
      simp [streetHunt] at this
      omega
    rcases ht with rfl | rfl
    · refine ⟨⟨0, 1, [0, 10]⟩, rfl, ?_⟩
      have : p = 2 := by simpa [streetHunt] using hp.symm
      subst this
      refine le_trans (le_of_eq ?_) (hr 0)
      simp [streetHunt, streetGap]
    · refine ⟨⟨1, 2, [10, 20]⟩, rfl, ?_⟩
      have : p = 13 := by simpa [streetHunt] using hp.symm
      subst this
      refine le_trans (le_of_eq ?_) (hr 1)
      simp [streetHunt, streetGap])
  obtain ⟨σ, r, pts, _, _, _, h5, _, h6, _⟩ := h4 (by
    intro t h0 ht
    have ht : t = 1 := by simp [streetHunt] at ht; omega
    subst ht
    obtain ⟨c, c1, _⟩ := h3 0 2 rfl
    obtain ⟨d, d1, _⟩ := h3 1 13 rfl
    refine ⟨_, _, c1, d1, .inr (.inr ⟨⟨0, 1, [0, 10]⟩, ⟨1, 2, [10, 20]⟩, ?_, ?_, [], .nil⟩)⟩
    · rw [hj]; rfl
    · rw [hj]; rfl)
  subst hj
  exact ⟨found, fuel, cs, h1, r, h5, h6⟩

/-- The nearest segment of the road counts. -/
example : 1 ∈ streetNet.nearest (fun s => streetGap 13 [s.1, s.2]) 1 := by
  refine (nearest_partial streetNet _ 1).2.2 1 ⟨1, 2, [10, 20]⟩ (10, 20) rfl (by simp [segs]) ?_
  have hne : ¬ streetGap 13 [0, 10] ≤ streetGap 13 [10, 20] := by simp [streetGap]
  simp [Net.segments, streetNet, segs, hne]

/-! ### Two parallel roads -/

/-- Points in the plane, distances along the axes. -/
def gridGeo : Geo (Int × Int) Int Int where
  len p q := |p.1 - q.1| + |p.2 - q.2|
  az _ _ := 0
  dir a b := b - a
  abs a := |a|
  zeroR := 0
  addR a b := a + b
  zeroA := 0
  addA a b := a + b

/-- Distance of a point and a segment parallel to the first axis, from west to east. -/
def gridFar (p : Int × Int) (s : (Int × Int) × (Int × Int)) : Int :=
  max 0 (max (s.1.1 - p.1) (p.1 - s.2.1)) + |p.2 - s.1.2|

/-- A short road in twenty pieces, and a long one a hundred meters beside it. -/
def gridNet : Net Nat (Int × Int) :=
  ⟨[⟨0, 1, (List.range 21).map fun i => ((i : Int), 0)⟩, ⟨2, 3, [(0, 100), (200, 100)]⟩]⟩

/-- The default settings (settings.hpp 51-58): 16 nearest segments, radius 200, which is also the lower limit. -/
def gridHunt : Hunt Nat (Int × Int) Int Int where
  net := gridNet
  env := ⟨gridGeo, fun l _ => l.headD (0, 0), fun q _ => q, fun q _ => q, fun _ => none, 1, 0⟩
  track := [(10, 40), (100, 40)]
  mode := .combined
  adaptive := true
  radius := 200
  lower := 200
  upper := 10000
  nearby := true
  reverse := false
  siblings := true
  gap p l := ((segs l).map (gridFar p)).foldl min 1000000
  box _ _ := []
  near p := gridNet.nearest (gridFar p) 16
  switch _ _ := 2
  segDist _ _ _ := 0
  num v := v

/-- **C102 fails** with the default settings: the nearest segments are counted, not the roads.  The point is sixty meters from the
long road, well within the radius of two hundred, and the road is not found as the short one has twenty segments which are nearer. -/
theorem combined_misses_fails : gridHunt.edges 1 0 (10, 40) = some (.ok [0]) ∧
    gridHunt.gap (10, 40) (gridNet.line 0) = 40 ∧ gridHunt.gap (10, 40) (gridNet.line 1) = 60 ∧ gridHunt.radius = 200 := by
  decide +kernel

end MM.Pipe
