import Verif.Model.TwoRuns
import Verif.Props.Found
import Verif.Props.IndexBuild
import Verif.Props.NetDisk

/-!
# C110: one run prepares a network, a later one matches with it
-/

set_option autoImplicit false
set_option linter.unusedSectionVars false

namespace MM.TwoRuns

open MM.IndexBuild MM.NetDisk MM.Line MM.Prepare

variable {T P : Type} [DecidableEq P] [Inhabited P]

/-! ### What is written and read -/

theorem index_exact (o : First T P) (c : Graph P) {x : Index P} {b : Option Unit} (h : o.index c = .ok (x, b)) (hb : b.isSome) :
    x.points = some (pointsFrom 0 (places c)) ∧ x.segments = some (edgesFrom 0 (lines c)) := by
  unfold First.index buildSpatial at h
  rcases gather_spec o.mapped.indexBuild o.available (places c) (lines c) o.buildSize o.buildFailures with ⟨h1, _⟩ | ⟨t, u, e, h2⟩
  · rw [h1] at h; simp at h
  · rw [e, Outcome.bind_ok] at h
    cases u with
    | none => simp only [Outcome.ok.injEq, Prod.mk.injEq] at h; rw [← h.2] at hb; simp at hb
    | some u =>
      obtain ⟨h3, h4⟩ := h2 rfl
      simp only at h
      rcases buildIndices_spec o.mapped.final.indices o.mapped.indexBuild o.available t o.indexSize o.indexFailures with
        ⟨h5, _⟩ | ⟨y, v, h5, h6⟩
      · rw [h5] at h; simp at h
      · rw [h5] at h
        simp only [Outcome.ok.injEq, Prod.mk.injEq] at h
        rw [h.2] at h6
        rw [h.1] at h6
        rw [h3, h4] at h6
        exact h6 hb

/-- What a first run that comes to its end writes: the graph of the files, and the indices of that graph. -/
theorem ops_exact {o : First T P} {es : List (Osm.Element P)} {ops : List (Op T (List (PointEntry P)) (List (SegEntry P)) (Graph P))}
    (h : o.ops es = .ok ops) : ∃ c, Prepare.prepare o.filters o.steps es = .ok c ∧
      ops = NetDisk.prepare o.file o.mapped (o.work c (pointsFrom 0 (places c)) (edgesFrom 0 (lines c))) o.writable := by
  unfold First.ops at h
  cases hp : Prepare.prepare o.filters o.steps es with
  | throws => rw [hp] at h; simp at h
  | ub => rw [hp] at h; simp at h
  | ok c =>
    rw [hp, Outcome.bind_ok] at h
    cases hx : o.index c with
    | throws => rw [hx] at h; simp at h
    | ub => rw [hx] at h; simp at h
    | ok x =>
      obtain ⟨x, b⟩ := x
      rw [hx, Outcome.bind_ok] at h
      cases b with
      | none => simp at h
      | some u =>
        obtain ⟨h1, h2⟩ := index_exact o c hx rfl
        simp only [h1, h2, Outcome.ok.injEq] at h
        exact ⟨c, rfl, h.symm⟩

theorem run_ok {o : First T P} {es : List (Osm.Element P)} {d d' : Files T P} (h : o.run es d = .ok d') :
    ∃ ops, o.ops es = .ok ops ∧ d' = NetDisk.run o.me d ops := by
  unfold First.run at h
  cases ho : o.ops es with
  | throws => rw [ho] at h; simp at h
  | ub => rw [ho] at h; simp at h
  | ok ops => rw [ho] at h; simp only [Outcome.map_ok, Outcome.ok.injEq] at h; exact ⟨ops, rfl, h.symm⟩

/-- The indices of a graph are complete. -/
theorem complete_index (c : Graph P) : Complete (places c) (lines c) ⟨some (pointsFrom 0 (places c)), some (edgesFrom 0 (lines c)), 0, []⟩ := by
  refine ⟨⟨_, rfl, ?_, ?_⟩, ⟨_, rfl, edgesFrom_nodup _ _, ?_⟩⟩
  · rw [pointsFrom_keys]; exact List.nodup_range'
  · intro p v
    rw [mem_pointsFrom]; simp
  · intro a b e i
    rw [mem_edgesFrom]; simp

/-- **C110, what is read is what was prepared.**  After a first run that came to its end, whatever the directory held before, whether
network and indices are in storages or archives, and whatever had to be tried again for lack of room: the same program with the
same options opens the graph that the files describe, with a complete index of its segments. -/
theorem read_back {o : First T P} {es : List (Osm.Element P)} {d d' : Files T P} (hrun : o.run es d = .ok d')
    (hfile : Function.Injective o.file) (hw : ∀ p, o.writable (o.file p) = true) :
    ∃ c x, Prepare.prepare o.filters o.steps es = .ok c ∧ openNetwork o.me o.cs o.mapped.final d' o.file = .ok x ∧ heldGraph x = c ∧
      x.tags = [.tags o.tags] ∧ ((heldSegments x).map Prod.snd).Nodup ∧
      ∀ a b e i, ((a, b), (e, i)) ∈ heldSegments x ↔ ∃ r, c.edges[e]? = some r ∧ r.data.2[i]? = some a ∧ r.data.2[i + 1]? = some b := by
  obtain ⟨ops, h1, rfl⟩ := run_ok hrun
  obtain ⟨c, h2, rfl⟩ := ops_exact h1
  have h3 := prepared o.mapped (o.work c (pointsFrom 0 (places c)) (edgesFrom 0 (lines c))) hfile o.me o.writable hw d
  refine ⟨c, _, h2, h3, rfl, rfl, edgesFrom_nodup _ _, fun a b e i => ?_⟩
  show ((a, b), (e, i)) ∈ edgesFrom 0 (lines c) ↔ _
  rw [mem_edgesFrom]
  simp only [Nat.zero_le, Nat.sub_zero, true_and, lines, List.getElem?_map, Option.map_eq_some_iff]
  constructor
  · rintro ⟨l, ⟨r, h4, rfl⟩, h5⟩; exact ⟨r, h4, h5⟩
  · rintro ⟨r, h4, h5⟩; exact ⟨_, ⟨r, h4, rfl⟩, h5⟩

/-- The edges of a graph and its index, for the search. -/
def searching {R A : Type} (q : Asks P R) (c : Graph P) (h : Pipe.Hunt Nat P R A) : Pipe.Hunt Nat P R A :=
  { h with
    net := opened c
    box := fun p r => unique (q.box p r (edgesFrom 0 (lines c)))
    near := fun p => unique (q.near p (edgesFrom 0 (lines c))) }

theorem second_exact {R A : Type} {o : First T P} {es : List (Osm.Element P)} {d d' : Files T P} (hrun : o.run es d = .ok d')
    (hfile : Function.Injective o.file) (hw : ∀ p, o.writable (o.file p) = true) (q : Asks P R) (h : Pipe.Hunt Nat P R A) :
    ∃ c, Prepare.prepare o.filters o.steps es = .ok c ∧
      second o.me o.cs o.mapped.final o.file q h d' = .ok (searching q c h) := by
  obtain ⟨ops, h1, rfl⟩ := run_ok hrun
  obtain ⟨c, h2, rfl⟩ := ops_exact h1
  have h3 : openNetwork o.me o.cs o.mapped.final _ o.file = _ :=
    prepared o.mapped (o.work c (pointsFrom 0 (places c)) (edgesFrom 0 (lines c))) hfile o.me o.writable hw d
  refine ⟨c, h2, ?_⟩
  unfold second
  rw [h3]
  rfl

/-- **C110, only the input counts.**  Two first runs from the same files with the same filters and steps, each into its own directory,
with its own storages, names of files, versions of the program and failures: the second runs look for candidates with the same. -/
theorem only_input {R A : Type} {o o' : First T P} {es : List (Osm.Element P)} {d₁ d d₂ d' : Files T P} (hrun : o.run es d₁ = .ok d)
    (hrun' : o'.run es d₂ = .ok d') (hf : Function.Injective o.file) (hf' : Function.Injective o'.file)
    (hw : ∀ p, o.writable (o.file p) = true) (hw' : ∀ p, o'.writable (o'.file p) = true)
    (hfilters : o.filters = o'.filters) (hsteps : o.steps = o'.steps) (q : Asks P R) (h : Pipe.Hunt Nat P R A) :
    ∃ h', second o.me o.cs o.mapped.final o.file q h d = .ok h' ∧ second o'.me o'.cs o'.mapped.final o'.file q h d' = .ok h' := by
  obtain ⟨c, h1, h2⟩ := second_exact hrun hf hw q h
  obtain ⟨c', h3, h4⟩ := second_exact hrun' hf' hw' q h
  rw [← hfilters, ← hsteps, h1, Outcome.ok.injEq] at h3
  subst h3
  exact ⟨_, h2, h4⟩

/-- **C110, it comes to its end.**  If the files can be imported, and there is room (in memory none may be lacking, in storages there
is enough on disk for doubling them as often as an allocation fails), the first run ends. -/
theorem first_ends {o : First T P} {es : List (Osm.Element P)} {c : Graph P} (hprep : Prepare.prepare o.filters o.steps es = .ok c)
    (hb : 0 < o.buildSize) (hi : 0 < o.indexSize) (hmb : o.buildFailures.count true = 0 ∨ o.mapped.indexBuild = true)
    (hmi : o.indexFailures.count true = 0 ∨ o.mapped.final.indices = true)
    (hfree : max o.indexSize (4 * (o.buildSize * 2 ^ o.buildFailures.count true)) * 2 ^ o.indexFailures.count true ≤ o.available)
    (d : Files T P) : ∃ d', o.run es d = .ok d' := by
  obtain ⟨x, h1, h2⟩ := index_built (mapped := o.mapped.final.indices) (mappedBuild := o.mapped.indexBuild) (places c) (lines c) hb hi hmb hmi hfree
  have h3 := index_exact o c h1 rfl
  have h4 : o.ops es = .ok (NetDisk.prepare o.file o.mapped (o.work c (pointsFrom 0 (places c)) (edgesFrom 0 (lines c))) o.writable) := by
    unfold First.ops
    rw [hprep, Outcome.bind_ok]
    unfold First.index
    rw [h1, Outcome.bind_ok]
    simp only [h3.1, h3.2]
  exact ⟨_, by unfold First.run; rw [h4, Outcome.map_ok]⟩

/-! ### Candidates and matches -/

/-- The R-tree answers as asked: a box query with the segments that meet the box, in any order, a query for the nearest with `k` of
them. -/
structure Truthful {R : Type} [LinearOrder R] (q : Asks P R) (meets : P → R → P × P → Bool) (far : P → P × P → R) (k : Nat) : Prop where
  box : ∀ p r ss, (q.box p r ss).Perm (ss.filter fun e => meets p r e.1)
  near : ∀ p ss, Nearest (fun e => far p e.1) k ss (q.near p ss)

/-- **C110, edges found.**  The second run finds for a box exactly the edges of the graph with a segment that meets it, for the
nearest at most `k` edges that the graph has; every edge found can be looked up. -/
theorem edges_of_second {R A : Type} [LinearOrder R] [Zero R] {o : First T P} {es : List (Osm.Element P)} {d d' : Files T P} (hrun : o.run es d = .ok d')
    (hfile : Function.Injective o.file) (hw : ∀ p, o.writable (o.file p) = true) {q : Asks P R} {meets : P → R → P × P → Bool}
    {far : P → P × P → R} {k : Nat} (hq : Truthful q meets far k) (h : Pipe.Hunt Nat P R A) :
    ∃ c h', Prepare.prepare o.filters o.steps es = .ok c ∧ second o.me o.cs o.mapped.final o.file q h d' = .ok h' ∧
      h'.net = opened c ∧ h'.track = h.track ∧ h'.env = h.env ∧ h'.mode = h.mode ∧
      (∀ p r, (∀ e, e ∈ h'.box p r ↔ ∃ x, c.edges[e]? = some x ∧ ∃ s ∈ segs x.data.2, meets p r s = true) ∧
        (h'.box p r).Pairwise (· < ·) ∧ lookUp h' (h'.box p r) = .ok ()) ∧
      ∀ p, (h'.near p).length ≤ k ∧ (h'.near p).Pairwise (· < ·) ∧ lookUp h' (h'.near p) = .ok () ∧
        ∀ e ∈ h'.near p, e < h'.net.edges.length := by
  obtain ⟨c, h2, h3⟩ := second_exact hrun hfile hw q h
  have hc := complete_index c
  have hlook : ∀ (h' : Pipe.Hunt Nat P R A) (l : List Nat), (∀ e ∈ l, e < h'.net.edges.length) → lookUp h' l = .ok () := by
    intro h' l
    induction l with
    | nil => intro _; rfl
    | cons e l ih =>
      intro hl
      rw [lookUp, if_pos (hl e (by simp))]
      exact ih fun e he => hl e (by simp [he])
  refine ⟨c, _, h2, h3, rfl, rfl, rfl, rfl, ?_, ?_⟩
  · intro p r
    obtain ⟨h4, h5⟩ := edges_found hc (meets p r) rfl (hq.box p r (edgesFrom 0 (lines c)))
    have h6 : ∀ e, e ∈ unique (q.box p r (edgesFrom 0 (lines c))) ↔
        ∃ x, c.edges[e]? = some x ∧ ∃ s ∈ segs x.data.2, meets p r s = true := by
      intro e
      rw [h4]
      simp only [lines, List.getElem?_map, Option.map_eq_some_iff]
      constructor
      · rintro ⟨l, ⟨x, h7, rfl⟩, h8⟩; exact ⟨x, h7, h8⟩
      · rintro ⟨x, h7, h8⟩; exact ⟨_, ⟨x, h7, rfl⟩, h8⟩
    refine ⟨h6, h5, hlook _ _ fun e he => ?_⟩
    obtain ⟨x, h7, _⟩ := (h6 e).1 he
    show e < (c.edges.map _).length
    rw [List.length_map]
    exact (List.getElem?_eq_some_iff.1 h7).1
  · intro p
    obtain ⟨h4, h5, h6, _⟩ := edges_nearest_partial hc (far p) k rfl (hq.near p (edgesFrom 0 (lines c)))
    have h7 : ∀ e ∈ unique (q.near p (edgesFrom 0 (lines c))), e < (opened c).edges.length := by
      intro e he
      obtain ⟨l, hl⟩ := h4 e he
      have := (List.getElem?_eq_some_iff.1 hl).1
      simpa [lines, opened] using this
    exact ⟨h5, h6, hlook _ _ h7, h7⟩

/-- The setting of the second run, besides the files: straight segments, a box that holds every line within its radius, positive radii;
projections on the edges within the upper limit are ends of the edge or on it at one place. -/
structure Setting (c : Graph P) (meets : P → ℝ → P × P → Bool) {A : Type} (h : Pipe.Hunt Nat P ℝ A) : Prop where
  plane : Pipe.Plane h.env.G
  covers : ∀ p r x, x ∈ c.edges → 0 < r → h.gap p x.data.2 ≤ r → ∃ s ∈ segs x.data.2, meets p r s = true
  radius : 0 < h.upper ∧ if h.adaptive then 0 < h.lower else 0 < h.radius
  clear : ∀ i p e x, h.track[i]? = some p → c.edges[e]? = some x → (h.mode = .circle → h.gap p x.data.2 ≤ h.upper) →
    Pipe.At h.env x.data.2 (CandEdge.snapped h.env (h.switch i e) p x.data.2).1

theorem edges_opened {c : Graph P} {e : Nat} {x : Pipe.Edge Nat P} (hx : (opened c).edges[e]? = some x) :
    ∃ r, c.edges[e]? = some r ∧ r.data.2 = x.line := by
  unfold opened at hx
  rw [List.getElem?_map, Option.map_eq_some_iff] at hx
  obtain ⟨r, h1, rfl⟩ := hx
  exact ⟨r, h1, rfl⟩

theorem opened_edges {c : Graph P} {e : Nat} {r : Csr.Row (Nat × List P)} (hx : c.edges[e]? = some r) :
    (opened c).edges[e]? = some ⟨r.src, r.tgt, r.data.2⟩ := by
  unfold opened
  rw [List.getElem?_map, hx]
  rfl

/-- **C110, candidates.**  The second run finds candidates in the mode CIRCLE: every point of the track gets the edges within the radius
used, and the search ends. -/
theorem circle_of_second {A : Type} {o : First T P} {es : List (Osm.Element P)} {d d' : Files T P} (hrun : o.run es d = .ok d')
    (hfile : Function.Injective o.file) (hw : ∀ p, o.writable (o.file p) = true)
    (hd : ∀ a b, Permits o.filters es a b → a.2 ≠ b.2) {q : Asks P ℝ} {meets : P → ℝ → P × P → Bool} {far : P → P × P → ℝ} {k : Nat}
    (hq : Truthful q meets far k) {h : Pipe.Hunt Nat P ℝ A} (hmode : h.mode = .circle)
    (hs : ∀ c, Prepare.prepare o.filters o.steps es = .ok c → Setting c meets h) :
    ∃ c h', Prepare.prepare o.filters o.steps es = .ok c ∧ second o.me o.cs o.mapped.final o.file q h d' = .ok h' ∧
      h'.net = opened c ∧ h'.track = h.track ∧ h'.env = h.env ∧ Pipe.Circle h' (fun v => (nodeAt c v).2) := by
  obtain ⟨c, h', h1, h2, h3, h4, h5, h6, h7, _⟩ := edges_of_second hrun hfile hw hq h
  obtain ⟨c', h1', h2'⟩ := second_exact hrun hfile hw q h
  rw [h1, Outcome.ok.injEq] at h1'
  subst h1'
  rw [h2, Outcome.ok.injEq] at h2'
  subst h2'
  have hset := hs c h1
  refine ⟨c, _, h1, h2, h3, h4, h5, hset.plane, ?_, hmode, ?_, ?_, ?_, hset.radius, ?_⟩
  · exact prepared_laid h1 hd
  · intro p r _; exact (h7 p r).2.1
  · intro p r _ e he
    obtain ⟨x, hx, _⟩ := ((h7 p r).1 e).1 he
    have := (List.getElem?_eq_some_iff.1 (opened_edges hx)).1
    exact this
  · intro p r hr e x hx hg
    obtain ⟨y, hy, hl⟩ := edges_opened hx
    exact ((h7 p r).1 e).2 ⟨y, hy, hset.covers p r y (List.mem_of_getElem? hy) hr (by rw [hl]; exact hg)⟩
  · intro i p e x hp hx hg
    obtain ⟨y, hy, hl⟩ := edges_opened hx
    rw [← hl]
    exact hset.clear i p e y hp hy (fun _ => by rw [hl]; exact hg)

/-- **C110, candidates in any mode.**  The search of the second run ends, with edges and their projections for every point. -/
theorem second_finds {A : Type} {o : First T P} {es : List (Osm.Element P)} {d d' : Files T P} (hrun : o.run es d = .ok d')
    (hfile : Function.Injective o.file) (hw : ∀ p, o.writable (o.file p) = true)
    (hd : ∀ a b, Permits o.filters es a b → a.2 ≠ b.2) {q : Asks P ℝ} {meets : P → ℝ → P × P → Bool} {far : P → P × P → ℝ} {k : Nat}
    (hq : Truthful q meets far k) {h : Pipe.Hunt Nat P ℝ A}
    (hs : ∀ c, Prepare.prepare o.filters o.steps es = .ok c → Setting c meets h) {c : Graph P}
    (h1 : Prepare.prepare o.filters o.steps es = .ok c) : ∃ fuel E, Pipe.Finds (searching q c h) (fun v => (nodeAt c v).2) fuel E := by
  have h2 : second o.me o.cs o.mapped.final o.file q h d' = .ok (searching q c h) := by
    obtain ⟨c', h1', h2⟩ := second_exact hrun hfile hw q h
    rw [h1, Outcome.ok.injEq] at h1'
    subst h1'
    exact h2
  obtain ⟨c', h', k1, k2, _, _, _, _, _, k8⟩ := edges_of_second hrun hfile hw hq h
  rw [h1, Outcome.ok.injEq] at k1
  subst k1
  rw [h2, Outcome.ok.injEq] at k2
  subst k2
  have hclear : h.mode ≠ .circle → ∀ i p e x, h.track[i]? = some p → (opened c).edges[e]? = some x →
      Pipe.At h.env x.line (CandEdge.snapped h.env (h.switch i e) p x.line).1 := by
    intro hm i p e x hp hx
    obtain ⟨y, hy, hl⟩ := edges_opened hx
    rw [← hl]
    exact (hs c h1).clear i p e y hp hy (fun hc => absurd hc hm)
  have hlaid := prepared_laid h1 hd
  cases hm : h.mode with
  | circle =>
    obtain ⟨c', h', k1, k2, _, _, _, k6⟩ := circle_of_second hrun hfile hw hd hq hm hs
    rw [h1, Outcome.ok.injEq] at k1
    subst k1
    rw [h2, Outcome.ok.injEq] at k2
    subst k2
    obtain ⟨fuel, E, hf, _⟩ := Pipe.circle_finds k6
    exact ⟨fuel, E, hf⟩
  | combined =>
    obtain ⟨fuel, E, hf, _⟩ := Pipe.combined_finds (h := searching q c h) (hs c h1).plane hlaid hm
      (fun i => by
        obtain ⟨r1, r2⟩ := (hs c h1).radius
        unfold Pipe.Hunt.reach
        refine lt_min ?_ r1
        by_cases ha : h.adaptive = true
        · rw [if_pos ha] at r2
          rw [if_pos (show (searching q c h).adaptive = true from ha)]
          exact lt_max_of_lt_right r2
        · rw [if_neg ha] at r2
          rw [if_neg (show ¬ (searching q c h).adaptive = true from ha)]
          exact r2)
      (fun p _ => ⟨(k8 p).2.1.imp (fun h => Nat.ne_of_lt h), (k8 p).2.2.2⟩)
      (fun i p e x hp _ hx _ => hclear (by rw [hm]; decide) i p e x hp hx)
    exact ⟨fuel, E, hf⟩
  | nearest =>
    refine ⟨0, fun i => (searching q c h).near (h.track.getD i default), Pipe.nearest_finds (h := searching q c h) (hs c h1).plane
      hlaid (.inl ⟨hm, ?_⟩) (fun p _ => ⟨(k8 p).2.1, (k8 p).2.2.2⟩)
      (fun i p e x hp _ hx => hclear (by rw [hm]; decide) i p e x hp hx)⟩
    intro i p hp
    have : h.track[i]? = some p := hp
    simp [List.getD_eq_getElem?_getD, this]
  | next =>
    refine ⟨0, fun i => NextSearch.additionsNext (searching q c h).pairs (fun e => h.gap (h.track.getD i default) ((opened c).line e))
        ((searching q c h).near (h.track.getD i default)), Pipe.nearest_finds (h := searching q c h) (hs c h1).plane
      hlaid (.inr ⟨hm, ?_⟩) (fun p _ => ⟨(k8 p).2.1, (k8 p).2.2.2⟩)
      (fun i p e x hp _ hx => hclear (by rw [hm]; decide) i p e x hp hx)⟩
    intro i p hp
    have : h.track[i]? = some p := hp
    simp only [List.getD_eq_getElem?_getD, this, Option.getD_some]
    rfl

/-- **C110, matches along permitted passages.**  Files are prepared by one run and the network is opened by a later one, which looks
for candidates in any of the modes and matches, whatever bounds the searches for routes use, without trimmed turns.  The
whole is defined, and the match is invalid or a connected route of which every segment is a piece of a passage that the files of the
first run permit, in the permitted direction.
Missing: as in C94. -/
theorem two_runs_partial {o : First T P} {es : List (Osm.Element P)} {d d' : Files T P} (hrun : o.run es d = .ok d')
    (hfile : Function.Injective o.file) (hw : ∀ p, o.writable (o.file p) = true)
    (hd : ∀ a b, Permits o.filters es a b → a.2 ≠ b.2) {q : Asks P ℝ} {meets : P → ℝ → P × P → Bool} {far : P → P × P → ℝ} {k : Nat}
    (hq : Truthful q meets far k) {h : Pipe.Hunt Nat P ℝ ℝ}
    (hs : ∀ c, Prepare.prepare o.filters o.steps es = .ok c → Setting c meets h)
    {turn : ℝ → Bool} {joins : Bool} {bounds : (ℝ → Bool) → Prop} (fs : Weights.Factors) :
    ∃ h', second o.me o.cs o.mapped.final o.file q h d' = .ok h' ∧ h'.track = h.track ∧ ((joins = true → h'.Even turn) →
      ∀ found : Nat → Nat → Option (List Nat), (∀ v w, Pipe.Answer (h'.net.graph h.env.G) bounds v w (found v w)) →
      ∃ fuel cs r, h'.candidates fuel = some (.ok cs) ∧ (h'.job turn false joins found cs).run fs = .ok r ∧
        (r = MM.Route.Route.bad ∨ (r.isConnected = true ∧ ∀ l ∈ r.lines, ∀ sg ∈ segs l, sg.1 ≠ sg.2 →
          OnPassage h.env.G o.filters es sg.1 sg.2))) := by
  obtain ⟨c, h1, h2⟩ := second_exact hrun hfile hw q h
  have hfinds := second_finds hrun hfile hw hd hq hs h1
  obtain ⟨fuel, E, hf⟩ := hfinds
  refine ⟨_, h2, rfl, fun heven found hfound => ?_⟩
  obtain ⟨cs, r, h3⟩ := found_permitted_partial h1 rfl hf hfound (turn := turn) (joins := joins) heven fs
  exact ⟨fuel, cs, r, h3⟩

/-- **C110, a match is found.**  If moreover nothing was taken out of the network but by simplification, each point of the track has a road
within the radius, and from each of these roads the files permit a drive to the next one: the match of the second run is a connected
route along permitted passages. -/
theorem two_runs_match_partial {o : First T P} {es : List (Osm.Element P)} {d d' : Files T P} (hrun : o.run es d = .ok d')
    (hfile : Function.Injective o.file) (hw : ∀ p, o.writable (o.file p) = true)
    (hd : ∀ a b, Permits o.filters es a b → a.2 ≠ b.2) (hsimple : o.steps.simplify ≠ .osmAware) (hcomp : o.steps.unconnected = false)
    (hdup : o.steps.duplicateNodes = false) {q : Asks P ℝ} {meets : P → ℝ → P × P → Bool} {far : P → P × P → ℝ} {k : Nat}
    (hq : Truthful q meets far k) {h : Pipe.Hunt Nat P ℝ ℝ} (hmode : h.mode = .circle) (hne : h.track ≠ [])
    (hs : ∀ c, Prepare.prepare o.filters o.steps es = .ok c → Setting c meets h)
    {turn : ℝ → Bool} {joins : Bool} (fs : Weights.Factors) {g : Nat → Nat}
    (hg : ∀ c, Prepare.prepare o.filters o.steps es = .ok c → (∀ t p, h.track[t]? = some p → ∃ x, c.edges[g t]? = some x ∧
        h.gap p x.data.2 ≤ h.reach t) ∧
      ∀ t, 0 < t → t < h.track.length → ∃ a b x, c.edges[g (t - 1)]? = some a ∧ c.edges[g t]? = some b ∧
        Drive o.filters es h.env.G.len (nodeAt c a.tgt) (nodeAt c b.src) x) :
    ∃ h', second o.me o.cs o.mapped.final o.file q h d' = .ok h' ∧ h'.track = h.track ∧ ((joins = true → h'.Even turn) →
      ∀ found : Nat → Nat → Option (List Nat), (∀ v w, Pipe.Answer (h'.net.graph h.env.G) (fun b => b = SP.noBound) v w (found v w)) →
      ∃ fuel cs r, h'.candidates fuel = some (.ok cs) ∧ (h'.job turn false joins found cs).run fs = .ok r ∧ r.isConnected = true ∧
        ∀ l ∈ r.lines, ∀ sg ∈ segs l, sg.1 ≠ sg.2 → OnPassage h.env.G o.filters es sg.1 sg.2) := by
  obtain ⟨c, h1, h2⟩ := second_exact hrun hfile hw q h
  obtain ⟨c', h', k1, k2, _, _, _, k6⟩ := circle_of_second hrun hfile hw hd hq hmode hs
  rw [h1, Outcome.ok.injEq] at k1
  subst k1
  rw [h2, Outcome.ok.injEq] at k2
  subst k2
  refine ⟨_, h2, rfl, fun heven found hfound => ?_⟩
  obtain ⟨g1, g2⟩ := hg c h1
  obtain ⟨fuel, cs, j, ρ, σ, r, h3, h4, _, _, _, _, h7, h8, h9⟩ := found_match_partial h1 hsimple hcomp hdup (h := searching q c h) rfl k6 hne hfound
    (turn := turn) (joins := joins) heven fs (g := g) (fun t p hp => by
      obtain ⟨x, hx, hl⟩ := g1 t p hp
      exact ⟨_, opened_edges hx, hl⟩) g2
  subst h4
  exact ⟨fuel, cs, r, h3, h7, h8, h9⟩

/-! ### Interrupted runs and other programs -/

/-- **C110, interrupted while reading.**  A preparation that ends while it still reads its input (`n` operations on files at most as many
as it makes until then) leaves the second run as it was. -/
theorem interrupted_partial {R A : Type} {o : First T P} {es : List (Osm.Element P)} {ops : List (Op T (List (PointEntry P)) (List (SegEntry P)) (Graph P))}
    (hops : o.ops es = .ok ops) (hfile : Function.Injective o.file) (you : Info) (cs : Cs) (m : Options.Mapped) (d : Files T P) (n : Nat)
    (hn : n ≤ (importBegin o.file o.mapped ++ osmImport o.file o.mapped (o.work Csr.Csr.empty [] []) :
      List (Op T (List (PointEntry P)) (List (SegEntry P)) (Graph P))).length) (q : Asks P R) (h : Pipe.Hunt Nat P R A) :
    second you cs m o.file q h (NetDisk.run o.me d (ops.take n)) = second you cs m o.file q h d := by
  obtain ⟨c, h2, rfl⟩ := ops_exact hops
  unfold second
  rw [interrupted_reading_partial o.mapped (o.work c (pointsFrom 0 (places c)) (edgesFrom 0 (lines c))) hfile o.me you cs m o.writable d n hn]

/-- **C110, again.**  After a run that ended anywhere, a complete one gives the network of its files. -/
theorem again {R A : Type} {o o' : First T P} {es es' : List (Osm.Element P)} {ops : List (Op T (List (PointEntry P)) (List (SegEntry P)) (Graph P))}
    (_hops : o'.ops es' = .ok ops) (n : Nat) {d d' : Files T P} (hrun : o.run es (NetDisk.run o'.me d (ops.take n)) = .ok d')
    (hfile : Function.Injective o.file) (hw : ∀ p, o.writable (o.file p) = true) (q : Asks P R) (h : Pipe.Hunt Nat P R A) :
    ∃ c h', Prepare.prepare o.filters o.steps es = .ok c ∧ second o.me o.cs o.mapped.final o.file q h d' = .ok h' ∧ h'.net = opened c ∧
      ∀ p r, h'.box p r = unique (q.box p r (edgesFrom 0 (lines c))) := by
  obtain ⟨c, h1, h2⟩ := second_exact hrun hfile hw q h
  exact ⟨c, _, h1, h2, rfl, fun _ _ => rfl⟩

/-- **C110, refused.**  Another version of the program refuses the files if a part of them is a storage; so does every program whose
options name other parts as storages than those of the first run. -/
theorem refused {R A : Type} {o : First T P} {es : List (Osm.Element P)} {d d' : Files T P} (hrun : o.run es d = .ok d')
    (hfile : Function.Injective o.file) (hw : ∀ p, o.writable (o.file p) = true) (q : Asks P R) (h : Pipe.Hunt Nat P R A) :
    (∀ you cs, you ≠ o.me → (o.mapped.final.tags = true ∨ o.mapped.final.indices = true ∨ o.mapped.final.graph = true) →
      second you cs o.mapped.final o.file q h d' = .throws) ∧
    ∀ m, m ≠ o.mapped.final → second o.me o.cs m o.file q h d' = .throws := by
  obtain ⟨ops, h1, rfl⟩ := run_ok hrun
  obtain ⟨c, h2, rfl⟩ := ops_exact h1
  refine ⟨fun you cs hy hm => ?_, fun m hm => ?_⟩
  · unfold second
    rw [version_refused_partial o.mapped (o.work c (pointsFrom 0 (places c)) (edgesFrom 0 (lines c))) hfile o.me you hy cs o.writable d hm]
    rfl
  · have h3 : openNetwork o.me o.cs m _ o.file = _ :=
      kinds_refused o.mapped (o.work c (pointsFrom 0 (places c)) (edgesFrom 0 (lines c))) hfile o.me m hm o.writable hw d
    unfold second
    rw [h3]
    rfl

/-! ### The town (`town`) -/

/-- The `k` first by distance are the nearest. -/
theorem nearest_sorted {V R : Type} [LinearOrder R] (dist : V → R) (k : Nat) (all : List V) :
    Nearest dist k all ((all.insertionSort fun a b => dist a ≤ dist b).take k) := by
  have hp := List.perm_insertionSort (fun a b => dist a ≤ dist b) all
  have htot : Std.Total (fun a b : V => dist a ≤ dist b) := ⟨fun a b => le_total _ _⟩
  have htr : IsTrans V (fun a b => dist a ≤ dist b) := ⟨fun a b c => le_trans⟩
  have hsort := List.pairwise_insertionSort (fun a b => dist a ≤ dist b) all
  refine ⟨(List.take_sublist _ _).subperm.trans hp.subperm, by rw [List.length_take, hp.length_eq], ?_⟩
  intro x hx y hy hny
  rw [← List.take_append_drop k (all.insertionSort _), List.pairwise_append] at hsort
  refine hsort.2.2 x hx y ?_
  have := hp.mem_iff.2 hy
  rw [← List.take_append_drop k (all.insertionSort _), List.mem_append] at this
  exact this.resolve_left hny

noncomputable def streetAsks : Asks Int ℝ where
  box p r ss := (ss.filter fun e => decide (Pipe.streetGap p [e.1.1, e.1.2] ≤ r)).reverse
  near p ss := (ss.insertionSort fun a b => Pipe.streetGap p [a.1.1, a.1.2] ≤ Pipe.streetGap p [b.1.1, b.1.2]).take 3

theorem street_truthful : Truthful streetAsks (fun p r s => decide (Pipe.streetGap p [s.1, s.2] ≤ r)) (fun p s => Pipe.streetGap p [s.1, s.2]) 3 :=
  ⟨fun _ _ _ => List.reverse_perm _, fun p ss => nearest_sorted (fun e : SegEntry Int => Pipe.streetGap p [e.1.1, e.1.2]) 3 ss⟩

/-- A run that prepares the town: the graph in a storage that had to be made anew, indices and tags in archives. -/
def townFirst : First Nat Int where
  me := ⟨1, 1⟩
  file := demoFile
  mapped := ⟨⟨true, false, false⟩, true, true, true, true, true⟩
  cs := .cartesian
  filters := Osm.defaults
  steps := plainly
  noTags := 0
  tags := 7
  tagsOnTheWay := [3]
  failed := [[⟨[(0, (1, 0))], []⟩]]
  onTheWay := [⟨[(0, (1, 0))], []⟩]
  indexFailed := []
  available := 1000
  buildSize := 16
  indexSize := 16
  buildFailures := [true]
  indexFailures := []
  writable := fun _ => true

/-- An older network, in archives. -/
def villageDisk : Files Nat Int
  | 0 => some (.archive [.tags 5])
  | 1 => some (.archive [.points [(0, 0), (3, 1)], .segments [((0, 3), (0, 0))]])
  | 2 => some (.archive [.graph ⟨[(0, (1, 0)), (1, (2, 3))], [⟨0, 1, (50, [0, 3])⟩]⟩])
  | _ => none

theorem town_first : ∃ d', townFirst.run town villageDisk = .ok d' :=
  first_ends (o := townFirst) town_plain (by decide) (by decide) (.inr rfl) (.inl rfl) (by decide) villageDisk

theorem town_setting (c : Graph Int) (hc : Prepare.prepare Osm.defaults plainly town = .ok c) :
    Setting c (fun p r s => decide (Pipe.streetGap p [s.1, s.2] ≤ r)) townHunt := by
  rw [town_plain, Outcome.ok.injEq] at hc
  subst hc
  refine ⟨Pipe.street_plane, ?_, by simp [townHunt], ?_⟩
  · intro p r x hx _ hg
    have hx' : ∃ a b, x.data.2 = [a, b] := by
      simp only [townNet, List.mem_cons, List.not_mem_nil, or_false] at hx
      rcases hx with rfl | rfl | rfl | rfl <;> exact ⟨_, _, rfl⟩
    obtain ⟨a, b, hab⟩ := hx'
    rw [hab] at hg ⊢
    exact ⟨(a, b), by simp [segs], decide_eq_true hg⟩
  · intro i p e x hp hx hg
    exact town_circle.clear i p e _ hp (opened_edges hx) (hg rfl)

/-- `read_back`, `edges_of_second`: around 13 there is the second road. -/
example : ∃ d' h', townFirst.run town villageDisk = .ok d' ∧ second ⟨1, 1⟩ .cartesian ⟨true, false, false⟩ demoFile streetAsks townHunt d' = .ok h' ∧
    h'.net = opened townNet ∧ 1 ∈ h'.box 13 1 ∧ lookUp h' (h'.box 13 1) = .ok () := by
  obtain ⟨d', hd'⟩ := town_first
  obtain ⟨c, h', h1, h2, h3, _, _, _, h4, _⟩ := edges_of_second hd' demoFile_injective (fun _ => rfl) street_truthful townHunt
  rw [show townFirst.filters = Osm.defaults from rfl, show townFirst.steps = plainly from rfl, town_plain, Outcome.ok.injEq] at h1
  subst h1
  refine ⟨d', h', hd', h2, h3, ((h4 13 1).1 1).2 ⟨_, rfl, (10, 20), by simp [segs], ?_⟩, (h4 13 1).2.2⟩
  simp [Pipe.streetGap]

example : ∃ d' c x, townFirst.run town villageDisk = .ok d' ∧ openNetwork ⟨1, 1⟩ .cartesian ⟨true, false, false⟩ d' demoFile = .ok x ∧
    heldGraph x = c ∧ ((20, 35), (2, 0)) ∈ heldSegments x := by
  obtain ⟨d', hd'⟩ := town_first
  obtain ⟨c, x, h1, h2, h3, _, _, h4⟩ := read_back hd' demoFile_injective (fun _ => rfl)
  rw [show townFirst.filters = Osm.defaults from rfl, show townFirst.steps = plainly from rfl, town_plain, Outcome.ok.injEq] at h1
  subst h1
  exact ⟨d', _, x, hd', h2, h3, (h4 20 35 2 0).2 ⟨_, rfl, rfl, rfl⟩⟩

/-- The same town, everything in archives, by another version of the program into an empty directory. -/
def townOther : First Nat Int :=
  { townFirst with me := ⟨2, 2⟩, mapped := ⟨⟨false, false, false⟩, false, false, false, false, false⟩, failed := [], buildFailures := [] }

example : ∃ d d' h', townFirst.run town villageDisk = .ok d ∧ townOther.run town (fun _ => none) = .ok d' ∧
    second ⟨1, 1⟩ .cartesian ⟨true, false, false⟩ demoFile streetAsks townHunt d = .ok h' ∧
    second ⟨2, 2⟩ .cartesian ⟨false, false, false⟩ demoFile streetAsks townHunt d' = .ok h' := by
  obtain ⟨d, hd⟩ := town_first
  obtain ⟨d', hd'⟩ := first_ends (o := townOther) town_plain (by decide) (by decide) (.inl rfl) (.inl rfl) (by decide) (fun _ => none)
  obtain ⟨h', h1, h2⟩ := only_input hd hd' demoFile_injective demoFile_injective (fun _ => rfl) (fun _ => rfl) rfl rfl streetAsks townHunt
  exact ⟨d, d', h', hd, hd', h1, h2⟩

/-- `two_runs_partial`, `two_runs_match_partial`: the points at 2 and 13 are matched. -/
example (fs : Weights.Factors) : ∃ d' h' fuel cs r, townFirst.run town villageDisk = .ok d' ∧
    second ⟨1, 1⟩ .cartesian ⟨true, false, false⟩ demoFile streetAsks townHunt d' = .ok h' ∧ h'.track = [2, 13] ∧
    ∃ found, h'.candidates fuel = some (.ok cs) ∧ (h'.job (fun d => decide (d ≠ 0)) false false found cs).run fs = .ok r ∧ r.isConnected = true ∧
      ∀ l ∈ r.lines, ∀ sg ∈ segs l, sg.1 ≠ sg.2 → OnPassage Pipe.streetGeo Osm.defaults town sg.1 sg.2 := by
  obtain ⟨d', hd'⟩ := town_first
  obtain ⟨h', h1, h2, h3⟩ := two_runs_match_partial hd' demoFile_injective (fun _ => rfl) (fun _ _ => town_apart) (by decide) rfl rfl
    street_truthful (h := townHunt) rfl (by simp [townHunt]) town_setting (turn := fun d => decide (d ≠ 0)) (joins := false) fs
    (g := fun t => t) (by
      intro c hc
      rw [show townFirst.filters = Osm.defaults from rfl, show townFirst.steps = plainly from rfl, town_plain, Outcome.ok.injEq] at hc
      subst hc
      constructor
      · intro t p hp
        have hlt : t < 2 := (List.getElem?_eq_some_iff.1 hp).1
        have : t = 0 ∨ t = 1 := by omega
        rcases this with rfl | rfl
        · obtain rfl : p = 2 := by simpa [townHunt] using hp.symm
          exact ⟨_, rfl, le_trans (by simp [townHunt, Pipe.streetGap]) (town_reach 0)⟩
        · obtain rfl : p = 13 := by simpa [townHunt] using hp.symm
          exact ⟨_, rfl, le_trans (by simp [townHunt, Pipe.streetGap]) (town_reach 1)⟩
      · intro t h0 ht
        replace ht : t < 2 := ht
        obtain rfl : t = 1 := by omega
        exact ⟨⟨0, 1, (100, [0, 10])⟩, ⟨1, 2, (100, [10, 20])⟩, 0, rfl, rfl, .stay _⟩)
  obtain ⟨c, k1, k2⟩ := second_exact hd' demoFile_injective (fun _ => rfl) streetAsks townHunt
  rw [k2, Outcome.ok.injEq] at h1
  subst h1
  choose found hfound using prepared_answers c Pipe.streetGeo
  obtain ⟨fuel, cs, r, h4, h5, h6, h7⟩ := h3 (fun hx => by cases hx) found hfound
  exact ⟨d', _, fuel, cs, r, hd', k2, rfl, found, h4, h5, h6, h7⟩

/-- Projections to the nearer end. -/
noncomputable def endEnv : CandEdge.Env Int ℝ ℝ :=
  { Pipe.streetEnv with closest := fun q l => if |q - l.headD 0| ≤ |q - l.getLastD 0| then l.headD 0 else l.getLastD 0 }

theorem end_at (p a b : Int) : Pipe.At endEnv [a, b] (CandEdge.snapped endEnv 2 p [a, b]).1 := by
  have hp : (CandEdge.project endEnv p [a, b]).1 = a ∨ (CandEdge.project endEnv p [a, b]).1 = b := by
    have hc : endEnv.closest p [a, b] = a ∨ endEnv.closest p [a, b] = b := by
      show (if _ then a else b) = a ∨ (if _ then a else b) = b
      split_ifs <;> simp
    have hz : endEnv.G.len p (endEnv.closest p [a, b]) = endEnv.G.zeroR → p = endEnv.closest p [a, b] := by
      intro h
      by_contra hne
      exact absurd h (Pipe.street_metric.pos _ _ hne).ne'
    unfold CandEdge.project
    simp only
    split_ifs with h
    · rw [hz h]; exact hc
    · exact hc
  have hs : (CandEdge.snapped endEnv 2 p [a, b]).1 = (CandEdge.project endEnv p [a, b]).1 := by
    unfold CandEdge.snapped
    rw [if_pos (by simp)]
    unfold CandEdge.snapTo
    cases h : CandEdge.nearestPoint endEnv (CandEdge.project endEnv p [a, b]).1 [a, b] none with
    | none => rfl
    | some y =>
      simp only
      rw [if_neg]
      rintro ⟨_, hy⟩
      rcases CandEdge.nearestPoint_mem endEnv _ [a, b] none y h with h3 | ⟨_, h3⟩
      · simp at h3
      · rw [h3] at hy
        exact absurd hy (not_lt.2 (Nat.cast_nonneg _))
  rw [hs]
  rcases hp with h | h <;> rw [h]
  · left; rfl
  · right; left; rfl

/-- The points at 0 and 10, by the nearest segments. -/
noncomputable def nearHunt : Pipe.Hunt Nat Int ℝ ℝ := { townHunt with track := [0, 10], mode := .nearest, env := endEnv }

theorem near_setting (c : Graph Int) (hc : Prepare.prepare Osm.defaults plainly town = .ok c) :
    Setting c (fun p r s => decide (Pipe.streetGap p [s.1, s.2] ≤ r)) nearHunt := by
  refine ⟨Pipe.street_plane, (town_setting c hc).covers, (town_setting c hc).radius, fun i p e x _ hx _ => ?_⟩
  rw [town_plain, Outcome.ok.injEq] at hc
  subst hc
  have hx' := List.mem_of_getElem? hx
  simp only [townNet, List.mem_cons, List.not_mem_nil, or_false] at hx'
  rcases hx' with rfl | rfl | rfl | rfl <;> exact end_at p _ _

example (fs : Weights.Factors) : ∃ d' h', townFirst.run town villageDisk = .ok d' ∧
    second ⟨1, 1⟩ .cartesian ⟨true, false, false⟩ demoFile streetAsks nearHunt d' = .ok h' ∧ ∃ found fuel cs r,
      h'.candidates fuel = some (.ok cs) ∧ (h'.job (fun d => decide (d ≠ 0)) false false found cs).run fs = .ok r ∧
      (r = MM.Route.Route.bad ∨ (r.isConnected = true ∧ ∀ l ∈ r.lines, ∀ sg ∈ segs l, sg.1 ≠ sg.2 →
        OnPassage Pipe.streetGeo Osm.defaults town sg.1 sg.2)) := by
  obtain ⟨d', hd'⟩ := town_first
  obtain ⟨h', h1, _, h3⟩ := two_runs_partial hd' demoFile_injective (fun _ => rfl) (fun _ _ => town_apart) street_truthful (h := nearHunt)
    near_setting
    (turn := fun d => decide (d ≠ 0)) (joins := false) (bounds := fun b => b = SP.noBound) fs
  obtain ⟨c, k1, k2⟩ := second_exact hd' demoFile_injective (fun _ => rfl) streetAsks nearHunt
  rw [k2, Outcome.ok.injEq] at h1
  subst h1
  choose found hfound using prepared_answers c Pipe.streetGeo
  obtain ⟨fuel, cs, r, h4, h5, h6⟩ := h3 (fun hx => by cases hx) found hfound
  exact ⟨d', _, hd', k2, found, fuel, cs, r, h4, h5, h6⟩

/-- What the town's preparation by `townOther` does to the files. -/
def townOps : List (Op Nat (List (PointEntry Int)) (List (SegEntry Int)) (Graph Int)) :=
  NetDisk.prepare demoFile townOther.mapped (townOther.work townNet (pointsFrom 0 (places townNet)) (edgesFrom 0 (lines townNet))) fun _ => true

theorem town_ops : townOther.ops town = .ok townOps := by
  obtain ⟨d', hd'⟩ := first_ends (o := townOther) town_plain (by decide) (by decide) (.inl rfl) (.inl rfl) (by decide) (fun _ => none)
  obtain ⟨ops, h1, _⟩ := run_ok hd'
  obtain ⟨c, h2, rfl⟩ := ops_exact h1
  rw [show townOther.filters = Osm.defaults from rfl, show townOther.steps = plainly from rfl, town_plain, Outcome.ok.injEq] at h2
  subst h2
  exact h1

/-- `interrupted_partial`: the old network is still found after a preparation that ended while it read. -/
example : ∃ ops, townFirst.ops town = .ok ops ∧
    second ⟨2, 2⟩ .cartesian ⟨false, false, false⟩ demoFile streetAsks townHunt (NetDisk.run ⟨1, 1⟩ villageDisk (ops.take 8)) =
    second ⟨2, 2⟩ .cartesian ⟨false, false, false⟩ demoFile streetAsks townHunt villageDisk := by
  obtain ⟨d', hd'⟩ := town_first
  obtain ⟨ops, h1, _⟩ := run_ok hd'
  exact ⟨ops, h1, interrupted_partial h1 demoFile_injective _ _ _ _ 8 (by decide) _ _⟩

/-- `again`: after a preparation that ended while it wrote the index, a complete one. -/
example : ∃ d' h', townFirst.run town (NetDisk.run ⟨2, 2⟩ villageDisk (townOps.take 3)) = .ok d' ∧
    second ⟨1, 1⟩ .cartesian ⟨true, false, false⟩ demoFile streetAsks townHunt d' = .ok h' ∧ h'.net = opened townNet := by
  obtain ⟨d', hd'⟩ := first_ends (o := townFirst) town_plain (by decide) (by decide) (.inr rfl) (.inl rfl) (by decide)
    (NetDisk.run ⟨2, 2⟩ villageDisk (townOps.take 3))
  obtain ⟨c, h', h1, h2, h3, _⟩ := again town_ops 3 hd' demoFile_injective (fun _ => rfl) streetAsks townHunt
  rw [show townFirst.filters = Osm.defaults from rfl, show townFirst.steps = plainly from rfl, town_plain, Outcome.ok.injEq] at h1
  subst h1
  exact ⟨d', h', hd', h2, h3⟩

/-- `refused`. -/
example : ∃ d', townFirst.run town villageDisk = .ok d' ∧
    second ⟨1, 2⟩ .cartesian ⟨true, false, false⟩ demoFile streetAsks townHunt d' = .throws ∧
    second ⟨1, 1⟩ .cartesian ⟨true, true, false⟩ demoFile streetAsks townHunt d' = .throws := by
  obtain ⟨d', hd'⟩ := town_first
  obtain ⟨h1, h2⟩ := refused hd' demoFile_injective (fun _ => rfl) streetAsks townHunt
  exact ⟨d', hd', h1 ⟨1, 2⟩ .cartesian (by decide) (.inr (.inr rfl)), h2 ⟨true, true, false⟩ (by decide)⟩

/-- The search around 30 for the counterexample: the segments that meet the stretch from `p - r` to `p + r`. -/
def stretchAsks : Asks Int Int where
  box p r ss := ss.filter fun e => decide (min e.1.1 e.1.2 ≤ p + r) && decide (p - r ≤ max e.1.1 e.1.2)
  near _ _ := []

/-- **C110 is false in general.**  The files of a network are replaced one after the other.  A preparation of the town over the village
that ends between the index and the graph leaves files that are opened without complaint: the index of the town names
edges for the point at 30 that the graph of the village does not have, and looking them up is undefined. -/
theorem torn_fails : ∃ n, ∀ h : Pipe.Hunt Nat Int Int Int, ∃ h',
    second ⟨2, 2⟩ .cartesian ⟨false, false, false⟩ demoFile stretchAsks h (NetDisk.run ⟨2, 2⟩ villageDisk (townOps.take n)) = .ok h' ∧
    h'.net.edges.length = 1 ∧ h'.box 30 1 = [2, 3] ∧ lookUp h' (h'.box 30 1) = .ub := by
  refine ⟨4, fun h => ?_⟩
  have h1 : ∃ x, openNetwork ⟨2, 2⟩ .cartesian ⟨false, false, false⟩ (NetDisk.run ⟨2, 2⟩ villageDisk (townOps.take 4)) demoFile = .ok x ∧
      heldGraph x = ⟨[(0, (1, 0)), (1, (2, 3))], [⟨0, 1, (50, [0, 3])⟩]⟩ ∧ heldSegments x = edgesFrom 0 (lines townNet) :=
    ⟨⟨.cartesian, [.tags 7], [.points (pointsFrom 0 (places townNet)), .segments (edgesFrom 0 (lines townNet))],
      [.graph ⟨[(0, (1, 0)), (1, (2, 3))], [⟨0, 1, (50, [0, 3])⟩]⟩]⟩, by decide +kernel, rfl, rfl⟩
  obtain ⟨x, h1, h2, h3⟩ := h1
  have hbox : (hunting stretchAsks x h).box 30 1 = [2, 3] := by
    show unique (stretchAsks.box 30 1 (heldSegments x)) = _
    rw [h3]; decide +kernel
  have hnet : (hunting stretchAsks x h).net.edges.length = 1 := by
    show (opened (heldGraph x)).edges.length = 1
    rw [h2]; rfl
  refine ⟨hunting stretchAsks x h, by unfold second; rw [h1, Outcome.map_ok], hnet, hbox, ?_⟩
  rw [hbox, lookUp, if_neg]
  rw [hnet]; decide

end MM.TwoRuns
