import Verif.Model.OsmExport
import Verif.Props.Convert
import Mathlib.Data.List.Nodup

/-!
# C42: exported OpenStreetMap files
-/

set_option autoImplicit false
set_option linter.unusedSectionVars false

namespace MM.OsmExport

variable {P K : Type} [DecidableEq P] [DecidableEq K]

/-! ### Points -/

theorem not_isSome {α : Type} {o : Option α} (h : ¬ o.isSome = true) : o = none := by
  cases o with
  | none => rfl
  | some _ => exact absurd rfl h

theorem lookup_append_single (m : PointMap K) (k k' : K) (i : Nat) :
    (m ++ [(k, i)]).lookup k' = (m.lookup k').or (if k' = k then some i else none) := by
  rw [List.lookup_append]
  congr 1
  by_cases h : k' = k
  · simp [h, List.lookup_cons]
  · have : (k' == k) = false := by simpa using h
    simp [h, List.lookup_cons, this]

/-- Each key has its own number below the size. -/
structure Good (m : PointMap K) : Prop where
  lt : ∀ k i, m.lookup k = some i → i < m.length
  inj : ∀ k k' i, m.lookup k = some i → m.lookup k' = some i → k = k'

theorem insertPoint_spec {m : PointMap K} (h : Good m) (k : K) : Good (insertPoint m k) ∧
    ∀ k', ((insertPoint m k).lookup k').isSome = true ↔ (m.lookup k').isSome = true ∨ k' = k := by
  unfold insertPoint
  by_cases hk : (m.lookup k).isSome = true
  · rw [if_pos hk]
    refine ⟨h, fun k' => ⟨Or.inl, ?_⟩⟩
    rintro (h' | rfl)
    · exact h'
    · exact hk
  · rw [if_neg hk]
    have hnone : m.lookup k = none := not_isSome hk
    have hl := lookup_append_single m k
    refine ⟨⟨?_, ?_⟩, ?_⟩
    · intro k' i hi
      rw [hl] at hi
      rw [List.length_append, List.length_singleton]
      cases hm : m.lookup k' with
      | some j =>
        rw [hm] at hi
        simp only [Option.some_or, Option.some.injEq] at hi
        subst hi
        have := h.lt _ _ hm
        omega
      | none =>
        rw [hm] at hi
        by_cases he : k' = k
        · simp [he] at hi; omega
        · simp [he] at hi
    · intro k1 k2 i h1 h2
      rw [hl] at h1 h2
      cases hm1 : m.lookup k1 with
      | some j1 =>
        rw [hm1] at h1
        simp only [Option.some_or, Option.some.injEq] at h1
        subst h1
        cases hm2 : m.lookup k2 with
        | some j2 =>
          rw [hm2] at h2
          simp only [Option.some_or, Option.some.injEq] at h2
          subst h2
          exact h.inj _ _ _ hm1 hm2
        | none =>
          rw [hm2] at h2
          have := h.lt _ _ hm1
          by_cases he : k2 = k
          · simp [he] at h2; omega
          · simp [he] at h2
      | none =>
        rw [hm1] at h1
        by_cases he1 : k1 = k
        · simp [he1] at h1
          cases hm2 : m.lookup k2 with
          | some j2 =>
            rw [hm2] at h2
            simp only [Option.some_or, Option.some.injEq] at h2
            have := h.lt _ _ hm2
            omega
          | none =>
            rw [hm2] at h2
            by_cases he2 : k2 = k
            · rw [he1, he2]
            · simp [he2] at h2
        · simp [he1] at h1
    · intro k'
      rw [hl]
      cases hm : m.lookup k' with
      | some j => simp
      | none => by_cases he : k' = k <;> simp [he]

theorem foldl_insertPoint (ks : List K) : ∀ (m : PointMap K), Good m → Good (ks.foldl insertPoint m) ∧
    ∀ k', ((ks.foldl insertPoint m).lookup k').isSome = true ↔ (m.lookup k').isSome = true ∨ k' ∈ ks := by
  induction ks with
  | nil => intro m h; exact ⟨h, fun k' => by simp⟩
  | cons k ks ih =>
    intro m h
    obtain ⟨h1, h2⟩ := insertPoint_spec h k
    obtain ⟨h3, h4⟩ := ih _ h1
    refine ⟨h3, fun k' => ?_⟩
    rw [List.foldl_cons, h4, h2, List.mem_cons, or_assoc]

/-- A point of an edge. -/
def OnEdge (proj : P → K) (g : Graph P) (k : K) : Prop := ∃ e ∈ g.edges, ∃ p ∈ e.line, proj p = k

theorem indexPoints_spec (proj : P → K) (g : Graph P) : Good (indexPoints proj g) ∧
    ∀ k, ((indexPoints proj g).lookup k).isSome = true ↔ OnEdge proj g k := by
  obtain ⟨h1, h2⟩ := foldl_insertPoint (g.edges.flatMap (fun e => e.line.map proj)) ([] : PointMap K) ⟨by simp, by simp⟩
  refine ⟨h1, fun k => ?_⟩
  unfold indexPoints
  rw [h2]
  simp [OnEdge, List.mem_flatMap, List.mem_map]

/-- The number of an entry never changes, new ones get zero. -/
theorem access_spec (m : PointMap K) (k : K) : (access m k).2.lookup k = some (access m k).1 ∧
    ∀ k', (access m k).2.lookup k' = (m.lookup k').or (if k' = k then some 0 else none) := by
  unfold access
  cases h : m.lookup k with
  | some i =>
    refine ⟨h, fun k' => ?_⟩
    by_cases he : k' = k
    · subst he; simp [h]
    · simp [he]
  | none =>
    simp only
    refine ⟨by rw [lookup_append_single, h]; simp, fun k' => lookup_append_single m k k' 0⟩

theorem addNodes_spec (proj : P → K) (vs : List (Vertex P)) : ∀ (m : PointMap K),
    (∀ k i, m.lookup k = some i → (addNodes proj m vs).2.lookup k = some i) ∧
    (∀ k, ((addNodes proj m vs).2.lookup k).isSome = true ↔ (m.lookup k).isSome = true ∨ ∃ v ∈ vs, proj v.point = k) ∧
    (∀ k, (addNodes proj m vs).2.lookup k = (m.lookup k).or (if ∃ v ∈ vs, proj v.point = k then some 0 else none)) ∧
    (∀ n ∈ (addNodes proj m vs).1, (addNodes proj m vs).2.lookup n.location = some n.id) ∧
    (addNodes proj m vs).1.map NodeOut.location = vs.map (fun v => proj v.point) := by
  classical
  induction vs with
  | nil => intro m; simp [addNodes]
  | cons v vs ih =>
    intro m
    obtain ⟨h1, h2, h3, h4, h5⟩ := ih (access m (proj v.point)).2
    obtain ⟨a1, a2⟩ := access_spec m (proj v.point)
    have hkeep : ∀ k i, m.lookup k = some i → (access m (proj v.point)).2.lookup k = some i := by
      intro k i h
      rw [a2, h]
      rfl
    refine ⟨fun k i h => h1 k i (hkeep k i h), ?_, ?_, ?_, ?_⟩
    · intro k
      rw [addNodes, h2, a2]
      simp only [List.mem_cons, exists_eq_or_imp]
      cases hm : m.lookup k with
      | some i => simp
      | none =>
        by_cases he : k = proj v.point
        · simp [he]
        · simp [he, Ne.symm he]
    · intro k
      rw [addNodes, h3, a2]
      simp only [List.mem_cons, exists_eq_or_imp]
      cases hm : m.lookup k with
      | some i => simp
      | none =>
        by_cases he : k = proj v.point
        · simp [he]
        · simp [he, Ne.symm he]
    · intro n hn
      rw [addNodes] at hn ⊢
      rcases List.mem_cons.1 hn with rfl | hn
      · exact h1 _ _ a1
      · exact h4 n hn
    · rw [addNodes]
      simp [h5]

theorem mem_lookup {m : PointMap K} (hn : (m.map Prod.fst).Nodup) {k : K} {i : Nat} (h : (k, i) ∈ m) : m.lookup k = some i := by
  induction m with
  | nil => simp at h
  | cons x m ih =>
    obtain ⟨k0, i0⟩ := x
    rw [List.map_cons, List.nodup_cons] at hn
    rw [List.lookup_cons]
    rcases List.mem_cons.1 h with he | h
    · cases he
      simp
    · have : k ≠ k0 := by
        intro hkk
        exact hn.1 (List.mem_map.2 ⟨(k, i), h, hkk⟩)
      have : (k == k0) = false := by simpa using this
      rw [this]
      exact ih hn.2 h

theorem lookup_mem {m : PointMap K} {k : K} {i : Nat} (h : m.lookup k = some i) : (k, i) ∈ m := by
  induction m with
  | nil => simp at h
  | cons x m ih =>
    obtain ⟨k0, i0⟩ := x
    rw [List.lookup_cons] at h
    by_cases he : (k == k0) = true
    · rw [he] at h
      cases h
      rw [LawfulBEq.eq_of_beq he]
      exact List.mem_cons_self ..
    · have : (k == k0) = false := by simpa using he
      rw [this] at h
      exact List.mem_cons_of_mem _ (ih h)

theorem lookup_none_notMem {m : PointMap K} {k : K} (h : m.lookup k = none) : k ∉ m.map Prod.fst := by
  induction m with
  | nil => simp
  | cons x m ih =>
    obtain ⟨k0, i0⟩ := x
    rw [List.lookup_cons] at h
    by_cases he : (k == k0) = true
    · rw [he] at h; cases h
    · have he' : (k == k0) = false := by simpa using he
      rw [he'] at h
      rw [List.map_cons, List.mem_cons, not_or]
      exact ⟨by simpa using he, ih h⟩

theorem nodup_append_single {m : PointMap K} (hn : (m.map Prod.fst).Nodup) {k : K} (h : m.lookup k = none) (i : Nat) :
    ((m ++ [(k, i)]).map Prod.fst).Nodup := by
  rw [List.map_append, List.nodup_append]
  refine ⟨hn, by simp, ?_⟩
  intro a ha b hb
  simp only [List.map_cons, List.map_nil, List.mem_singleton] at hb
  subst hb
  rintro rfl
  exact lookup_none_notMem h ha

theorem indexPoints_nodup (proj : P → K) (g : Graph P) : ((indexPoints proj g).map Prod.fst).Nodup := by
  unfold indexPoints
  generalize g.edges.flatMap (fun e => e.line.map proj) = ks
  have : ∀ (m : PointMap K), (m.map Prod.fst).Nodup → ((ks.foldl insertPoint m).map Prod.fst).Nodup := by
    induction ks with
    | nil => intro m h; exact h
    | cons k ks ih =>
      intro m h
      rw [List.foldl_cons]
      apply ih
      unfold insertPoint
      by_cases hk : (m.lookup k).isSome = true
      · rw [if_pos hk]; exact h
      · rw [if_neg hk]; exact nodup_append_single h (not_isSome hk) _
  exact this [] (by simp)

theorem addNodes_nodup (proj : P → K) (vs : List (Vertex P)) : ∀ (m : PointMap K), (m.map Prod.fst).Nodup →
    ((addNodes proj m vs).2.map Prod.fst).Nodup := by
  induction vs with
  | nil => intro m h; exact h
  | cons v vs ih =>
    intro m h
    rw [addNodes]
    apply ih
    unfold access
    cases hm : m.lookup (proj v.point) with
    | some i => exact h
    | none => exact nodup_append_single h hm _

/-- The map after the nodes were written. -/
def finalMap (proj : P → K) (g : Graph P) : PointMap K := (addNodes proj (indexPoints proj g) g.vertices).2

theorem nodes_lookup (proj : P → K) (g : Graph P) {n : NodeOut K} (h : n ∈ nodes proj g) :
    (finalMap proj g).lookup n.location = some n.id := by
  unfold nodes at h
  rcases List.mem_append.1 h with h | h
  · exact (addNodes_spec proj g.vertices _).2.2.2.1 n h
  · unfold addPoints at h
    obtain ⟨⟨k, i⟩, hp, rfl⟩ := List.mem_map.1 h
    exact mem_lookup (addNodes_nodup proj _ _ (indexPoints_nodup proj g)) (List.mem_filter.1 hp).1

/-- **C42**, nodes: the written nodes are at the places of all vertices and all points of edges and nowhere else; nodes at the same place
have the same identifier.  Each vertex is written, with its tags. -/
theorem nodes_places (proj : P → K) (g : Graph P) :
    (∀ k, (∃ n ∈ nodes proj g, n.location = k) ↔ OnEdge proj g k ∨ ∃ v ∈ g.vertices, proj v.point = k) ∧
    (∀ n ∈ nodes proj g, ∀ n' ∈ nodes proj g, n.location = n'.location → n.id = n'.id) ∧
    (∀ v ∈ g.vertices, ∃ n ∈ nodes proj g, n.location = proj v.point ∧ n.tags = v.tags) := by
  obtain ⟨h1, h2, h3, h4, h5⟩ := addNodes_spec proj g.vertices (indexPoints proj g)
  obtain ⟨i1, i2⟩ := indexPoints_spec proj g
  have hex : ∀ k, ((finalMap proj g).lookup k).isSome = true ↔ OnEdge proj g k ∨ ∃ v ∈ g.vertices, proj v.point = k := by
    intro k
    unfold finalMap
    rw [h2, i2]
  refine ⟨fun k => ?_, ?_, ?_⟩
  · rw [← hex]
    constructor
    · rintro ⟨n, hn, rfl⟩
      rw [nodes_lookup proj g hn]
      rfl
    · intro hk
      obtain ⟨i, hi⟩ := Option.isSome_iff_exists.1 hk
      by_cases hv : k ∈ (addNodes proj (indexPoints proj g) g.vertices).1.map NodeOut.location
      · obtain ⟨n, hn, rfl⟩ := List.mem_map.1 hv
        exact ⟨n, List.mem_append_left _ hn, rfl⟩
      · refine ⟨⟨i, k, []⟩, List.mem_append_right _ ?_, rfl⟩
        unfold addPoints
        exact List.mem_map.2 ⟨(k, i), List.mem_filter.2 ⟨lookup_mem hi, by simpa using hv⟩, rfl⟩
  · intro n hn n' hn' he
    have e1 := nodes_lookup proj g hn
    have e2 := nodes_lookup proj g hn'
    rw [he, e2] at e1
    exact (Option.some.inj e1).symm
  · intro v hv
    have : ∀ (vs : List (Vertex P)) (m : PointMap K), v ∈ vs → ∃ n ∈ (addNodes proj m vs).1, n.location = proj v.point ∧ n.tags = v.tags := by
      intro vs
      induction vs with
      | nil => intro m h; simp at h
      | cons w vs ih =>
        intro m h
        rw [addNodes]
        rcases List.mem_cons.1 h with rfl | h
        · exact ⟨_, List.mem_cons_self .., rfl, rfl⟩
        · obtain ⟨n, hn, hp⟩ := ih (access m (proj w.point)).2 h
          exact ⟨n, List.mem_cons_of_mem _ hn, hp⟩
    obtain ⟨n, hn, hp⟩ := this g.vertices _ hv
    exact ⟨n, List.mem_append_left _ hn, hp⟩

/-- **C42.**  If no two vertices are at the same place, no place is written twice. -/
theorem nodes_once (proj : P → K) (g : Graph P) (h : (g.vertices.map fun v => proj v.point).Nodup) :
    ((nodes proj g).map NodeOut.location).Nodup := by
  obtain ⟨_, _, _, _, h5⟩ := addNodes_spec proj g.vertices (indexPoints proj g)
  unfold nodes
  rw [List.map_append, List.nodup_append]
  refine ⟨by rw [h5]; exact h, ?_, ?_⟩
  · unfold addPoints
    rw [List.map_map]
    have : (NodeOut.location ∘ fun p : K × Nat => (⟨p.2, p.1, []⟩ : NodeOut K)) = Prod.fst := rfl
    rw [this]
    exact (addNodes_nodup proj _ _ (indexPoints_nodup proj g)).sublist (List.filter_sublist.map _)
  · intro a ha b hb he
    subst he
    obtain ⟨n, hn, rfl⟩ := List.mem_map.1 hb
    unfold addPoints at hn
    obtain ⟨p, hp, rfl⟩ := List.mem_map.1 hn
    have := (List.mem_filter.1 hp).2
    exact of_decide_eq_true this ha

/-- **C42**, identifiers: nodes at different places have different identifiers, if every vertex lies on an edge.  Missing: networks with
isolated vertices (`nodes_fails`). -/
theorem nodes_partial (proj : P → K) (g : Graph P) (h : ∀ v ∈ g.vertices, OnEdge proj g (proj v.point)) :
    ∀ n ∈ nodes proj g, ∀ n' ∈ nodes proj g, n.id = n'.id → n.location = n'.location := by
  obtain ⟨h1, h2, h3, h4, h5⟩ := addNodes_spec proj g.vertices (indexPoints proj g)
  obtain ⟨i1, i2⟩ := indexPoints_spec proj g
  intro n hn n' hn' he
  have hidx : ∀ n ∈ nodes proj g, (indexPoints proj g).lookup n.location = some n.id := by
    intro n hn
    have hf := nodes_lookup proj g hn
    have hon : OnEdge proj g n.location := by
      rcases ((nodes_places proj g).1 n.location).1 ⟨n, hn, rfl⟩ with ho | ⟨v, hv, hp⟩
      · exact ho
      · rw [← hp]; exact h v hv
    obtain ⟨i, hi⟩ := Option.isSome_iff_exists.1 ((i2 _).2 hon)
    have := h1 _ _ hi
    unfold finalMap at hf
    rw [this] at hf
    rw [hi, hf]
  exact i1.inj _ _ _ (hidx n hn) (he ▸ hidx n' hn')

/-- **C42 fails** with isolated vertices: vertices 2 and 3 lie on no edge, their nodes get the identifier of the first point. -/
theorem nodes_fails : ∃ g : Graph Nat, ∃ n ∈ nodes id g, ∃ n' ∈ nodes id g, n.id = n'.id ∧ n.location ≠ n'.location :=
  ⟨⟨[⟨10, []⟩, ⟨11, []⟩, ⟨12, []⟩, ⟨13, []⟩], [⟨0, 1, [10, 11], []⟩]⟩, ⟨0, 10, []⟩, by decide, ⟨0, 12, []⟩, by decide, rfl, by decide⟩

/-! ### Ways -/

theorem linesReversed_iff (a b : List P) : linesReversed a b = true ↔ a ≠ [] ∧ a = b.reverse := by
  obtain ⟨r, hr, hiff⟩ := Convert.reversed_iff a b
  unfold linesReversed
  rw [hr]
  exact hiff

theorem mem_reverses (g : Graph P) (e : Edge P) (j : Nat) :
    j ∈ reverses g e ↔ ∃ f, g.edges[j]? = some f ∧ f.src = e.tgt ∧ e.line ≠ [] ∧ e.line = f.line.reverse := by
  unfold reverses
  rw [List.mem_filter, List.mem_range]
  constructor
  · rintro ⟨hlt, h⟩
    rw [List.getElem?_eq_getElem hlt] at h ⊢
    simp only [Bool.and_eq_true, decide_eq_true_eq, linesReversed_iff] at h
    exact ⟨_, rfl, h⟩
  · rintro ⟨f, hf, h⟩
    refine ⟨(List.getElem?_eq_some_iff.1 hf).1, ?_⟩
    rw [hf]
    simp only [Bool.and_eq_true, decide_eq_true_eq, linesReversed_iff]
    exact h

/-- How a way is read by the importer with its default filters (C40). -/
def TwoWay (w : WayOut K) : Prop := w.tags.any Osm.defaults.oneway.test = false

theorem addWays_mem (proj : P → K) (m : PointMap K) (g : Graph P) : ∀ (es : List (Edge P)) (i : Nat) (rev : List Nat) (index : Nat)
    (w : WayOut K), w ∈ addWays proj m g i es rev index → i ≤ w.edge ∧ index ≤ w.id ∧ w.edge ∉ rev ∧
      ∃ e, es[w.edge - i]? = some e ∧ w.refs = wayRefs proj m e.line ∧ w.tags = wayTags e.tags (reverses g e).isEmpty := by
  intro es
  induction es with
  | nil => intro i rev index w h; simp [addWays] at h
  | cons e es ih =>
    intro i rev index w h
    rw [addWays] at h
    split at h
    · obtain ⟨h1, h2, h3, f, h4, h5⟩ := ih _ _ _ w h
      refine ⟨by omega, h2, h3, f, ?_, h5⟩
      rw [show w.edge - i = (w.edge - (i + 1)) + 1 by omega]
      exact h4
    · rename_i hi
      rcases List.mem_cons.1 h with rfl | h
      · exact ⟨Nat.le_refl _, Nat.le_refl _, hi, e, by simp, rfl, rfl⟩
      · obtain ⟨h1, h2, h3, f, h4, h5⟩ := ih _ _ _ w h
        refine ⟨by omega, by omega, fun hc => h3 (List.mem_append_right _ hc), f, ?_, h5⟩
        rw [show w.edge - i = (w.edge - (i + 1)) + 1 by omega]
        exact h4

theorem addWays_pairwise (proj : P → K) (m : PointMap K) (g : Graph P) : ∀ (es : List (Edge P)) (i : Nat) (rev : List Nat) (index : Nat),
    (addWays proj m g i es rev index).Pairwise (fun a b => a.id < b.id ∧ a.edge < b.edge) := by
  intro es
  induction es with
  | nil => intro i rev index; simp [addWays]
  | cons e es ih =>
    intro i rev index
    rw [addWays]
    split
    · exact ih _ _ _
    · refine List.pairwise_cons.2 ⟨?_, ih _ _ _⟩
      intro w hw
      obtain ⟨h1, h2, _⟩ := addWays_mem proj m g es _ _ _ w hw
      simp only
      omega

/-- **C42**, ways: identifiers of ways are unique and also differ from those of nodes; the references of a way are the points of its edge
in order, each with the identifier of a written node at that place. -/
theorem ways_refs (proj : P → K) (g : Graph P) :
    ((ways proj g).map WayOut.id).Nodup ∧ (∀ w ∈ ways proj g, ∀ n ∈ nodes proj g, OnEdge proj g n.location → n.id ≠ w.id) ∧
    ∀ w ∈ ways proj g, ∃ e, g.edges[w.edge]? = some e ∧ w.refs.map Prod.snd = e.line.map proj ∧
      ∀ r ∈ w.refs, ∃ n ∈ nodes proj g, n.id = r.1 ∧ n.location = r.2 := by
  obtain ⟨h1, h2, h3, h4, h5⟩ := addNodes_spec proj g.vertices (indexPoints proj g)
  obtain ⟨i1, i2⟩ := indexPoints_spec proj g
  refine ⟨?_, ?_, ?_⟩
  · have := addWays_pairwise proj (addNodes proj (indexPoints proj g) g.vertices).2 g g.edges 0 [] (indexPoints proj g).length
    unfold ways
    rw [List.nodup_iff_pairwise_ne, List.pairwise_map]
    exact this.imp (fun h => Nat.ne_of_lt h.1)
  · intro w hw n hn hon he
    obtain ⟨_, g2, _⟩ := addWays_mem proj _ g g.edges _ _ _ w hw
    obtain ⟨i, hi⟩ := Option.isSome_iff_exists.1 ((i2 _).2 hon)
    have hlt := i1.lt _ _ hi
    have hf := nodes_lookup proj g hn
    unfold finalMap at hf
    rw [h1 _ _ hi] at hf
    have : i = n.id := Option.some.inj hf
    omega
  · intro w hw
    obtain ⟨_, _, _, e, he, hr, _⟩ := addWays_mem proj _ g g.edges _ _ _ w hw
    rw [Nat.sub_zero] at he
    refine ⟨e, he, by rw [hr]; simp [wayRefs], ?_⟩
    intro r hr'
    rw [hr] at hr'
    obtain ⟨p, hp, rfl⟩ := List.mem_map.1 hr'
    have hon : OnEdge proj g (proj p) := ⟨e, List.mem_of_getElem? he, p, hp, rfl⟩
    obtain ⟨n, hn, hloc⟩ := ((nodes_places proj g).1 (proj p)).2 (Or.inl hon)
    refine ⟨n, hn, ?_, hloc⟩
    have hf := nodes_lookup proj g hn
    unfold finalMap at hf
    rw [hloc] at hf
    simp [access, hf]

theorem any_yes {tags : Tags} (h : tags.any (fun t => decide (t.1 = "oneway") && decide (t.2 = "yes")) = true) (b : Bool) :
    ("oneway", "yes") ∈ wayTags tags b := by
  obtain ⟨⟨k, v⟩, hm, hk⟩ := List.any_eq_true.1 h
  simp only [Bool.and_eq_true, decide_eq_true_eq] at hk
  obtain ⟨rfl, rfl⟩ := hk
  exact List.mem_append_left _ (List.mem_filter.2 ⟨hm, by decide⟩)

theorem wayTags_oneway (tags : Tags) : (wayTags tags true).any Osm.defaults.oneway.test = true := by
  have hmem : ("oneway", "yes") ∈ wayTags tags true := by
    by_cases h : tags.any (fun t => decide (t.1 = "oneway") && decide (t.2 = "yes")) = true
    · exact any_yes h true
    · apply List.mem_append_right
      have : tags.any (fun t => decide (t.1 = "oneway") && decide (t.2 = "yes")) = false := Bool.eq_false_iff.2 h
      rw [this]
      simp
  exact List.any_eq_true.2 ⟨_, hmem, by decide⟩

/-- **C42**, one-way edges: whatever the tags are, a way read as two-way has an edge with the reversed line; no way is read as reversed. -/
theorem oneway_kept (proj : P → K) (g : Graph P) : ∀ w ∈ ways proj g, w.tags.any Osm.defaults.reverse.test = false ∧
    (TwoWay w → ∃ e f, g.edges[w.edge]? = some e ∧ f ∈ g.edges ∧ e.line = f.line.reverse) := by
  intro w hw
  obtain ⟨_, _, _, e, he, _, ht⟩ := addWays_mem proj _ g g.edges _ _ _ w hw
  rw [Nat.sub_zero] at he
  constructor
  · rw [ht, List.any_eq_false]
    intro t hmem
    have hrev : ∀ t : String × String, Osm.defaults.reverse.test t = true → keepTag t = false := by
      rintro ⟨k, v⟩ h
      simp only [Osm.Filter.test, Osm.defaults, Osm.Rule.applies] at h
      by_cases h1 : (decide ("oneway" = k) && decide ("-1" = v)) = true
      · simp only [Bool.and_eq_true, decide_eq_true_eq] at h1
        obtain ⟨rfl, rfl⟩ := h1
        decide
      · by_cases h2 : (decide ("oneway" = k) && decide ("reverse" = v)) = true
        · simp only [Bool.and_eq_true, decide_eq_true_eq] at h2
          obtain ⟨rfl, rfl⟩ := h2
          decide
        · simp only [List.find?_cons, h1, h2, List.find?_nil] at h
          cases h
    rcases List.mem_append.1 hmem with hm | hm
    · have hk := (List.mem_filter.1 hm).2
      intro hc
      rw [hrev t hc] at hk
      cases hk
    · split at hm
      · simp only [List.mem_singleton] at hm
        subst hm
        decide
      · simp at hm
  · intro h2
    unfold TwoWay at h2
    by_cases hempty : (reverses g e).isEmpty = true
    · rw [ht, hempty, wayTags_oneway] at h2
      cases h2
    · obtain ⟨j, hj⟩ : ∃ j, j ∈ reverses g e := by
        cases hr : reverses g e with
        | nil => rw [hr] at hempty; simp at hempty
        | cons j js => exact ⟨j, List.mem_cons_self ..⟩
      obtain ⟨f, hf, _, _, hl⟩ := (mem_reverses g e j).1 hj
      exact ⟨e, f, he, List.mem_of_getElem? hf, hl⟩

/-- Which edges get a way: those that no edge before with a way has marked. -/
theorem addWays_exported (proj : P → K) (m : PointMap K) (g : Graph P) : ∀ (es : List (Edge P)) (i : Nat) (rev : List Nat) (index : Nat) (j : Nat)
    (e : Edge P), es[j]? = some e →
      ((∃ w ∈ addWays proj m g i es rev index, w.edge = i + j) ↔
        i + j ∉ rev ∧ ∀ k f, k < j → es[k]? = some f → (∃ w ∈ addWays proj m g i es rev index, w.edge = i + k) → i + j ∉ reverses g f) := by
  intro es
  induction es with
  | nil => intro i rev index j e h; simp at h
  | cons d es ih =>
    intro i rev index j e hj
    rw [addWays]
    by_cases hi : i ∈ rev
    · rw [if_pos hi]
      cases j with
      | zero =>
        simp only [Nat.add_zero]
        constructor
        · rintro ⟨w, hw, he⟩
          have := (addWays_mem proj m g es _ _ _ w hw).1
          omega
        · rintro ⟨h, _⟩
          exact absurd hi h
      | succ j =>
        rw [List.getElem?_cons_succ] at hj
        have := ih (i + 1) rev index j e hj
        rw [show i + (j + 1) = i + 1 + j by omega]
        rw [this]
        constructor
        · rintro ⟨h1, h2⟩
          refine ⟨h1, fun k f hk hf hw => ?_⟩
          cases k with
          | zero =>
            obtain ⟨w, hw, he⟩ := hw
            have := (addWays_mem proj m g es _ _ _ w hw).1
            omega
          | succ k =>
            rw [List.getElem?_cons_succ] at hf
            rw [show i + (k + 1) = i + 1 + k by omega] at hw
            exact h2 k f (by omega) hf hw
        · rintro ⟨h1, h2⟩
          refine ⟨h1, fun k f hk hf hw => ?_⟩
          rw [show i + 1 + k = i + (k + 1) by omega] at hw
          exact h2 (k + 1) f (by omega) (by rwa [List.getElem?_cons_succ]) hw
    · rw [if_neg hi]
      cases j with
      | zero =>
        simp only [Nat.add_zero]
        constructor
        · intro _
          exact ⟨hi, fun k f hk => by omega⟩
        · intro _
          exact ⟨_, List.mem_cons_self .., rfl⟩
      | succ j =>
        rw [List.getElem?_cons_succ] at hj
        have := ih (i + 1) (reverses g d ++ rev) (index + 1) j e hj
        have hcons : ∀ k, (∃ w ∈ (⟨index, i, wayRefs proj m d.line, wayTags d.tags (reverses g d).isEmpty⟩ : WayOut K) ::
            addWays proj m g (i + 1) es (reverses g d ++ rev) (index + 1), w.edge = i + (k + 1)) ↔
            ∃ w ∈ addWays proj m g (i + 1) es (reverses g d ++ rev) (index + 1), w.edge = i + 1 + k := by
          intro k
          rw [show i + (k + 1) = i + 1 + k by omega]
          constructor
          · rintro ⟨w, hw, he⟩
            rcases List.mem_cons.1 hw with rfl | hw
            · simp only at he; omega
            · exact ⟨w, hw, he⟩
          · rintro ⟨w, hw, he⟩
            exact ⟨w, List.mem_cons_of_mem _ hw, he⟩
        rw [hcons, this, show i + (j + 1) = i + 1 + j by omega]
        constructor
        · rintro ⟨h1, h2⟩
          refine ⟨fun hc => h1 (List.mem_append_right _ hc), fun k f hk hf hw => ?_⟩
          cases k with
          | zero =>
            simp only [List.getElem?_cons_zero, Option.some.injEq] at hf
            subst hf
            exact fun hc => h1 (List.mem_append_left _ hc)
          | succ k =>
            rw [List.getElem?_cons_succ] at hf
            exact h2 k f (by omega) hf ((hcons k).1 hw)
        · rintro ⟨h1, h2⟩
          refine ⟨?_, fun k f hk hf hw => h2 (k + 1) f (by omega) (by rwa [List.getElem?_cons_succ]) ((hcons k).2 hw)⟩
          intro hc
          rcases List.mem_append.1 hc with hc | hc
          · exact h2 0 d (by omega) rfl ⟨_, List.mem_cons_self .., rfl⟩ hc
          · exact h1 hc

/-- The way of edge `k` stands for edge `i`: it is its own, or it is read as two-way and its line is reversed. -/
def StandsFor (g : Graph P) (w : WayOut K) (i : Nat) : Prop :=
  w.edge = i ∨ TwoWay w ∧ ∃ e f, g.edges[w.edge]? = some e ∧ g.edges[i]? = some f ∧ f.line = e.line.reverse

/-- **C42**, edges: each edge has exactly one way that stands for it, if lines are not empty and all different, none is its own reverse, an
edge with the reversed line starts at the target, and edges with both directions have no tag of a one-way.  Missing: all others
(`ways_duplicate_fails`, `ways_tags_fails`, `ways_nodes_fails`). -/
theorem ways_partial (proj : P → K) (g : Graph P)
    (hne : ∀ e ∈ g.edges, e.line ≠ [] ∧ e.line ≠ e.line.reverse)
    (hdiff : (g.edges.map Edge.line).Nodup)
    (hends : ∀ e ∈ g.edges, ∀ f ∈ g.edges, e.line = f.line.reverse → f.src = e.tgt)
    (htags : ∀ e ∈ g.edges, ∀ f ∈ g.edges, e.line = f.line.reverse → e.tags.any Osm.defaults.oneway.test = false) :
    ∀ i < g.edges.length, ∃ w ∈ ways proj g, StandsFor g w i ∧ ∀ w' ∈ ways proj g, StandsFor g w' i → w' = w := by
  have hinj : ∀ (i j : Nat) (e f : Edge P), g.edges[i]? = some e → g.edges[j]? = some f → e.line = f.line → i = j := by
    intro i j e f hi hj hl
    have hi' : (g.edges.map Edge.line)[i]? = some e.line := by rw [List.getElem?_map, hi]; rfl
    have hj' : (g.edges.map Edge.line)[j]? = some e.line := by rw [List.getElem?_map, hj, hl]; rfl
    obtain ⟨h1, h1'⟩ := List.getElem?_eq_some_iff.1 hi'
    obtain ⟨h2, h2'⟩ := List.getElem?_eq_some_iff.1 hj'
    exact (List.Nodup.getElem_inj_iff hdiff).1 (h1'.trans h2'.symm)
  have hrev : ∀ (i j : Nat) (e f : Edge P), g.edges[i]? = some e → g.edges[j]? = some f → (j ∈ reverses g e ↔ e.line = f.line.reverse) := by
    intro i j e f hi hj
    rw [mem_reverses]
    constructor
    · rintro ⟨f', hf', _, _, hl⟩
      rw [hj] at hf'
      cases hf'
      exact hl
    · intro hl
      exact ⟨f, hj, hends e (List.mem_of_getElem? hi) f (List.mem_of_getElem? hj) hl, (hne e (List.mem_of_getElem? hi)).1, hl⟩
  have hexp : ∀ (j : Nat) (e : Edge P), g.edges[j]? = some e → ((∃ w ∈ ways proj g, w.edge = j) ↔
      ∀ k f, k < j → g.edges[k]? = some f → (∃ w ∈ ways proj g, w.edge = k) → j ∉ reverses g f) := by
    intro j e hj
    have := addWays_exported proj (addNodes proj (indexPoints proj g) g.vertices).2 g g.edges 0 [] (indexPoints proj g).length j e hj
    simpa [ways] using this
  have huniq : ∀ w ∈ ways proj g, ∀ w' ∈ ways proj g, w.edge = w'.edge → w = w' := by
    have := addWays_pairwise proj (addNodes proj (indexPoints proj g) g.vertices).2 g g.edges 0 [] (indexPoints proj g).length
    have hnd : ((ways proj g).map WayOut.edge).Nodup := by
      unfold ways
      rw [List.nodup_iff_pairwise_ne, List.pairwise_map]
      exact this.imp (fun h => Nat.ne_of_lt h.2)
    intro w hw w' hw' he
    exact List.inj_on_of_nodup_map hnd hw hw' he
  have hedge : ∀ w ∈ ways proj g, ∃ e, g.edges[w.edge]? = some e ∧ w.tags = wayTags e.tags (reverses g e).isEmpty := by
    intro w hw
    obtain ⟨_, _, _, e, he, _, ht⟩ := addWays_mem proj _ g g.edges _ _ _ w hw
    exact ⟨e, by simpa using he, ht⟩
  -- of two edges with reversed lines only one has a way
  have hone : ∀ w ∈ ways proj g, ∀ w' ∈ ways proj g, ∀ e f, g.edges[w.edge]? = some e → g.edges[w'.edge]? = some f →
      e.line = f.line.reverse → False := by
    intro w hw w' hw' e f he hf hl
    have hl' : f.line = e.line.reverse := by rw [hl, List.reverse_reverse]
    rcases Nat.lt_trichotomy w.edge w'.edge with hlt | heq | hlt
    · exact ((hexp _ f hf).1 ⟨w', hw', rfl⟩) _ e hlt he ⟨w, hw, rfl⟩ ((hrev _ _ e f he hf).2 hl)
    · rw [heq, hf] at he
      cases he
      exact (hne _ (List.mem_of_getElem? hf)).2 hl
    · exact ((hexp _ e he).1 ⟨w, hw, rfl⟩) _ f hlt hf ⟨w', hw', rfl⟩ ((hrev _ _ f e hf he).2 hl')
  intro i hi
  have hei : ∃ e, g.edges[i]? = some e := ⟨_, List.getElem?_eq_getElem hi⟩
  obtain ⟨e, he⟩ := hei
  by_cases hex : ∃ w ∈ ways proj g, w.edge = i
  · obtain ⟨w, hw, hwi⟩ := hex
    refine ⟨w, hw, Or.inl hwi, ?_⟩
    rintro w' hw' (h | ⟨_, e', f', he', hf', hl⟩)
    · exact huniq w' hw' w hw (h.trans hwi.symm)
    · exact absurd (hone w hw w' hw' f' e' (by rw [hwi]; exact hf') he' hl) (by simp)
  · have hex' := hex
    rw [hexp i e he] at hex
    have hex2 : ∃ k f, k < i ∧ g.edges[k]? = some f ∧ (∃ w ∈ ways proj g, w.edge = k) ∧ i ∈ reverses g f := by
      by_contra hc
      apply hex
      intro k f hk hf hw hm
      exact hc ⟨k, f, hk, hf, hw, hm⟩
    obtain ⟨k, f, hk, hf, ⟨w, hw, hwk⟩, hm⟩ := hex2
    have hl : f.line = e.line.reverse := (hrev k i f e hf he).1 hm
    have hl' : e.line = f.line.reverse := by rw [hl, List.reverse_reverse]
    refine ⟨w, hw, Or.inr ⟨?_, f, e, by rw [hwk]; exact hf, he, hl'⟩, ?_⟩
    · obtain ⟨f', hf', ht⟩ := hedge w hw
      rw [hwk, hf] at hf'
      cases hf'
      have hempty : (reverses g f).isEmpty = false := by
        cases hr : reverses g f with
        | nil => rw [hr] at hm; simp at hm
        | cons _ _ => rfl
      unfold TwoWay
      rw [ht, hempty]
      have := htags f (List.mem_of_getElem? hf) e (List.mem_of_getElem? he) hl
      rw [List.any_eq_false] at this ⊢
      intro t htm
      simp only [wayTags, Bool.and_false, Bool.false_eq_true, if_false, List.append_nil] at htm
      exact this t (List.mem_filter.1 htm).1
    · rintro w' hw' (h | ⟨_, e', f', he', hf', hl2⟩)
      · exact absurd ⟨w', hw', h⟩ hex'
      · rw [he] at hf'
        cases hf'
        have hee : e'.line = f.line := by
          rw [hl, hl2, List.reverse_reverse]
        have := hinj _ _ _ _ he' hf hee
        exact huniq w' hw' w hw (this.trans hwk.symm)

/-- **C42 fails** for duplicate edges: two two-way ways stand for the third edge. -/
theorem ways_duplicate_fails : ∃ g : Graph Nat, ∃ w ∈ ways id g, ∃ w' ∈ ways id g, w ≠ w' ∧ StandsFor g w 2 ∧ StandsFor g w' 2 := by
  refine ⟨⟨[⟨10, []⟩, ⟨11, []⟩], [⟨0, 1, [10, 11], []⟩, ⟨0, 1, [10, 11], []⟩, ⟨1, 0, [11, 10], []⟩]⟩,
    ⟨2, 0, [(0, 10), (1, 11)], []⟩, by decide, ⟨3, 1, [(0, 10), (1, 11)], []⟩, by decide, by decide, Or.inr ⟨?_, ?_⟩, Or.inr ⟨?_, ?_⟩⟩
  · unfold TwoWay; decide
  · exact ⟨_, _, rfl, rfl, rfl⟩
  · unfold TwoWay; decide
  · exact ⟨_, _, rfl, rfl, rfl⟩

/-- **C42 fails** for two one-way roads with the same points in opposite directions: only one of them is exported. -/
theorem ways_tags_fails : ∃ g : Graph Nat, ∀ w ∈ ways id g, ¬ StandsFor g w 1 := by
  refine ⟨⟨[⟨10, []⟩, ⟨11, []⟩], [⟨0, 1, [10, 11], [("oneway", "yes")]⟩, ⟨1, 0, [11, 10], [("oneway", "yes")]⟩]⟩, ?_⟩
  intro w hw
  have : w = ⟨2, 0, [(0, 10), (1, 11)], [("oneway", "yes")]⟩ := by
    have h : ways id (⟨[⟨10, []⟩, ⟨11, []⟩], [⟨0, 1, [10, 11], [("oneway", "yes")]⟩, ⟨1, 0, [11, 10], [("oneway", "yes")]⟩]⟩ : Graph Nat) =
        [⟨2, 0, [(0, 10), (1, 11)], [("oneway", "yes")]⟩] := by decide
    rw [h] at hw
    exact List.mem_singleton.1 hw
  subst this
  rintro (h | ⟨h, _⟩)
  · simp at h
  · exact absurd h (by unfold TwoWay; decide)

/-- **C42 fails** if two vertices are at the same place: both edges get a way, and the second one also stands for the first edge. -/
theorem ways_nodes_fails : ∃ g : Graph Nat, ∃ w ∈ ways id g, ∃ w' ∈ ways id g, w ≠ w' ∧ StandsFor g w 0 ∧ StandsFor g w' 0 := by
  refine ⟨⟨[⟨10, []⟩, ⟨11, []⟩, ⟨11, []⟩], [⟨0, 1, [10, 11], []⟩, ⟨2, 0, [11, 10], []⟩]⟩,
    ⟨2, 0, [(0, 10), (1, 11)], [("oneway", "yes")]⟩, by decide, ⟨3, 1, [(1, 11), (0, 10)], []⟩, by decide, by decide, Or.inl rfl, Or.inr ⟨?_, ?_⟩⟩
  · unfold TwoWay; decide
  · exact ⟨_, _, rfl, rfl, rfl⟩

/-- A two-way and a one-way road: the hypotheses of `nodes_partial` and `ways_partial` hold. -/
example : ∃ g : Graph Nat, (∀ v ∈ g.vertices, OnEdge id g v.point) ∧ (∀ e ∈ g.edges, e.line ≠ [] ∧ e.line ≠ e.line.reverse) ∧
    (g.edges.map Edge.line).Nodup ∧ (∀ e ∈ g.edges, ∀ f ∈ g.edges, e.line = f.line.reverse → f.src = e.tgt) ∧
    (∀ e ∈ g.edges, ∀ f ∈ g.edges, e.line = f.line.reverse → e.tags.any Osm.defaults.oneway.test = false) ∧
    ways id g = [⟨4, 0, [(0, 10), (1, 12), (2, 11)], []⟩, ⟨5, 2, [(2, 11), (3, 13)], [("oneway", "yes")]⟩] :=
  ⟨⟨[⟨10, []⟩, ⟨11, []⟩, ⟨13, []⟩], [⟨0, 1, [10, 12, 11], []⟩, ⟨1, 0, [11, 12, 10], []⟩, ⟨1, 2, [11, 13], []⟩]⟩,
    by simp [OnEdge], by decide, by decide, by decide, by decide, by decide⟩

/-- Two vertices with a point between them: three places, each once. -/
example : ∃ g : Graph Nat, (g.vertices.map fun v => id v.point).Nodup ∧ (nodes id g).map NodeOut.location = [10, 11, 12] :=
  ⟨⟨[⟨10, []⟩, ⟨11, []⟩], [⟨0, 1, [10, 12, 11], []⟩]⟩, by decide, by decide⟩

end MM.OsmExport
