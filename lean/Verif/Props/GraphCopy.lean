import Verif.Model.GraphCopy
import Verif.Props.AdjList

/-! # Property theorems C101 (copies of mutable graphs) -/

set_option autoImplicit false
set_option linter.unusedSectionVars false

namespace MM.AdjList

variable {α β : Type} {d : Dir} {g : Graph α β}

/-! ## Specification -/

/-- `g'` is the graph `g` with other descriptors: `φ` of vertices, `ψ` of edges.  The same vertices and edges in the same order, the same
edges from and to each vertex in the same order. -/
structure SameGraph (g g' : Graph α β) (φ ψ : Nat → Nat) : Prop where
  verts : g'.verts.map (fun x => (x.id, x.data)) = g.verts.map (fun x => (φ x.id, x.data))
  edges : g'.edges.map (fun e => (e.id, e.src, e.tgt, e.data)) = g.edges.map (fun e => (ψ e.id, φ e.src, φ e.tgt, e.data))
  vertsApart : ∀ x ∈ g.verts, ∀ y ∈ g.verts, φ x.id = φ y.id → x.id = y.id
  edgesApart : ∀ x ∈ g.edges, ∀ y ∈ g.edges, ψ x.id = ψ y.id → x.id = y.id
  out : ∀ x ∈ g.verts, g'.out (φ x.id) = (g.out x.id).map ψ
  inn : ∀ x ∈ g.verts, g'.inn (φ x.id) = (g.inn x.id).map ψ

/-- The vertices are numbered one after the other. -/
def Numbered (g : Graph α β) : Prop := g.verts.map Vert.index = List.range g.verts.length

/-- Vertices and edges are numbered one after the other. -/
def FullyNumbered (g : Graph α β) : Prop := Numbered g ∧ g.edges.map Edge.index = List.range g.edges.length

/-! ## Proofs -/

/-- Where a vertex stands. -/
def placeV (g : Graph α β) (v : Nat) : Nat := (g.verts.map Vert.id).idxOf v

/-- The copy of an edge. -/
def placeE (g : Graph α β) (i : Nat) : Nat := g.verts.length + (g.edges.map Edge.id).idxOf i

theorem idxOf_get {l : List Nat} (h : l.Nodup) (i : Nat) (hi : i < l.length) : l.idxOf l[i] = i :=
  List.Nodup.idxOf_getElem h i hi

theorem vertexIndex_eq (h : Inv d g) (hn : Numbered g) {v : Nat} (hv : g.hasV v = true) :
    g.vertexIndex v = some (placeV g v) ∧ placeV g v < g.verts.length := by
  obtain ⟨x, hx, rfl⟩ := hasV_iff.1 hv
  have hf : g.verts.find? (fun y => y.id == x.id) = some x := by
    cases hf : g.verts.find? (fun y => y.id == x.id) with
    | none => have := List.find?_eq_none.1 hf x hx; simp at this
    | some y =>
      have h1 := List.mem_of_find?_eq_some hf
      have h2 := List.find?_some hf
      rw [List.inj_on_of_nodup_map h.vnodup h1 hx (by simpa using h2)]
  obtain ⟨i, hi, rfl⟩ := List.getElem_of_mem hx
  have hp : placeV g g.verts[i].id = i := by
    have := idxOf_get h.vnodup i (by simpa using hi)
    simpa [placeV] using this
  have hxi : g.verts[i].index = i := by
    have h1 : (g.verts.map Vert.index)[i]'(by simpa using hi) = (List.range g.verts.length)[i]'(by simpa using hi) := by
      congr 1
    simpa using h1
  rw [hp]
  exact ⟨by rw [Graph.vertexIndex, hf]; simp [hxi], hi⟩

theorem sizedMap_length (n : Nat) (map : List (Option Nat)) : n ≤ (sizedMap n map).length := by
  unfold sizedMap; split <;> simp_all

theorem copyVertices_ok (l : List (Vert α)) : ∀ (g : Graph α β) (m : List (Option Nat)), Inv d g → g.next = g.verts.length →
    g.verts.length + l.length ≤ m.length →
    ∃ g' m', copyVertices l (g, m) = .ok (g', m') ∧ Inv d g' ∧ g'.edges = g.edges ∧ g'.next = g'.verts.length ∧
      g'.verts = g.verts ++ l.mapIdx (fun i x => ⟨g.verts.length + i, g.verts.length + i, x.data⟩) ∧
      m'.length = m.length ∧
      (∀ i, i < g.verts.length → m'[i]? = m[i]?) ∧
      ∀ i, i < l.length → m'[g.verts.length + i]? = some (some (g.verts.length + i)) := by
  induction l with
  | nil => intro g m hi hn hm; exact ⟨g, m, rfl, hi, rfl, hn, by simp, rfl, by simp, by simp⟩
  | cons x l ih =>
    intro g m hi hn hm
    simp only [List.length_cons] at hm
    have hc : copyVertex (g, m) x = .ok ((addVertex .none g x.data).graph, m.set g.verts.length (some g.next)) := by
      simp [copyVertex, show g.verts.length < m.length by omega]
    have ha : (addVertex .none g x.data).graph = { g with verts := g.verts ++ [⟨g.next, g.verts.length, x.data⟩], next := g.next + 1 } := rfl
    obtain ⟨g', m', h1, h2, h3, h4, h5, h6, h7, h8⟩ := ih (addVertex .none g x.data).graph (m.set g.verts.length (some g.next))
      (inv_addVertex hi _ _) (by rw [ha]; simp [hn]) (by rw [ha]; simp; omega)
    refine ⟨g', m', by rw [copyVertices, hc]; exact h1, h2, by rw [h3, ha], h4, ?_, by simpa using h6, ?_, ?_⟩
    · rw [h5, ha]
      simp only [List.length_append, List.length_cons, List.length_nil, List.append_assoc, List.mapIdx_cons, hn]
      simp only [List.singleton_append, Nat.add_zero]
      congr 2
      apply List.mapIdx_eq_mapIdx_iff.2
      intro i hi
      simp; omega
    · intro i hi'
      rw [h7 i (by rw [ha]; simp; omega), List.getElem?_set_ne (by omega)]
    · intro i hi'
      cases i with
      | zero =>
        rw [h7 _ (by rw [ha]; simp), Nat.add_zero, List.getElem?_set_self (by omega), hn]
      | succ i =>
        have := h8 i (by simpa using hi')
        rw [ha] at this
        simp only [List.length_append, List.length_cons, List.length_nil] at this
        rw [show g.verts.length + (i + 1) = g.verts.length + (0 + 1) + i by omega]
        exact this

theorem copyEdges_ok {o : Graph α β} (ho : Inv d o) (hn : Numbered o) {m : List (Option Nat)}
    (hm : ∀ i, i < o.verts.length → m[i]? = some (some i)) (l : List (Edge β)) (hl : ∀ e ∈ l, e ∈ o.edges) :
    ∀ g : Graph α β, Inv d g → (∀ i, i < o.verts.length → g.hasV i = true) → g.next = o.verts.length + g.edges.length →
    ∃ g', copyEdges d o m l g = .ok g' ∧ Inv d g' ∧ g'.verts = g.verts ∧
      g'.edges = g.edges ++ l.mapIdx (fun i e => ⟨o.verts.length + (g.edges.length + i), g.edges.length + i, placeV o e.src, placeV o e.tgt, e.data⟩) := by
  induction l with
  | nil => intro g hi _ _; exact ⟨g, rfl, hi, rfl, by simp⟩
  | cons e l ih =>
    intro g hi hv hx
    obtain ⟨hs, ht⟩ := ho.ends e (hl e (by simp))
    obtain ⟨h1, h2⟩ := vertexIndex_eq ho hn hs
    obtain ⟨h3, h4⟩ := vertexIndex_eq ho hn ht
    have hadd : addEdgeAux d {} g (placeV o e.src) (placeV o e.tgt) e.data =
        ⟨false, added d g (placeV o e.src) (placeV o e.tgt) e.data⟩ := by
      rcases addEdgeAux_cases (g := g) d {} (placeV o e.src) (placeV o e.tgt) e.data with hc | hc
      · have : (addEdgeAux d {} g (placeV o e.src) (placeV o e.tgt) e.data).threw = false := by
          unfold addEdgeAux
          cases d
          · by_cases q : placeV o e.src = placeV o e.tgt <;> simp [tryAdd, addTgtOut, q]
          · simp [tryAdd]
          · simp [tryAdd, addTgtIn]
        rw [hc] at this; simp at this
      · exact hc
    have hc : copyEdge d o m g e = .ok (added d g (placeV o e.src) (placeV o e.tgt) e.data) := by
      simp [copyEdge, h1, h3, hm _ h2, hm _ h4, addEdge, hv _ h2, hv _ h4, hadd]
    obtain ⟨g', k1, k2, k3, k4⟩ := ih (fun x hx => hl x (by simp [hx])) (added d g (placeV o e.src) (placeV o e.tgt) e.data)
      (inv_added hi (hv _ h2) (hv _ h4)) (fun i hi' => hv i hi') (by simp [added, hx]; omega)
    refine ⟨g', by rw [copyEdges, hc]; exact k1, k2, k3, ?_⟩
    rw [k4]
    simp only [added, newEdge, List.length_append, List.length_cons, List.length_nil, List.append_assoc, List.mapIdx_cons, hx,
      List.singleton_append, Nat.add_zero]
    congr 2
    apply List.mapIdx_eq_mapIdx_iff.2
    intro i hi
    simp; omega

theorem mapIdx_map {γ δ : Type} (l : List γ) (f : Nat → γ → δ) (p : γ → Nat) (hp : (l.map p).Nodup) :
    l.mapIdx f = l.map (fun x => f ((l.map p).idxOf (p x)) x) := by
  apply List.ext_getElem
  · simp
  · intro i h1 h2
    have := idxOf_get hp i (by simpa using h1)
    simp only [List.getElem_map] at this
    simp [this]

theorem placeV_inj (h : Inv d g) {v w : Nat} (hv : g.hasV v = true) (he : placeV g v = placeV g w) : v = w := by
  obtain ⟨x, hx, rfl⟩ := hasV_iff.1 hv
  exact (List.idxOf_inj (by exact List.mem_map_of_mem hx)).1 he

/-- The graph that a copy is. -/
theorem copyFrom_ok (h : Inv d g) (hn : Numbered g) (map : List (Option Nat)) :
    ∃ g' m, copyFrom d g empty map = .ok (g', m) ∧ Inv d g' ∧
      g'.verts = g.verts.mapIdx (fun i x => ⟨i, i, x.data⟩) ∧
      g'.edges = g.edges.mapIdx (fun i e => ⟨g.verts.length + i, i, placeV g e.src, placeV g e.tgt, e.data⟩) ∧
      ∀ i, i < g.verts.length → m[i]? = some (some i) := by
  obtain ⟨g₁, m, h1, h2, h3, h4, h5, h6, h7, h8⟩ := copyVertices_ok (d := d) g.verts empty (sizedMap g.verts.length map) inv_empty rfl
    (by simpa [empty] using sizedMap_length g.verts.length map)
  simp only [empty, List.length_nil, Nat.zero_add, List.nil_append] at h5 h8
  obtain ⟨g₂, k1, k2, k3, k4⟩ := copyEdges_ok h hn h8 g.edges (fun _ he => he) g₁ h2
    (by
      intro i hi
      rw [hasV_iff, h5]
      refine ⟨⟨i, i, (g.verts[i]).data⟩, ?_, rfl⟩
      exact List.mem_mapIdx.2 ⟨i, hi, rfl⟩)
    (by rw [h4, h3, h5]; simp [empty])
  rw [h3] at k4
  simp only [empty, List.length_nil, Nat.zero_add, List.nil_append] at k4
  refine ⟨g₂, m, ?_, k2, k3.trans h5, k4, h8⟩
  simp [copyFrom, h1, k1]

theorem same_of_copy (h : Inv d g) {g' : Graph α β} (h' : Inv d g') (hv : g'.verts = g.verts.mapIdx (fun i x => ⟨i, i, x.data⟩))
    (he : g'.edges = g.edges.mapIdx (fun i e => ⟨g.verts.length + i, i, placeV g e.src, placeV g e.tgt, e.data⟩)) :
    SameGraph g g' (placeV g) (placeE g) := by
  have he' : g'.edges = g.edges.map (fun e => ⟨placeE g e.id, (g.edges.map Edge.id).idxOf e.id, placeV g e.src, placeV g e.tgt, e.data⟩) := by
    rw [he, mapIdx_map g.edges _ Edge.id h.enodup]; rfl
  have hv' : g'.verts = g.verts.map (fun x => ⟨placeV g x.id, placeV g x.id, x.data⟩) := by
    rw [hv, mapIdx_map g.verts _ Vert.id h.vnodup]; rfl
  refine ⟨by rw [hv']; simp, by rw [he']; simp, ?_, ?_, ?_, ?_⟩
  · intro x hx y _ hxy
    exact placeV_inj h (hasV_iff.2 ⟨x, hx, rfl⟩) hxy
  · intro x hx y _ hxy
    exact (List.idxOf_inj (List.mem_map_of_mem hx)).1 (Nat.add_left_cancel hxy)
  · intro x hx
    have hiff : ∀ e ∈ g.edges, (outInc d (placeV g x.id) ∘ fun e => (⟨placeE g e.id, (g.edges.map Edge.id).idxOf e.id, placeV g e.src, placeV g e.tgt, e.data⟩ : Edge β)) e
        = outInc d x.id e := by
      intro e hm
      obtain ⟨hs, ht⟩ := h.ends e hm
      have e1 : (placeV g e.src = placeV g x.id) = (e.src = x.id) := propext ⟨placeV_inj h hs, fun q => by rw [q]⟩
      have e2 : (placeV g e.tgt = placeV g x.id) = (e.tgt = x.id) := propext ⟨placeV_inj h ht, fun q => by rw [q]⟩
      simp only [Function.comp, outInc, beq_eq_decide, e1, e2]
    rw [h'.out, h.out, he', List.filter_map, List.filter_congr hiff, List.map_map, List.map_map]
    rfl
  · intro x hx
    have hiff : ∀ e ∈ g.edges, ((fun e : Edge β => e.tgt == placeV g x.id) ∘ fun e => (⟨placeE g e.id, (g.edges.map Edge.id).idxOf e.id, placeV g e.src, placeV g e.tgt, e.data⟩ : Edge β)) e
        = (e.tgt == x.id) := by
      intro e hm
      obtain ⟨hs, ht⟩ := h.ends e hm
      have e2 : (placeV g e.tgt = placeV g x.id) = (e.tgt = x.id) := propext ⟨placeV_inj h ht, fun q => by rw [q]⟩
      simp only [Function.comp, beq_eq_decide, e2]
    rw [h'.inn, h.inn]
    split
    · rw [he', List.filter_map, List.filter_congr hiff, List.map_map, List.map_map]
      rfl
    · rfl

/-! ## C101 -/

/-- **C101.**  A copy of a numbered graph is the same graph with other descriptors, numbered as well, and it is coherent.  The map that
a caller gives, whatever it held, leads from the number of each vertex to its copy.  False if vertices were removed and the graph was not
numbered again (`copy_fails`). -/
theorem copy_from_partial {A : Abs α β} (h : History d g A) (hn : Numbered g) (map : List (Option Nat)) :
    ∃ g' m φ ψ, copyFrom d g empty map = .ok (g', m) ∧ SameGraph g g' φ ψ ∧ Coherent d g' ∧ FullyNumbered g' ∧
      ∀ x ∈ g.verts, m[x.index]? = some (some (φ x.id)) := by
  have hi := (history_inv h).1
  obtain ⟨g', m, h1, h2, h3, h4, h5⟩ := copyFrom_ok hi hn map
  refine ⟨g', m, _, _, h1, same_of_copy hi h2 h3 h4, coherent_of_inv h2, ⟨?_, ?_⟩, ?_⟩
  · rw [Numbered, h3]; apply List.ext_getElem <;> simp
  · rw [h4]; apply List.ext_getElem <;> simp
  · intro x hx
    have hv := vertexIndex_eq hi hn (hasV_iff.2 ⟨x, hx, rfl⟩)
    obtain ⟨i, hi', rfl⟩ := List.getElem_of_mem hx
    have hp : placeV g g.verts[i].id = i := by
      have := idxOf_get hi.vnodup i (by simpa using hi')
      simpa [placeV] using this
    have hxi : g.verts[i].index = i := by
      have h1 : (g.verts.map Vert.index)[i]'(by simpa using hi') = (List.range g.verts.length)[i]'(by simpa using hi') := by
        congr 1
      simpa using h1
    rw [hxi, hp, h5 i hi']

/-- **C101.**  Copy constructor. -/
theorem copy_partial {A : Abs α β} (h : History d g A) (hn : Numbered g) :
    ∃ g' φ ψ, copyGraph d g = .ok g' ∧ SameGraph g g' φ ψ ∧ Coherent d g' ∧ FullyNumbered g' := by
  obtain ⟨g', m, φ, ψ, h1, h2, h3, h4, -⟩ := copy_from_partial h hn (List.replicate g.verts.length none)
  exact ⟨g', φ, ψ, by simp [copyGraph, h1], h2, h3, h4⟩

/-- **C101.**  After `reindex` every graph can be copied, whatever happened to it before. -/
theorem copy_reindexed {A : Abs α β} (h : History d g A) :
    ∃ g' φ ψ, copyGraph d (reindex g) = .ok g' ∧ SameGraph g g' φ ψ ∧ Coherent d g' ∧ FullyNumbered g' := by
  have hr : History d (reindex g) (A.after g.next false .reindex) := .step .reindex false h trivial rfl
  have hn : Numbered (reindex g) := by
    rw [Numbered]; apply List.ext_getElem <;> simp [reindex]
  obtain ⟨g', φ, ψ, h1, h2, h3, h4⟩ := copy_partial hr hn
  have hv : (reindex g).verts.map (fun x => (x.id, x.data)) = g.verts.map (fun x => (x.id, x.data)) :=
    mapIdx_map_congr _ _ _ (fun _ _ => rfl)
  have he : (reindex g).edges.map (fun e => (e.id, e.src, e.tgt, e.data)) = g.edges.map (fun e => (e.id, e.src, e.tgt, e.data)) :=
    mapIdx_map_congr _ _ _ (fun _ _ => rfl)
  have toV : ∀ x ∈ g.verts, ∃ y ∈ (reindex g).verts, y.id = x.id := by
    intro x hx
    have : (x.id, x.data) ∈ (reindex g).verts.map (fun x => (x.id, x.data)) := by rw [hv]; exact List.mem_map.2 ⟨x, hx, rfl⟩
    obtain ⟨y, hy, e⟩ := List.mem_map.1 this
    exact ⟨y, hy, (Prod.mk.inj e).1⟩
  have toE : ∀ x ∈ g.edges, ∃ y ∈ (reindex g).edges, y.id = x.id := by
    intro x hx
    have : (x.id, x.src, x.tgt, x.data) ∈ (reindex g).edges.map (fun e => (e.id, e.src, e.tgt, e.data)) := by
      rw [he]; exact List.mem_map.2 ⟨x, hx, rfl⟩
    obtain ⟨y, hy, e⟩ := List.mem_map.1 this
    exact ⟨y, hy, (Prod.mk.inj e).1⟩
  refine ⟨g', φ, ψ, h1, ⟨?_, ?_, ?_, ?_, ?_, ?_⟩, h3, h4⟩
  · rw [h2.verts]
    have := congrArg (List.map (fun p : Nat × α => (φ p.1, p.2))) hv
    simpa only [List.map_map, Function.comp_def] using this
  · rw [h2.edges]
    have := congrArg (List.map (fun p : Nat × Nat × Nat × β => (ψ p.1, φ p.2.1, φ p.2.2.1, p.2.2.2))) he
    simpa only [List.map_map, Function.comp_def] using this
  · intro x hx y hy hxy
    obtain ⟨x', hx', ex⟩ := toV x hx
    obtain ⟨y', hy', ey⟩ := toV y hy
    have := h2.vertsApart x' hx' y' hy' (by rw [ex, ey]; exact hxy)
    rwa [ex, ey] at this
  · intro x hx y hy hxy
    obtain ⟨x', hx', ex⟩ := toE x hx
    obtain ⟨y', hy', ey⟩ := toE y hy
    have := h2.edgesApart x' hx' y' hy' (by rw [ex, ey]; exact hxy)
    rwa [ex, ey] at this
  · intro x hx
    obtain ⟨x', hx', ex⟩ := toV x hx
    have := h2.out x' hx'
    rwa [ex] at this
  · intro x hx
    obtain ⟨x', hx', ex⟩ := toV x hx
    have := h2.inn x' hx'
    rwa [ex] at this

/-- All operations but the removal of vertices. -/
def Adds : Op α β → Prop
  | .addVertex _ _ => True
  | .addEdge _ _ _ _ => True
  | .removeEdge _ => True
  | .removeEdges _ _ => True
  | .clearVertex _ => True
  | .reindex => True
  | .removeVertex _ => False

/-- Histories without removal of vertices. -/
inductive Growing (d : Dir) : Graph α β → Abs α β → Prop
  | start : Growing d empty ⟨[], []⟩
  | step {g g' A} (op : Op α β) (threw : Bool) : Growing d g A → Adds op → A.legal op → op.exec d g = .ok (threw, g') →
      Growing d g' (A.after g.next threw op)

theorem growing_history {A : Abs α β} (h : Growing d g A) : History d g A := by
  induction h with
  | start => exact .start
  | step op threw _ _ hl hx ih => exact .step op threw ih hl hx

/-- **C101.**  As long as no vertex was removed, no `reindex` is needed. -/
theorem growing_numbered {A : Abs α β} (h : Growing d g A) : Numbered g := by
  induction h with
  | start => rfl
  | @step g g' A op threw hg ha hl hx ih =>
    have hi := history_inv (growing_history hg)
    obtain ⟨hi, rfl⟩ := hi
    cases op with
    | addVertex f a =>
      simp only [Op.exec] at hx
      rcases addVertex_cases (g := g) f a with hc | hc <;> rw [hc] at hx <;> simp at hx <;> obtain ⟨-, rfl⟩ := hx
      · exact ih
      · rw [Numbered] at ih ⊢; simp [ih, List.range_succ]
    | addEdge f s t b =>
      obtain ⟨hs, ht⟩ := hl
      rw [isV_content] at hs ht
      simp only [Op.exec, addEdge, hs, ht, Bool.and_self, if_true] at hx
      rcases addEdgeAux_cases (g := g) d f s t b with hc | hc <;> rw [hc] at hx <;> simp at hx <;> obtain ⟨-, rfl⟩ := hx
      · exact ih
      · exact ih
    | removeEdge i =>
      obtain ⟨s, t, b, hm⟩ := hl
      obtain ⟨e, he, rfl, -⟩ := mem_content_es.1 hm
      obtain ⟨g'', hg', -, hv, -⟩ := removeEdge_spec hi he
      simp only [Op.exec, hg', Outcome.map_ok, Outcome.ok.injEq, Prod.mk.injEq] at hx
      obtain ⟨-, rfl⟩ := hx
      rw [Numbered, hv]; exact ih
    | removeEdges s t =>
      obtain ⟨hs, ht⟩ := hl
      rw [isV_content] at hs ht
      obtain ⟨g'', hg', -, hv, -⟩ := removeEdges_spec hi hs ht
      simp only [Op.exec, hg', Outcome.map_ok, Outcome.ok.injEq, Prod.mk.injEq] at hx
      obtain ⟨-, rfl⟩ := hx
      rw [Numbered, hv]; exact ih
    | clearVertex v =>
      obtain ⟨g'', hg', -, hv, -⟩ := clearVertex_spec hi (isV_content.1 hl)
      simp only [Op.exec, hg', Outcome.map_ok, Outcome.ok.injEq, Prod.mk.injEq] at hx
      obtain ⟨-, rfl⟩ := hx
      rw [Numbered, hv]; exact ih
    | removeVertex v => exact ha.elim
    | reindex =>
      simp only [Op.exec, Outcome.ok.injEq, Prod.mk.injEq] at hx
      obtain ⟨-, rfl⟩ := hx
      rw [Numbered]; apply List.ext_getElem <;> simp [reindex]

/-- **C101.**  Assignment: afterwards the target is the other graph; an assignment of itself changes nothing. -/
theorem assign_partial {A : Abs α β} (g₀ : Graph α β) (h : History d g A) (hn : Numbered g) :
    assignCopy d true g₀ g₀ = .ok g₀ ∧
    ∃ g' φ ψ, assignCopy d false g₀ g = .ok g' ∧ SameGraph g g' φ ψ ∧ Coherent d g' ∧ FullyNumbered g' := by
  obtain ⟨g', φ, ψ, h1, h2, h3, h4⟩ := copy_partial h hn
  exact ⟨rfl, g', φ, ψ, by simpa [assignCopy] using h1, h2, h3, h4⟩

/-- Three vertices, parallel edges and a loop; a vertex is removed, then the graph is numbered again. -/
def copied : List (Op Char Nat) :=
  [.addVertex .none 'a', .addVertex .none 'b', .addVertex .none 'c', .addVertex .none 'd', .addEdge {} 1 2 10, .addEdge {} 2 3 11,
   .addEdge {} 3 1 12, .addEdge {} 1 2 13, .addEdge {} 3 3 14, .removeVertex 0]

/-- Three vertices, then an edge between the last two with the data `7`, and the first vertex is removed. -/
theorem copied_history : ∃ (g : Graph Char Nat) (A : Abs Char Nat), History .bidirectional g A ∧ g.verts = [⟨1, 1, 'b'⟩, ⟨2, 2, 'c'⟩] ∧
    g.edges = [⟨3, 0, 1, 2, 7⟩] := by
  refine ⟨_, _, .step (.removeVertex 0) false (.step (.addEdge {} 1 2 7) false (.step (.addVertex .none 'c') false
    (.step (.addVertex .none 'b') false (.step (.addVertex .none 'a') false .start trivial rfl) trivial rfl) trivial rfl)
    ⟨⟨'b', by decide⟩, ⟨'c', by decide⟩⟩ rfl) ⟨⟨'a', by decide⟩, ?_⟩ rfl, rfl, rfl⟩
  intro i s t b hm
  simp only [Abs.after, List.nil_append, Bool.false_eq_true, if_false, List.mem_singleton, Prod.mk.injEq] at hm
  omega

example : (runOps .bidirectional copied empty).bind (fun g => (copyGraph .bidirectional (reindex g)).map fun g' =>
    ((content g').vs, (content g').es, g'.out 0, g'.inn 2)) =
    .ok ([(0, 'b'), (1, 'c'), (2, 'd')], [(3, 0, 1, 10), (4, 1, 2, 11), (5, 2, 0, 12), (6, 0, 1, 13), (7, 2, 2, 14)], [3, 6], [4, 7]) := by
  rfl

example : ∃ (g g' : Graph Char Nat) (φ ψ : Nat → Nat), copyGraph .bidirectional (reindex g) = .ok g' ∧ SameGraph g g' φ ψ ∧
    g'.verts.map Vert.data = ['b', 'c'] ∧ g'.edges.map Edge.data = [7] := by
  obtain ⟨g, A, h, hv, he⟩ := copied_history
  obtain ⟨g', φ, ψ, h1, h2, -, -⟩ := copy_reindexed h
  refine ⟨g, g', φ, ψ, h1, h2, ?_, ?_⟩
  · have := congrArg (List.map Prod.snd) h2.verts
    simpa [hv, Function.comp_def] using this
  · have := congrArg (List.map fun q : Nat × Nat × Nat × Nat => q.2.2.2) h2.edges
    simpa [he, Function.comp_def] using this

/-- A graph that never lost a vertex. -/
theorem growing_example : ∃ (g : Graph Char Nat) (A : Abs Char Nat), Growing .directional g A ∧ g.verts.length = 2 ∧ g.edges = [⟨2, 0, 1, 0, 7⟩] := by
  exact ⟨_, _, .step (.addEdge {} 1 0 7) false (.step (.addVertex .none 'b') false (.step (.addVertex .none 'a') false .start trivial trivial rfl)
    trivial trivial rfl) trivial ⟨⟨'b', by decide⟩, ⟨'a', by decide⟩⟩ rfl, rfl, rfl⟩

example : ∃ (g : Graph Char Nat), (∃ g' φ ψ, assignCopy .directional false ⟨[], [], fun _ => [], fun _ => [], 5⟩ g = .ok g' ∧ SameGraph g g' φ ψ) ∧
    ∃ g' m φ ψ, copyFrom .directional g empty [some 9] = .ok (g', m) ∧ SameGraph g g' φ ψ ∧ ∀ x ∈ g.verts, m[x.index]? = some (some (φ x.id)) := by
  obtain ⟨g, A, h, hv, he⟩ := growing_example
  obtain ⟨-, g', φ, ψ, h1, h2, -⟩ := assign_partial ⟨[], [], fun _ => [], fun _ => [], 5⟩ (growing_history h) (growing_numbered h)
  obtain ⟨k', m, φ', ψ', k1, k2, -, -, k3⟩ := copy_from_partial (growing_history h) (growing_numbered h) [some 9]
  exact ⟨g, ⟨g', φ, ψ, h1, h2⟩, k', m, φ', ψ', k1, k2, k3⟩

/-- A vertex was removed and the graph was not numbered again: the ends of the edges are looked up where there is nothing. -/
theorem copy_fails : ¬ ∀ (g : Graph Char Nat) (A : Abs Char Nat), History .bidirectional g A → ∃ g', copyGraph .bidirectional g = .ok g' := by
  intro h
  obtain ⟨g, A, hh, hv, he⟩ := copied_history
  obtain ⟨g', h'⟩ := h g A hh
  have : copyGraph .bidirectional g = .ub := by
    simp [copyGraph, copyFrom, hv, he, sizedMap, copyVertices, copyVertex, addVertex, tryAdd, empty, copyEdges, copyEdge, Graph.vertexIndex]
  rw [this] at h'
  simp at h'

/-- Or the copy is another graph: the loop at the second vertex of two is at the last one afterwards. -/
theorem copy_wrong_fails : ¬ ∀ (g g' : Graph Char Nat) (A : Abs Char Nat), History .directional g A → copyGraph .directional g = .ok g' →
    ∃ φ ψ, SameGraph g g' φ ψ := by
  intro h
  have hh : ∃ (g : Graph Char Nat) (A : Abs Char Nat), History .directional g A ∧ g.verts = [⟨1, 1, 'b'⟩, ⟨2, 2, 'c'⟩] ∧
      g.edges = [⟨3, 0, 1, 1, 7⟩] := by
    refine ⟨_, _, .step (.removeVertex 0) false (.step (.addEdge {} 1 1 7) false (.step (.addVertex .none 'c') false
      (.step (.addVertex .none 'b') false (.step (.addVertex .none 'a') false .start trivial rfl) trivial rfl) trivial rfl)
      ⟨⟨'b', by decide⟩, ⟨'b', by decide⟩⟩ rfl) ⟨⟨'a', by decide⟩, ?_⟩ rfl, rfl, rfl⟩
    intro i s t b hm
    simp only [Abs.after, List.nil_append, Bool.false_eq_true, if_false, List.mem_singleton, Prod.mk.injEq] at hm
    omega
  obtain ⟨g, A, hh, hv, he⟩ := hh
  obtain ⟨g', hc, hv', he'⟩ : ∃ g', copyGraph .directional g = .ok g' ∧ g'.verts = [⟨0, 0, 'b'⟩, ⟨1, 1, 'c'⟩] ∧ g'.edges = [⟨2, 0, 1, 1, 7⟩] := by
    simp [copyGraph, copyFrom, hv, he, sizedMap, copyVertices, copyVertex, addVertex, tryAdd, empty, copyEdges, copyEdge, Graph.vertexIndex,
      addEdge, addEdgeAux, Graph.hasV]
  obtain ⟨φ, ψ, hs⟩ := h g g' A hh hc
  have h1 := hs.verts
  have h2 := hs.edges
  simp [hv, hv'] at h1
  simp [he, he'] at h2
  omega

/-- **C101.**  A move within the same allocator keeps the graph with all its descriptors. -/
theorem move_partial {A : Abs α β} (h : History d g A) : SameGraph g (moveGraph true g) id id ∧ Coherent d (moveGraph true g) := by
  refine ⟨⟨by simp [moveGraph], by simp [moveGraph], by simp, by simp, by simp [moveGraph], by simp [moveGraph]⟩, ?_⟩
  simpa [moveGraph] using (history_coherent h).1

/-- **C101.**  With another allocator vertices and edges keep order, indexes and data, and get new descriptors, each its own. -/
theorem move_descriptors (g : Graph α β) :
    (moveGraph false g).verts.map (fun x => (x.index, x.data)) = g.verts.map (fun x => (x.index, x.data)) ∧
    (moveGraph false g).edges.map (fun e => (e.index, e.data)) = g.edges.map (fun e => (e.index, e.data)) ∧
    ((moveGraph false g).verts.map Vert.id ++ (moveGraph false g).edges.map Edge.id).Nodup ∧
    ∀ i ∈ (moveGraph false g).verts.map Vert.id ++ (moveGraph false g).edges.map Edge.id, g.next ≤ i ∧ i < (moveGraph false g).next := by
  have hv : (moveGraph false g).verts.map Vert.id = List.range' g.next g.verts.length := by
    apply List.ext_getElem <;> simp [moveGraph, movedVerts]
  have he : (moveGraph false g).edges.map Edge.id = List.range' (g.next + g.verts.length) g.edges.length := by
    apply List.ext_getElem <;> simp [moveGraph, movedEdges]
  refine ⟨?_, ?_, ?_, ?_⟩
  · apply List.ext_getElem <;> simp [moveGraph, movedVerts]
  · apply List.ext_getElem <;> simp [moveGraph, movedEdges]
  · rw [hv, he, List.range'_append_1]
    exact List.nodup_range'
  · rw [hv, he, List.range'_append_1]
    intro i hi
    rw [List.mem_range'_1] at hi
    simp only [moveGraph, Bool.false_eq_true, if_false]
    omega

example : (moveGraph false (⟨[⟨0, 0, 'a'⟩, ⟨1, 1, 'b'⟩], [⟨2, 0, 1, 0, 7⟩], fun _ => [], fun _ => [], 3⟩ : Graph Char Nat)).verts.map Vert.id = [3, 4] ∧
    (moveGraph false (⟨[⟨0, 0, 'a'⟩, ⟨1, 1, 'b'⟩], [⟨2, 0, 1, 0, 7⟩], fun _ => [], fun _ => [], 3⟩ : Graph Char Nat)).edges.map Edge.id = [5] := by
  decide

/-- With another allocator the vertices are others, the edges still have the old ones as ends. -/
theorem move_fails : ¬ ∀ (g : Graph Char Nat) (A : Abs Char Nat), History .directional g A → Coherent .directional (moveGraph false g) := by
  intro h
  obtain ⟨g, A, hg, hv, he⟩ := growing_example
  have hc := (h g A (growing_history hg)).ends
  obtain ⟨hi, -⟩ := history_inv (growing_history hg)
  have hx := hi.elt ⟨2, 0, 1, 0, 7⟩ (by simp [he])
  have := (hc ⟨g.next + g.verts.length + 0, 0, 1, 0, 7⟩ (by simp [moveGraph, movedEdges, he])).1
  obtain ⟨v, hm, e⟩ := this
  simp only [moveGraph, movedVerts, Bool.false_eq_true, if_false] at hm
  obtain ⟨i, hi, rfl⟩ := List.mem_mapIdx.1 hm
  simp only at e hx
  omega

end MM.AdjList
