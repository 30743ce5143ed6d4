import Verif.Proofs.AdjList

/-! # Property theorems C06–C09 (mutable graphs) -/

set_option autoImplicit false
set_option linter.unusedSectionVars false

namespace MM.AdjList

variable {α β : Type} {d : Dir}

/-! ## C06 -/

theorem isV_content {g : Graph α β} {v : Nat} : (content g).isV v ↔ g.hasV v = true := by
  rw [hasV_iff]
  simp only [Abs.isV, content, List.mem_map, Prod.mk.injEq]
  constructor
  · rintro ⟨_, x, hx, rfl, _⟩; exact ⟨x, hx, rfl⟩
  · rintro ⟨x, hx, rfl⟩; exact ⟨_, x, hx, rfl, rfl⟩

theorem mem_content_es {g : Graph α β} {i s t : Nat} {b : β} :
    (i, s, t, b) ∈ (content g).es ↔ ∃ e ∈ g.edges, e.id = i ∧ e.src = s ∧ e.tgt = t ∧ e.data = b := by
  simp [content]

/-- One legal operation: it is defined, keeps the representation invariant and has the specified effect. -/
theorem step_spec {g : Graph α β} (h : Inv d g) (op : Op α β) (hl : (content g).legal op) :
    ∃ threw g', op.exec d g = .ok (threw, g') ∧ Inv d g' ∧ content g' = (content g).after g.next threw op := by
  cases op with
  | addVertex f a =>
    refine ⟨_, _, rfl, inv_addVertex h f a, ?_⟩
    rcases addVertex_cases (g := g) f a with hc | hc <;> rw [hc] <;> simp [Abs.after, content]
  | addEdge f s t b =>
    obtain ⟨hs, ht⟩ := hl
    rw [isV_content] at hs ht
    refine ⟨(addEdgeAux d f g s t b).threw, (addEdgeAux d f g s t b).graph, ?_, ?_⟩
    · simp [Op.exec, addEdge, hs, ht, Outcome.map]
    · rcases addEdgeAux_cases (g := g) d f s t b with hc | hc <;> rw [hc]
      · exact ⟨h, by simp [Abs.after]⟩
      · exact ⟨inv_added h hs ht, by simp [Abs.after, content, added, newEdge]⟩
  | removeEdge i =>
    obtain ⟨s, t, b, hi⟩ := hl
    obtain ⟨e, he, rfl, -⟩ := mem_content_es.1 hi
    obtain ⟨g', hg', hi', hv, hes⟩ := removeEdge_spec h he
    refine ⟨false, g', by simp [Op.exec, hg', Outcome.map], hi', ?_⟩
    simp only [content, Abs.after, hv, hes, List.filter_map]
    rfl
  | removeEdges s t =>
    obtain ⟨hs, ht⟩ := hl
    rw [isV_content] at hs ht
    obtain ⟨g', hg', hi', hv, hes⟩ := removeEdges_spec h hs ht
    refine ⟨false, g', by simp [Op.exec, hg', Outcome.map], hi', ?_⟩
    simp only [content, Abs.after, hv, hes, List.filter_map]
    rfl
  | clearVertex v =>
    have hv' := isV_content.1 hl
    obtain ⟨g', hg', hi', hv, hes⟩ := clearVertex_spec h hv'
    refine ⟨false, g', by simp [Op.exec, hg', Outcome.map], hi', ?_⟩
    simp only [content, Abs.after, hv, hes, List.filter_map]
    rfl
  | removeVertex v =>
    obtain ⟨hv, hno⟩ := hl
    rw [isV_content] at hv
    have hno' : ∀ e ∈ g.edges, e.src ≠ v ∧ e.tgt ≠ v :=
      fun e he => hno e.id e.src e.tgt e.data (mem_content_es.2 ⟨e, he, rfl, rfl, rfl, rfl⟩)
    have hout : g.out v = [] := by
      rw [h.out, List.map_eq_nil_iff, List.filter_eq_nil_iff]
      intro e he
      have := hno' e he
      simp [outInc, this.1, this.2]
    have hok : ∃ g', removeVertex g v = .ok g' := by simp [removeVertex, hv, hout]
    obtain ⟨g', hg'⟩ := hok
    obtain ⟨hi', hvs, hes⟩ := removeVertex_spec h hg' (fun e he => (hno' e he).2)
    refine ⟨false, g', by simp [Op.exec, hg', Outcome.map], hi', ?_⟩
    simp only [content, Abs.after, hvs, hes, List.filter_map]
    rfl
  | reindex =>
    refine ⟨false, reindex g, rfl, inv_reindex h, ?_⟩
    simp only [content, Abs.after, reindex, Abs.mk.injEq]
    exact ⟨mapIdx_map_congr _ _ _ (fun _ _ => rfl), mapIdx_map_congr _ _ _ (fun _ _ => rfl)⟩

theorem history_inv {g : Graph α β} {A : Abs α β} (h : History d g A) : Inv d g ∧ content g = A := by
  induction h with
  | start => exact ⟨inv_empty, rfl⟩
  | step op threw _ hl hx ih =>
    obtain ⟨hi, rfl⟩ := ih
    obtain ⟨threw', g'', hx', hi', hc⟩ := step_spec hi op hl
    rw [hx] at hx'
    cases hx'
    exact ⟨hi', hc⟩

/-- **C06.** After every history of insertions (failed or not), removals and reindexing by a caller meeting its
obligations, the graph is coherent and holds exactly the vertices and edges added and not removed, in order. -/
theorem history_coherent {g : Graph α β} {A : Abs α β} (h : History d g A) : Coherent d g ∧ content g = A :=
  ⟨coherent_of_inv (history_inv h).1, (history_inv h).2⟩

/-- **C06.** No legal operation runs into undefined behaviour or is refused (insertions report a failure through the
flag). -/
theorem history_defined {g : Graph α β} {A : Abs α β} (h : History d g A) (op : Op α β) (hl : A.legal op) :
    ∃ threw g', op.exec d g = .ok (threw, g') := by
  obtain ⟨hi, rfl⟩ := history_inv h
  obtain ⟨threw, g', hx, -⟩ := step_spec hi op hl
  exact ⟨threw, g', hx⟩

/-- The graph reached by a list of operations. -/
def runOps (d : Dir) : List (Op α β) → Graph α β → Outcome (Graph α β)
  | [], g => .ok g
  | op :: ops, g => (op.exec d g).bind (fun r => runOps d ops r.2)

/-- Three vertices, a self loop, two parallel edges and a reverse edge in a bidirectional graph; one insertion fails
on the way; then an edge, a pair and a vertex are cleared.  Every step is legal. -/
def demo : List (Op Char Nat) :=
  [.addVertex .none 'a', .addVertex .dirty 'x', .addVertex .none 'b', .addVertex .none 'c', .addEdge {} 0 1 10,
   .addEdge {} 0 1 11, .addEdge { tgtIn := .dirty } 1 2 12, .addEdge {} 1 2 13, .addEdge {} 2 2 14,
   .addEdge {} 1 0 15, .removeEdge 4, .clearVertex 2, .reindex, .removeVertex 2]

example : (runOps .bidirectional demo empty).map (fun g => ((content g).vs, (content g).es, g.out 0, g.out 1, g.inn 0,
    g.inn 1)) = .ok ([(0, 'a'), (1, 'b')], [(3, 0, 1, 10), (7, 1, 0, 15)], [3], [7], [7], [3]) := by
  rfl

example : ∃ g A, History (α := Char) (β := Nat) .undirected g A ∧ A.vs = [(0, 'a')] ∧ A.es = [(1, 0, 0, 7)] := by
  refine ⟨_, _, .step (.addEdge {} 0 0 7) false (.step (.addVertex .none 'a') false .start trivial rfl)
    ⟨⟨'a', by decide⟩, ⟨'a', by decide⟩⟩ rfl, rfl, rfl⟩

/-! ## C07 -/

/-- **C07.** For every graph, every pair of live vertices and every point at which memory may run out: an insertion
that throws leaves the graph exactly as it was; one that does not adds the edge. -/
theorem add_edge_failed_restores (g : Graph α β) (s t : Nat) (b : β) (f : Faults) (r : Res α β)
    (hr : addEdge d f g s t b = .ok r) :
    (r.threw = true → r.graph = g) ∧ (r.threw = false → (content r.graph).es = (content g).es ++ [(g.next, s, t, b)]) := by
  unfold addEdge at hr
  split at hr
  · cases hr
    rcases addEdgeAux_cases (g := g) d f s t b with hc | hc <;> rw [hc] <;> simp [content, added, newEdge]
  · cases hr

/-- **C06.** An edge can be added exactly between vertices of the graph; anything else is undefined. -/
theorem add_edge_defined_iff (g : Graph α β) (s t : Nat) (b : β) (f : Faults) :
    ((∃ r, addEdge d f g s t b = .ok r) ↔ g.hasV s = true ∧ g.hasV t = true) ∧ addEdge d f g s t b ≠ .throws := by
  unfold addEdge
  split <;> simp_all

example : addEdge (α := Char) (β := Nat) .bidirectional {} ⟨[⟨0, 0, 'a'⟩], [], fun _ => [], fun _ => [], 1⟩ 0 1 7 = .ub := rfl

/-- **C07.** The same for vertices. -/
theorem add_vertex_failed_restores (g : Graph α β) (a : α) (f : Fault) :
    ((addVertex f g a).threw = true → (addVertex f g a).graph = g) ∧
    ((addVertex f g a).threw = false → (content (addVertex f g a).graph).vs = (content g).vs ++ [(g.next, a)]) := by
  rcases addVertex_cases (g := g) f a with hc | hc <;> rw [hc] <;> simp [content]

/-- **C07.** A failure is reported: the insertion throws exactly when one of the allocations it makes fails. -/
theorem add_edge_throws_iff (g : Graph α β) (s t : Nat) (b : β) (f : Faults) (r : Res α β)
    (hr : addEdge d f g s t b = .ok r) :
    r.threw = true ↔ f.edges ≠ .none ∨ f.srcOut ≠ .none ∨ (d = .undirected ∧ s ≠ t ∧ f.tgtOut ≠ .none) ∨
      (d = .bidirectional ∧ f.tgtIn ≠ .none) := by
  unfold addEdge at hr
  split at hr
  · cases hr
    obtain ⟨fe, fs, fo, fi⟩ := f
    cases d <;> cases fe <;> cases fs <;> cases fo <;> cases fi <;> by_cases hst : s = t <;>
      simp [addEdgeAux, tryAdd, addTgtOut, addTgtIn, hst]
  · cases hr

/-- **C07.** The call can be repeated after a failure, with the same effect as if the failure had not happened. -/
theorem add_edge_retry (g : Graph α β) (s t : Nat) (b : β) (f f' : Faults) (r : Res α β)
    (hr : addEdge d f g s t b = .ok r) (ht : r.threw = true) :
    addEdge d f' r.graph s t b = addEdge d f' g s t b := by
  rw [(add_edge_failed_restores g s t b f r hr).1 ht]

/-- An undirected insertion failing at the last of its three allocations, after the element was appended. -/
example : ∃ g : Graph Unit Nat, g.out 0 = [2] ∧ g.edges.length = 1 ∧
    (addEdge .undirected { tgtOut := .dirty } g 0 1 9).map (fun r => (r.threw, r.graph.edges, r.graph.out 0,
      r.graph.out 1)) = .ok (true, g.edges, [2], [2]) :=
  ⟨⟨[⟨0, 0, ()⟩, ⟨1, 1, ()⟩], [⟨2, 0, 0, 1, 5⟩], fun v => if v ≤ 1 then [2] else [], fun _ => [], 3⟩, rfl, rfl, by
    decide⟩

/-! ## C08 -/

/-- The claim of C08 for one removal. -/
def NoDangling (g' : Graph α β) (v : Nat) : Prop := ∀ e ∈ g'.edges, e.src ≠ v ∧ e.tgt ≠ v

/-- **C08, false for directional graphs.** The check before a removal (adjacency_list.hpp 1012) looks at out edges
only: a vertex with an incoming edge is removed and the edge is left with a dangling target. -/
theorem remove_vertex_dangling_fails :
    ∃ (g : Graph Unit Unit) (A : Abs Unit Unit) (g' : Graph Unit Unit), History .directional g A ∧
      removeVertex g 1 = .ok g' ∧ g'.hasV 1 = false ∧ ∃ e ∈ g'.edges, e.tgt = 1 := by
  refine ⟨_, _, _, .step (.addEdge {} 0 1 ()) false (.step (.addVertex .none ()) false
    (.step (.addVertex .none ()) false .start trivial rfl) trivial rfl)
    ⟨⟨(), by decide⟩, ⟨(), by decide⟩⟩ rfl, rfl, rfl, ⟨2, 0, 0, 1, ()⟩, by decide, rfl⟩

/-- The same for bidirectional graphs, although the incoming edge is listed at the vertex. -/
theorem remove_vertex_dangling_bidirectional_fails :
    ∃ (g : Graph Unit Unit) (A : Abs Unit Unit) (g' : Graph Unit Unit), History .bidirectional g A ∧
      removeVertex g 1 = .ok g' ∧ g'.hasV 1 = false ∧ g.inn 1 ≠ [] ∧ ∃ e ∈ g'.edges, e.tgt = 1 := by
  refine ⟨_, _, _, .step (.addEdge {} 0 1 ()) false (.step (.addVertex .none ()) false
    (.step (.addVertex .none ()) false .start trivial rfl) trivial rfl)
    ⟨⟨(), by decide⟩, ⟨(), by decide⟩⟩ rfl, rfl, rfl, by decide, ⟨2, 0, 0, 1, ()⟩, by decide, rfl⟩

/-- **C08, what holds.** Undirected graphs: every successful removal leaves no edge at the vertex.  All graphs: no
edge leaving the vertex remains, and an edge entering it remains only if it was there before.  Missing: incoming edges
of directional graphs, see `remove_vertex_dangling_fails`. -/
theorem remove_vertex_no_dangling_partial {g g' : Graph α β} {A : Abs α β} (h : History d g A) (v : Nat)
    (hr : removeVertex g v = .ok g') :
    (d = .undirected → NoDangling g' v) ∧ (∀ e ∈ g'.edges, e.src ≠ v) ∧
    ((∀ e ∈ g.edges, e.tgt ≠ v) → NoDangling g' v) ∧ g'.edges = g.edges := by
  have hi := (history_inv h).1
  unfold removeVertex at hr
  split at hr
  · split at hr
    · rename_i hv ho
      cases hr
      have hn : ∀ e ∈ g.edges, outInc d v e = false := by
        intro e he
        rw [← Bool.not_eq_true]
        intro hc
        have : e.id ∈ g.out v := by
          rw [hi.out]; exact List.mem_map.2 ⟨e, List.mem_filter.2 ⟨he, hc⟩, rfl⟩
        rw [ho] at this; cases this
      have hs : ∀ e ∈ g.edges, e.src ≠ v := by
        intro e he hc
        have := hn e he
        simp [outInc, hc] at this
      refine ⟨?_, hs, fun ht e he => ⟨hs e he, ht e he⟩, rfl⟩
      rintro rfl e he
      refine ⟨hs e he, fun hc => ?_⟩
      have := hn e he
      simp [outInc, hc, Dir.isUndirected] at this
    · cases hr
  · cases hr

/-- A vertex is removed from a graph with a loop at the other one. -/
example : ∃ (g : Graph Unit Unit) (A : Abs Unit Unit) (g' : Graph Unit Unit), History .undirected g A ∧ removeVertex g 1 = .ok g' ∧
    g'.edges.length = 1 ∧ NoDangling g' 1 := by
  obtain ⟨g, A, g', h, hr, hl⟩ : ∃ (g : Graph Unit Unit) (A : Abs Unit Unit) (g' : Graph Unit Unit), History .undirected g A ∧
      removeVertex g 1 = .ok g' ∧ g'.edges.length = 1 :=
    ⟨_, _, _, .step (.addEdge {} 0 0 ()) false (.step (.addVertex .none ()) false (.step (.addVertex .none ()) false .start trivial rfl) trivial rfl)
      ⟨⟨(), by decide⟩, ⟨(), by decide⟩⟩ rfl, rfl, rfl⟩
  exact ⟨g, A, g', h, hr, hl, (remove_vertex_no_dangling_partial h 1 hr).1 rfl⟩

/-- **C08, the sequence the application uses** (network_import.hpp 147-148): clearing a vertex and then removing it
always succeeds and leaves no edge at the vertex, for every kind of graph. -/
theorem clear_then_remove_vertex {g : Graph α β} {A : Abs α β} (h : History d g A) (v : Nat) (hv : A.isV v) :
    ∃ g₁ g₂, clearVertex d g v = .ok g₁ ∧ removeVertex g₁ v = .ok g₂ ∧ NoDangling g₂ v ∧ g₂.hasV v = false ∧
      History d g₂ ((A.after g.next false (.clearVertex v)).after g₁.next false (.removeVertex v)) := by
  obtain ⟨hi, rfl⟩ := history_inv h
  obtain ⟨g₁, hg₁, hi₁, hv₁, he₁⟩ := clearVertex_spec hi (isV_content.1 hv)
  have h₁ : History d g₁ _ := .step (.clearVertex v) false h hv (by simp [Op.exec, hg₁, Outcome.map])
  have hl₂ : ((content g).after g.next false (.clearVertex v)).legal (.removeVertex v) := by
    refine ⟨hv, ?_⟩
    intro i s t b hm
    simp only [Abs.after, List.mem_filter] at hm
    grind
  obtain ⟨threw, g₂, hx⟩ := history_defined h₁ _ hl₂
  have hr : removeVertex g₁ v = .ok g₂ ∧ threw = false := by
    simp only [Op.exec, Outcome.map] at hx
    cases hc : removeVertex g₁ v with
    | ok x => rw [hc] at hx; simp at hx; simp [hx]
    | throws => rw [hc] at hx; simp at hx
    | ub => rw [hc] at hx; simp at hx
  obtain ⟨hr, rfl⟩ := hr
  have ht : ∀ e ∈ g₁.edges, e.tgt ≠ v := by
    intro e he
    rw [he₁, List.mem_filter] at he
    grind
  refine ⟨g₁, g₂, hg₁, hr, (remove_vertex_no_dangling_partial h₁ v hr).2.2.1 ht, ?_, .step _ false h₁ hl₂ hx⟩
  obtain ⟨-, hvs, -⟩ := removeVertex_spec hi₁ hr ht
  rw [Graph.hasV, hvs]
  simp

/-! ## C09 -/

/-- The claim of C09: indices are pairwise distinct. -/
def IndicesDistinct (g : Graph α β) : Prop := (g.verts.map Vert.index).Nodup ∧ (g.edges.map Edge.index).Nodup

/-- **C09, false.** The index given to a new element is the current number of elements (adjacency_list.hpp 713, 745):
after a removal without reindexing it repeats an index in use. -/
theorem indices_distinct_fails :
    ∃ (g : Graph Unit Unit) (A : Abs Unit Unit), History .directional g A ∧ g.verts.map Vert.index = [1, 1] ∧
      ¬ IndicesDistinct g := by
  refine ⟨_, _, .step (.addVertex .none ()) false (.step (.removeVertex 0) false (.step (.addVertex .none ()) false
    (.step (.addVertex .none ()) false .start trivial rfl) trivial rfl)
    ⟨⟨(), by decide⟩, by intro i s t b h; exact absurd h (by simp [Abs.after])⟩ rfl) trivial rfl, rfl, ?_⟩
  exact fun h => absurd h.1 (by decide)

/-- The indices are `0, 1, …` in iteration order. -/
def Indexed (g : Graph α β) : Prop :=
  g.verts.map Vert.index = List.range g.verts.length ∧ g.edges.map Edge.index = List.range g.edges.length

theorem mapIdx_index {γ : Type} (l : List γ) (f : Nat → γ → γ) (p : γ → Nat) (hf : ∀ i x, p (f i x) = i) :
    (l.mapIdx f).map p = List.range l.length := by
  apply List.ext_getElem
  · simp
  · intro i h1 h2; simp [hf]

/-- **C09, what holds (1).** After reindexing any graph the indices are exactly `0..n-1` in iteration order, for
vertices and for edges. -/
theorem reindex_indexed (g : Graph α β) : Indexed (reindex g) := by
  constructor
  · rw [show (reindex g).verts = g.verts.mapIdx (fun i v => { v with index := i }) from rfl,
      mapIdx_index _ _ _ (fun _ _ => rfl), List.length_mapIdx]
  · rw [show (reindex g).edges = g.edges.mapIdx (fun i e => { e with index := i }) from rfl,
      mapIdx_index _ _ _ (fun _ _ => rfl), List.length_mapIdx]

/-- An operation that removes nothing. -/
def Op.keeps : Op α β → Bool
  | .addVertex _ _ | .addEdge _ _ _ _ | .reindex => true
  | _ => false

/-- **C09, what holds (2).** As long as nothing is removed after the last reindexing (or since creation) the indices
stay `0..n-1`, hence distinct.  Missing: histories with insertions after a removal, see `indices_distinct_fails`. -/
theorem indices_distinct_partial {g g' : Graph α β} (hg : Indexed g) (op : Op α β) (hk : op.keeps = true) (threw : Bool)
    (hx : op.exec d g = .ok (threw, g')) : Indexed g' ∧ IndicesDistinct g' := by
  have key : Indexed g' := by
    cases op with
    | addVertex f a =>
      simp only [Op.exec, Outcome.ok.injEq, Prod.mk.injEq] at hx
      obtain ⟨-, rfl⟩ := hx
      rcases addVertex_cases (g := g) f a with hc | hc <;> rw [hc]
      · exact hg
      · refine ⟨?_, hg.2⟩
        simp [hg.1, List.range_succ]
    | addEdge f s t b =>
      simp only [Op.exec, addEdge] at hx
      split at hx
      · simp only [Outcome.map, Outcome.bind_ok, Outcome.ok.injEq, Prod.mk.injEq] at hx
        obtain ⟨-, rfl⟩ := hx
        rcases addEdgeAux_cases (g := g) d f s t b with hc | hc <;> rw [hc]
        · exact hg
        · refine ⟨hg.1, ?_⟩
          simp [added, newEdge, hg.2, List.range_succ]
      · cases hx
    | reindex =>
      simp only [Op.exec, Outcome.ok.injEq, Prod.mk.injEq] at hx
      obtain ⟨-, rfl⟩ := hx
      exact reindex_indexed g
    | removeEdge i => cases hk
    | removeEdges s t => cases hk
    | clearVertex v => cases hk
    | removeVertex v => cases hk
  refine ⟨key, ?_, ?_⟩
  · rw [key.1]; exact List.nodup_range
  · rw [key.2]; exact List.nodup_range

/-- Removals alone never make two indices equal either: what is left is a selection of the old indices. -/
theorem remove_keeps_distinct_partial {g g' : Graph α β} {A : Abs α β} (h : History d g A) (hg : IndicesDistinct g)
    (op : Op α β) (hl : A.legal op) (hk : op.keeps = false) (threw : Bool) (hx : op.exec d g = .ok (threw, g')) :
    IndicesDistinct g' := by
  obtain ⟨hi, rfl⟩ := history_inv h
  have fin : ∀ (p : Vert α → Bool) (q : Edge β → Bool), g'.verts = g.verts.filter p → g'.edges = g.edges.filter q →
      IndicesDistinct g' := by
    intro p q h1 h2
    rw [IndicesDistinct, h1, h2]
    exact ⟨hg.1.sublist (List.Sublist.map _ List.filter_sublist), hg.2.sublist (List.Sublist.map _ List.filter_sublist)⟩
  have tt : ∀ {γ : Type} (l : List γ), l = l.filter (fun _ => true) := fun l => by simp
  cases op with
  | addVertex f a => cases hk
  | addEdge f s t b => cases hk
  | reindex => cases hk
  | removeEdge i =>
    obtain ⟨s, t, b, hm⟩ := hl
    obtain ⟨e, he, rfl, -⟩ := mem_content_es.1 hm
    obtain ⟨g'', hg', -, hv, hes⟩ := removeEdge_spec hi he
    simp [Op.exec, hg', Outcome.map] at hx
    obtain ⟨-, rfl⟩ := hx
    exact fin _ _ (hv.trans (tt _)) hes
  | removeEdges s t =>
    obtain ⟨g'', hg', -, hv, hes⟩ := removeEdges_spec hi (isV_content.1 hl.1) (isV_content.1 hl.2)
    simp [Op.exec, hg', Outcome.map] at hx
    obtain ⟨-, rfl⟩ := hx
    exact fin _ _ (hv.trans (tt _)) hes
  | clearVertex v =>
    obtain ⟨g'', hg', -, hv, hes⟩ := clearVertex_spec hi (isV_content.1 hl)
    simp [Op.exec, hg', Outcome.map] at hx
    obtain ⟨-, rfl⟩ := hx
    exact fin _ _ (hv.trans (tt _)) hes
  | removeVertex v =>
    cases hc : removeVertex g v with
    | ok x =>
      obtain ⟨-, hv, hes⟩ := removeVertex_spec hi hc
        (fun e he => (hl.2 e.id e.src e.tgt e.data (mem_content_es.2 ⟨e, he, rfl, rfl, rfl, rfl⟩)).2)
      simp [Op.exec, hc, Outcome.map] at hx
      obtain ⟨-, rfl⟩ := hx
      exact fin _ _ hv (hes.trans (tt _))
    | throws => simp [Op.exec, hc, Outcome.map] at hx
    | ub => simp [Op.exec, hc, Outcome.map] at hx

/-- A graph whose indices are not consecutive, and the same graph reindexed. -/
example : let g : Graph Unit Unit := ⟨[⟨3, 2, ()⟩, ⟨7, 2, ()⟩], [⟨9, 4, 3, 7, ()⟩], fun _ => [], fun _ => [], 10⟩
    ¬ Indexed g ∧ Indexed (reindex g) ∧ ((reindex g).verts.map Vert.id = [3, 7]) := by
  refine ⟨?_, reindex_indexed _, rfl⟩
  intro h; exact absurd h.1 (by decide)

end MM.AdjList
