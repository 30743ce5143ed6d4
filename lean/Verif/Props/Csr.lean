import Verif.Proofs.Csr

/-! # Property theorems C10 (conversion to the compressed graph) -/

set_option autoImplicit false
set_option linter.unusedSectionVars false

namespace MM.Csr

open MM.AdjList

variable {α β : Type} {d : Dir}

/-- A row of the compressed graph stands for edge `e` of vertex number `k`: same source, same data, and its target
position holds the target vertex. -/
def RowFor (g : Graph α β) (k : Nat) (e : Edge β) (r : Row β) : Prop :=
  r.src = k ∧ r.data = e.data ∧ (g.verts[r.tgt]?).map Vert.id = some e.tgt

/-- **C10.** Converting any graph reached by a legal history, once its indices are consecutive, into a new compressed
graph: the vertices are the same in the same order with the same data, and reading the out edges of vertex number `k`
gives, in order and with the same data, source and target, exactly the edges stored from that vertex. -/
theorem csr_preserves {g : Graph α β} {A : Abs α β} (h : History d g A) (hx : Indexed g) :
    ∃ c, fromAdjList d g Csr.empty = .ok c ∧ c.verts.map Prod.snd = g.verts.map Vert.data ∧
      c.edges.length = g.edges.length ∧
      ∀ k v, g.verts[k]? = some v →
        ∃ rows, c.outEdges k = .ok rows ∧ List.Forall₂ (RowFor g k) (g.edges.filter (fun e => e.src == v.id)) rows := by
  have hi := (history_inv h).1
  have hc := convVerts_spec hi hx g.verts (fun _ h => h) Csr.empty
  refine ⟨⟨starts g 0 g.verts, (g.verts.map (rowsOf g)).flatten⟩, ?_, starts_data _ _, ?_, ?_⟩
  · rw [fromAdjList, show (Csr.empty, 0) = ((Csr.empty : Csr α β), Csr.empty.edges.length (α := Row β)) from rfl, hc]
    simp [Csr.empty, Outcome.map]
  · simp only [List.length_flatten, List.map_map]
    have key : ∀ (vs : List Nat) (es : List (Edge β)), vs.Nodup → (∀ e ∈ es, e.src ∈ vs) →
        (vs.map (fun i => (es.filter (fun e => e.src == i)).length)).sum = es.length := by
      intro vs
      induction vs with
      | nil =>
        intro es _ hes
        cases es with
        | nil => rfl
        | cons e es => exact absurd (hes e (by simp)) (by simp)
      | cons v vs ih =>
        intro es hn hes
        rw [List.nodup_cons] at hn
        have h1 : ∀ i ∈ vs, (es.filter (fun e => e.src == i)).length =
            ((es.filter (fun e => !(e.src == v))).filter (fun e => e.src == i)).length := by
          intro i hi
          rw [List.filter_filter]
          congr 1
          apply List.filter_congr
          intro e _
          have : i ≠ v := fun hc => hn.1 (hc ▸ hi)
          grind
        rw [List.map_cons, List.sum_cons, List.map_congr_left h1,
          ih (es.filter (fun e => !(e.src == v))) hn.2 (by
            intro e he
            rw [List.mem_filter] at he
            have := hes e he.1
            grind)]
        have hp := List.length_eq_length_filter_add (fun e : Edge β => e.src == v) (l := es)
        omega
    have := key (g.verts.map Vert.id) g.edges hi.vnodup (by
      intro e he
      obtain ⟨x, hx1, hx2⟩ := hasV_iff.1 (hi.ends e he).1
      exact List.mem_map.2 ⟨x, hx1, hx2⟩)
    rw [List.map_map] at this
    rw [← this]
    congr 1
    apply List.map_congr_left
    intro v _
    simp [rowsOf]
  · intro k v hk
    refine ⟨_, outEdges_built _ k v hk, ?_⟩
    unfold rowsOf
    rw [List.forall₂_map_right_iff, List.forall₂_same]
    intro e he
    obtain ⟨he, hs⟩ := List.mem_filter.1 he
    have hs : e.src = v.id := by simpa using hs
    have hv : v ∈ g.verts := List.mem_of_getElem? hk
    obtain ⟨y, hy1, hy2⟩ := hasV_iff.1 (hi.ends e he).2
    obtain ⟨j, hj⟩ := List.mem_iff_getElem?.1 hy1
    refine ⟨?_, rfl, ?_⟩
    · simp only [rowOf, hs, indexOf_mem hi hv, Option.getD_some]
      exact indexed_get hx hk
    · simp only [rowOf, ← hy2, indexOf_mem hi hy1, Option.getD_some]
      rw [indexed_get hx hj, hj]
      rfl

/-- **C10.** For directional and bidirectional graphs the edges stored from a vertex are exactly its out edges, in the
order in which they are listed at the vertex (undirected graphs list an edge at both ends; it is converted once). -/
theorem csr_rows_are_out_edges {g : Graph α β} {A : Abs α β} (h : History d g A) (hd : d ≠ .undirected) (v : Nat) :
    (g.out v).mapM g.getE = some (g.edges.filter (fun e => e.src == v)) := by
  rw [mapM_out (history_inv h).1]
  congr 1
  apply List.filter_congr
  intro e _
  cases d <;> simp_all [outInc, Dir.isUndirected]

/-- **C10, the precondition "new compressed graph" is needed.** Converting into a compressed graph that already holds
something does not clear it (compressed_sparse_row.hpp 297-310): the result has both contents. -/
theorem csr_not_cleared_fails :
    ∃ (g : Graph Unit Nat) (A : Abs Unit Nat) (c : Csr Unit Nat), History .directional g A ∧ Indexed g ∧
      fromAdjList .directional g ⟨[(0, ())], [⟨0, 0, 5⟩]⟩ = .ok c ∧ g.verts.length = 1 ∧ c.verts.length = 2 ∧
      c.outEdges 1 = .ok [⟨0, 0, 5⟩, ⟨0, 0, 7⟩] := by
  refine ⟨_, _, _, .step (.addEdge {} 0 0 7) false (.step (.addVertex .none ()) false .start trivial rfl)
    ⟨⟨(), by decide⟩, ⟨(), by decide⟩⟩ rfl, ⟨rfl, rfl⟩, rfl, rfl, rfl, rfl⟩

/-- Two vertices with a self loop, parallel edges and a vertex without out edges in between. -/
example : (runOps .directional [.addVertex .none 'a', .addVertex .none 'b', .addVertex .none 'c', .addEdge {} 2 0 1,
      .addEdge {} 0 0 2, .addEdge {} 0 1 3, .addEdge {} 0 1 4] empty).bind (fun g => (fromAdjList .directional g
        Csr.empty).bind (fun c => .ok (c.outEdges 0, c.outEdges 1, c.outEdges 2))) =
    .ok (.ok [⟨0, 0, 2⟩, ⟨0, 1, 3⟩, ⟨0, 1, 4⟩], .ok [], .ok [⟨2, 0, 1⟩]) := by
  rfl

end MM.Csr
