import Verif.Model.GraphHelper
import Verif.Props.AdjList
import Verif.Props.Tags

/-! # Property theorems C79 (networks built in storage that grows) -/

set_option autoImplicit false
set_option linter.unusedSectionVars false

namespace MM.GHelper

open MM.AdjList

variable {P L : Type}

/-! ## What the calls ask for -/

/-- The nodes handed over, in order. -/
def nodesOf : List (Op P L) → List (Rec P)
  | [] => []
  | .node r _ :: ops => r :: nodesOf ops
  | .arc .. :: ops => nodesOf ops

/-- The edges handed over, in order, with the numbers of the nodes they connect. -/
def arcsOf : List (Op P L) → List (Nat × Nat × Rec L)
  | [] => []
  | .node .. :: ops => arcsOf ops
  | .arc i j r _ :: ops => (i, j, r) :: arcsOf ops

/-- The tags handed over for the node with an id: the first ones that are not empty. -/
def nodeTagsOf (id : Nat) : List (Op P L) → List Nat
  | [] => []
  | .node r tags :: ops => if r.id = id ∧ tags ≠ [] then tags else nodeTagsOf id ops
  | .arc .. :: ops => nodeTagsOf id ops

/-- The same for edges. -/
def arcTagsOf (id : Nat) : List (Op P L) → List Nat
  | [] => []
  | .node .. :: ops => arcTagsOf id ops
  | .arc _ _ r tags :: ops => if r.id = id ∧ tags ≠ [] then tags else arcTagsOf id ops

/-- Edges refer to nodes handed over before. -/
def Legal (ops : List (Op P L)) : Prop :=
  ∀ k i j r tags, ops[k]? = some (.arc i j r tags) →
    i < (nodesOf (ops.take k)).length ∧ j < (nodesOf (ops.take k)).length

/-! ## What is in the storage -/

/-- The nodes in the storage. -/
def nodes (s : Store P L) : List (Rec P) := s.graph.verts.map Vert.data

/-- The edges in the storage with the numbers of the nodes they connect. -/
def arcs (s : Store P L) : List (Nat × Nat × Rec L) :=
  s.graph.edges.map (fun e =>
    ((s.graph.verts.map Vert.id).idxOf e.src, (s.graph.verts.map Vert.id).idxOf e.tgt, e.data))

/-! ## Lemmas -/

theorem nodesOf_append (a b : List (Op P L)) : nodesOf (a ++ b) = nodesOf a ++ nodesOf b := by
  induction a with
  | nil => rfl
  | cons op a ih => cases op <;> simp [nodesOf, ih]

theorem arcsOf_append (a b : List (Op P L)) : arcsOf (a ++ b) = arcsOf a ++ arcsOf b := by
  induction a with
  | nil => rfl
  | cons op a ih => cases op <;> simp [arcsOf, ih]

/-- The result of a call: the number of the node or edge. -/
def resultOf (done : List (Op P L)) : Op P L → Nat
  | .node .. => (nodesOf done).length
  | .arc .. => (arcsOf done).length

/-- The storage holds what the calls `done` handed over. -/
structure Core (done : List (Op P L)) (s : Store P L) : Prop where
  inv : Inv .bidirectional s.graph
  indexed : s.graph.verts.map Vert.index = List.range s.graph.verts.length
  index : s.index = s.graph.verts.map Vert.id
  nodes : nodes s = nodesOf done
  arcs : arcs s = arcsOf done

/-- The tags in the storage after the calls `done`. -/
def TagsAfter (done : List (Op P L)) (s : Store P L) : Prop :=
  (∀ id, Tags.mapTags s.nodeTags id = nodeTagsOf id done) ∧ (∀ id, Tags.mapTags s.edgeTags id = arcTagsOf id done)

theorem nodeTagsOf_append (id : Nat) (a b : List (Op P L)) :
    nodeTagsOf id (a ++ b) = if nodeTagsOf id a = [] then nodeTagsOf id b else nodeTagsOf id a := by
  induction a with
  | nil => simp [nodeTagsOf]
  | cons op a ih =>
    cases op with
    | node r tags =>
      simp only [List.cons_append, nodeTagsOf]
      split
      · next h => simp [h.2]
      · exact ih
    | arc i j r tags => simp only [List.cons_append, nodeTagsOf]; exact ih

theorem arcTagsOf_append (id : Nat) (a b : List (Op P L)) :
    arcTagsOf id (a ++ b) = if arcTagsOf id a = [] then arcTagsOf id b else arcTagsOf id a := by
  induction a with
  | nil => simp [arcTagsOf]
  | cons op a ih =>
    cases op with
    | arc i j r tags =>
      simp only [List.cons_append, arcTagsOf]
      split
      · next h => simp [h.2]
      · exact ih
    | node r tags => simp only [List.cons_append, arcTagsOf]; exact ih

/-- No entry of the map is empty. -/
def NoEmpty (m : List (Nat × List Nat)) : Prop := ∀ e ∈ m, e.2 ≠ []

theorem noEmpty_set {m : List (Nat × List Nat)} (h : NoEmpty m) (i : Nat) (tags : List Nat) :
    NoEmpty (Tags.setMapTags m i tags) := by
  unfold Tags.setMapTags Tags.emplace
  split
  · exact h
  · split
    · exact h
    · intro e he
      rcases List.mem_append.1 he with he | he
      · exact h e he
      · simp only [List.mem_singleton] at he; subst he; assumption

theorem mapTags_set {m : List (Nat × List Nat)} (h : NoEmpty m) (i : Nat) (tags : List Nat) (k : Nat) :
    Tags.mapTags (Tags.setMapTags m i tags) k =
      if i = k ∧ Tags.mapTags m k = [] then tags else Tags.mapTags m k := by
  have hfind : ∀ t, Tags.find m k = some t → t ≠ [] := by
    intro t ht
    unfold Tags.find at ht
    rw [Option.map_eq_some_iff] at ht
    obtain ⟨e, he, rfl⟩ := ht
    exact h e (List.mem_of_find?_eq_some he)
  unfold Tags.setMapTags Tags.emplace Tags.mapTags
  by_cases ht : tags = []
  · subst ht
    cases hf : Tags.find m k with
    | none => simp [hf]
    | some t => simp [hf, hfind t hf]
  · simp only [ht, if_false]
    by_cases hik : i = k
    · subst hik
      cases hf : Tags.find m i with
      | none => simp [hf, Tags.find_append]
      | some t => simp [hf, hfind t hf]
    · cases hs : (Tags.find m i).isSome with
      | true => simp [hik]
      | false => simp [Tags.find_append, hik]

theorem no_edge_new {g : Graph (Rec P) (Rec L)} (h : Inv .bidirectional g) (v : Nat) (hv : g.next ≤ v) :
    g.out v = [] ∧ g.inn v = [] := by
  have hne : ∀ e ∈ g.edges, e.src ≠ v ∧ e.tgt ≠ v := by
    intro e he
    obtain ⟨h1, h2⟩ := h.ends e he
    obtain ⟨x, hx, hxe⟩ := hasV_iff.1 h1
    obtain ⟨y, hy, hye⟩ := hasV_iff.1 h2
    have := h.vlt x hx
    have := h.vlt y hy
    omega
  rw [h.out, h.inn]
  simp only [Dir.isBidirectional, if_true, List.map_eq_nil_iff, List.filter_eq_nil_iff]
  exact ⟨fun e he => by simp [outInc, hne e he, Dir.isUndirected], fun e he => by simp [hne e he]⟩

theorem find_new {g : Graph (Rec P) (Rec L)} (h : Inv .bidirectional g) (r : Rec P) (k : Nat) :
    (g.verts ++ [(⟨g.next, k, r⟩ : Vert (Rec P))]).find? (fun x => x.id == g.next) = some ⟨g.next, k, r⟩ := by
  rw [List.find?_append]
  have : g.verts.find? (fun x => x.id == g.next) = none := by
    rw [List.find?_eq_none]
    intro x hx
    have := h.vlt x hx
    simp; omega
  simp [this]

theorem tryAdd_snd {γ : Type} (f : Fault) (c : List γ) (x : γ) :
    ((tryAdd f c x).2 = true ∧ (tryAdd f c x).1 = c ∧ f ≠ .none) ∨
    ((tryAdd f c x).2 = false ∧ (tryAdd f c x).1 = c ++ [x]) := by
  cases f <;> simp [tryAdd]

/-- The graph with a new node. -/
def plus (g : Graph (Rec P) (Rec L)) (a : Rec P) : Graph (Rec P) (Rec L) :=
  ⟨g.verts ++ [⟨g.next, g.verts.length, a⟩], g.edges, g.out, g.inn, g.next + 1⟩

/-- The graph with one number skipped. -/
def skip (g : Graph (Rec P) (Rec L)) : Graph (Rec P) (Rec L) := ⟨g.verts, g.edges, g.out, g.inn, g.next + 1⟩

theorem addVertex_cases' (f : Fault) (g : Graph (Rec P) (Rec L)) (a : Rec P) :
    (addVertex f g a = ⟨true, g⟩ ∧ f ≠ .none) ∨ addVertex f g a = ⟨false, plus g a⟩ := by
  cases f <;> simp [addVertex, tryAdd, plus]

theorem inv_plus {g : Graph (Rec P) (Rec L)} (h : Inv .bidirectional g) (a : Rec P) : Inv .bidirectional (plus g a) :=
  inv_addVertex h .none a

theorem index_plus {g : Graph (Rec P) (Rec L)} (h : Inv .bidirectional g) (a : Rec P) :
    vertexIndex (plus g a) g.next = .ok g.verts.length := by
  unfold vertexIndex plus
  simp only [find_new h]

theorem remove_plus {g : Graph (Rec P) (Rec L)} (h : Inv .bidirectional g) (a : Rec P) :
    removeVertex (plus g a) g.next = .ok (skip g) := by
  have hnew := no_edge_new h g.next (Nat.le_refl _)
  have hfil : (g.verts ++ [(⟨g.next, g.verts.length, a⟩ : Vert (Rec P))]).filter (fun x => x.id != g.next) = g.verts := by
    rw [List.filter_append]
    have : g.verts.filter (fun x => x.id != g.next) = g.verts := by
      refine List.filter_eq_self.2 (fun x hx => ?_)
      have := h.vlt x hx
      simp; omega
    rw [this]; simp
  unfold removeVertex
  have hh : (plus g a).hasV g.next = true := by
    rw [hasV_iff]; exact ⟨⟨g.next, g.verts.length, a⟩, by simp [plus], rfl⟩
  rw [if_pos hh, if_pos (show (plus g a).out g.next = [] from hnew.1)]
  simp only [plus, hfil, skip, update_id g.inn g.next [] hnew.2]

/-- One attempt to add a vertex and its index. -/
theorem vertex_attempt {done : List (Op P L)} {s : Store P L} (h : Core done s) (tr : Trouble) (r : Rec P) (tags : List Nat) :
    (∃ t, addVertexMapped tr r s = .ok (t, some (nodesOf done).length) ∧ Core (done ++ [.node r tags]) t ∧
      t.nodeTags = s.nodeTags ∧ t.edgeTags = s.edgeTags ∧ t.pending = s.pending) ∨
    (∃ t, addVertexMapped tr r s = .ok (t, none) ∧ Core done t ∧
      t.nodeTags = s.nodeTags ∧ t.edgeTags = s.edgeTags ∧ t.pending = s.pending ∧ tr ≠ {}) := by
  have hlen : s.index.length = s.graph.verts.length := by rw [h.index]; simp
  have hnl : (nodesOf done).length = s.graph.verts.length := by rw [← h.nodes]; simp [nodes]
  unfold addVertexMapped
  rcases addVertex_cases' tr.vert s.graph r with ⟨hc, hf⟩ | hc
  · right
    simp only [hc, if_true]
    refine ⟨_, rfl, ⟨h.inv, h.indexed, h.index, h.nodes, h.arcs⟩, rfl, rfl, rfl, ?_⟩
    intro he
    rw [he] at hf
    exact hf rfl
  · simp only [hc, Bool.false_eq_true, if_false, addToIndexMap, index_plus h.inv, Outcome.bind_ok, hlen, ne_eq,
      not_true_eq_false]
    rcases tryAdd_snd tr.index s.index s.graph.next with ⟨h2, h1, hf⟩ | ⟨h2, h1⟩
    · right
      simp only [h2, if_true, h1, remove_plus h.inv, Outcome.map_ok]
      refine ⟨_, rfl, ⟨?_, h.indexed, h.index, h.nodes, h.arcs⟩, rfl, rfl, rfl, ?_⟩
      · exact ⟨fun v hv => Nat.lt_succ_of_lt (h.inv.vlt v hv), fun e he => Nat.lt_succ_of_lt (h.inv.elt e he),
          h.inv.vnodup, h.inv.enodup, h.inv.ends, h.inv.out, h.inv.inn⟩
      · intro he
        rw [he] at hf
        exact hf rfl
    · left
      simp only [h2, Bool.false_eq_true, if_false, h1]
      rw [hnl]
      refine ⟨_, rfl, ⟨inv_plus h.inv r, ?_, ?_, ?_, ?_⟩, rfl, rfl, rfl⟩
      · simp [h.indexed, List.range_succ, plus]
      · simp [h.index, plus]
      · have := h.nodes
        simp only [nodes] at this
        simp [nodes, nodesOf_append, this, nodesOf, plus]
      · have := h.arcs
        simp only [arcs] at this
        simp only [arcsOf_append, arcsOf, List.append_nil, ← this, arcs, plus]
        refine List.map_congr_left (fun e he => ?_)
        obtain ⟨ha, hb⟩ := h.inv.ends e he
        obtain ⟨x, hx, hxe⟩ := hasV_iff.1 ha
        obtain ⟨y, hy, hye⟩ := hasV_iff.1 hb
        have hs : e.src ∈ s.graph.verts.map Vert.id := List.mem_map.2 ⟨x, hx, hxe⟩
        have ht : e.tgt ∈ s.graph.verts.map Vert.id := List.mem_map.2 ⟨y, hy, hye⟩
        simp only [List.map_append, List.idxOf_append_of_mem hs, List.idxOf_append_of_mem ht]

/-- The tags in the storage are those handed over by `done`. -/
structure Tagged (done : List (Op P L)) (s : Store P L) : Prop where
  noEmptyN : NoEmpty s.nodeTags
  noEmptyE : NoEmpty s.edgeTags
  nodes : ∀ id, Tags.mapTags s.nodeTags id = nodeTagsOf id done
  arcs : ∀ id, Tags.mapTags s.edgeTags id = arcTagsOf id done

theorem tagged_node {done : List (Op P L)} {s t : Store P L} {r : Rec P} {tags : List Nat}
    (h : Tagged done s ∨ Tagged (done ++ [.node r tags]) s) (hn : t.nodeTags = Tags.setMapTags s.nodeTags r.id tags)
    (he : t.edgeTags = s.edgeTags) : Tagged (done ++ [.node r tags]) t := by
  have hne : NoEmpty s.nodeTags ∧ NoEmpty s.edgeTags := by
    rcases h with h | h <;> exact ⟨h.noEmptyN, h.noEmptyE⟩
  refine ⟨by rw [hn]; exact noEmpty_set hne.1 _ _, by rw [he]; exact hne.2, fun id => ?_, fun id => ?_⟩
  · rw [hn, mapTags_set hne.1]
    rcases h with h | h <;> rw [h.nodes id] <;> simp only [nodeTagsOf_append, nodeTagsOf]
    · by_cases h1 : nodeTagsOf id done = [] <;> by_cases h2 : r.id = id <;> by_cases h3 : tags = [] <;> simp [h1, h2, h3]
    · by_cases h1 : nodeTagsOf id done = [] <;> by_cases h2 : r.id = id <;> by_cases h3 : tags = [] <;> simp [h1, h2, h3]
  · rw [he]
    rcases h with h | h <;> rw [h.arcs id] <;> simp only [arcTagsOf_append, arcTagsOf]
    by_cases h1 : arcTagsOf id done = [] <;> simp [h1]

theorem tagged_arc {done : List (Op P L)} {s t : Store P L} {i j : Nat} {r : Rec L} {tags : List Nat}
    (h : Tagged done s ∨ Tagged (done ++ [.arc i j r tags]) s) (hn : t.nodeTags = s.nodeTags)
    (he : t.edgeTags = Tags.setMapTags s.edgeTags r.id tags) : Tagged (done ++ [.arc i j r tags]) t := by
  have hne : NoEmpty s.nodeTags ∧ NoEmpty s.edgeTags := by
    rcases h with h | h <;> exact ⟨h.noEmptyN, h.noEmptyE⟩
  refine ⟨by rw [hn]; exact hne.1, by rw [he]; exact noEmpty_set hne.2 _ _, fun id => ?_, fun id => ?_⟩
  · rw [hn]
    rcases h with h | h <;> rw [h.nodes id] <;> simp only [nodeTagsOf_append, nodeTagsOf]
    by_cases h1 : nodeTagsOf id done = [] <;> simp [h1]
  · rw [he, mapTags_set hne.2]
    rcases h with h | h <;> rw [h.arcs id] <;> simp only [arcTagsOf_append, arcTagsOf]
    · by_cases h1 : arcTagsOf id done = [] <;> by_cases h2 : r.id = id <;> by_cases h3 : tags = [] <;> simp [h1, h2, h3]
    · by_cases h1 : arcTagsOf id done = [] <;> by_cases h2 : r.id = id <;> by_cases h3 : tags = [] <;> simp [h1, h2, h3]

theorem addEdgeAux_cases' (f : Faults) (g : Graph (Rec P) (Rec L)) (v w : Nat) (r : Rec L) :
    (addEdgeAux .bidirectional f g v w r = ⟨true, g⟩ ∧ f ≠ {}) ∨
    addEdgeAux .bidirectional f g v w r = ⟨false, added .bidirectional g v w r⟩ := by
  rcases addEdgeAux_cases (g := g) .bidirectional f v w r with h | h
  · left
    refine ⟨h, ?_⟩
    intro he
    subst he
    simp [addEdgeAux, tryAdd, addTgtIn] at h
  · exact .inr h

/-- An edge between the nodes with the numbers `i` and `j`. -/
theorem edge_attempt {done : List (Op P L)} {s : Store P L} (h : Core done s) (tr : Trouble) (i j v w : Nat) (r : Rec L)
    (tags : List Nat) (hi : s.index[i]? = some v) (hj : s.index[j]? = some w) :
    (∃ t, addEdgeAt tr v w r s = .ok (t, some (arcsOf done).length) ∧ Core (done ++ [.arc i j r tags]) t ∧
      t.nodeTags = s.nodeTags ∧ t.edgeTags = s.edgeTags ∧ t.pending = s.pending) ∨
    (∃ t, addEdgeAt tr v w r s = .ok (t, none) ∧ Core done t ∧
      t.nodeTags = s.nodeTags ∧ t.edgeTags = s.edgeTags ∧ t.pending = s.pending ∧ tr ≠ {}) := by
  have hal : (arcsOf done).length = s.graph.edges.length := by rw [← h.arcs]; simp [arcs]
  have hv : s.graph.hasV v = true := by
    have := List.mem_of_getElem? hi
    rw [h.index, List.mem_map] at this
    exact hasV_iff.2 this
  have hw : s.graph.hasV w = true := by
    have := List.mem_of_getElem? hj
    rw [h.index, List.mem_map] at this
    exact hasV_iff.2 this
  have hpos : ∀ (k x : Nat), s.index[k]? = some x → (s.graph.verts.map Vert.id).idxOf x = k := by
    intro k x hk
    rw [h.index] at hk
    obtain ⟨hlt, hx⟩ := List.getElem?_eq_some_iff.1 hk
    rw [← hx]
    exact h.inv.vnodup.idxOf_getElem k hlt
  unfold addEdgeAt addEdge
  simp only [hv, hw, Bool.and_self, if_true, Outcome.map_ok]
  rcases addEdgeAux_cases' tr.edge s.graph v w r with ⟨hc, hf⟩ | hc
  · right
    simp only [hc, if_true]
    refine ⟨_, rfl, ⟨h.inv, h.indexed, h.index, h.nodes, h.arcs⟩, rfl, rfl, rfl, ?_⟩
    intro he
    rw [he] at hf
    exact hf rfl
  · left
    simp only [hc, Bool.false_eq_true, if_false]
    rw [hal]
    refine ⟨_, rfl, ⟨inv_added h.inv hv hw, h.indexed, h.index, ?_, ?_⟩, rfl, rfl, rfl⟩
    · have := h.nodes
      simp only [nodes] at this
      simp [nodes, nodesOf_append, nodesOf, added, this]
    · have := h.arcs
      simp only [arcs] at this
      simp [arcs, arcsOf_append, arcsOf, added, newEdge, this, hpos i v hi, hpos j w hj]

/-- What an attempt of a call does. -/
theorem attempt_spec {done : List (Op P L)} {s : Store P L} (h : Core done s) (op : Op P L)
    (ht : Tagged done s ∨ Tagged (done ++ [op]) s) :
    (∃ t, op.attempt s = .ok (t, some (resultOf done op)) ∧ Core (done ++ [op]) t ∧ Tagged (done ++ [op]) t ∧
      t.pending = s.pending.tail ∧
      ∀ i j r tags, op = .arc i j r tags → i < (nodesOf done).length ∧ j < (nodesOf done).length) ∨
    (∃ t, op.attempt s = .ok (t, none) ∧ Core done t ∧ Tagged (done ++ [op]) t ∧ t.pending = s.pending.tail ∧
      s.now ≠ {}) ∨
    (op.attempt s = .throws ∧ ∃ i j r tags, op = .arc i j r tags ∧
      ¬ (i < (nodesOf done).length ∧ j < (nodesOf done).length)) := by
  have hil : s.index.length = (nodesOf done).length := by rw [h.index, ← h.nodes]; simp [nodes]
  cases op with
  | node r tags =>
    have h' : Core done { s.next with nodeTags := Tags.setMapTags s.nodeTags r.id tags } :=
      ⟨h.inv, h.indexed, h.index, h.nodes, h.arcs⟩
    rcases vertex_attempt h' s.now r tags with ⟨t, h1, h2, h3, h4, h5⟩ | ⟨t, h1, h2, h3, h4, h5, h6⟩
    · exact .inl ⟨t, h1, h2, tagged_node ht h3 h4, h5, by intro i j r tags hh; cases hh⟩
    · exact .inr (.inl ⟨t, h1, h2, tagged_node ht h3 h4, h5, h6⟩)
  | arc i j r tags =>
    have h' : Core done { s.next with edgeTags := Tags.setMapTags s.edgeTags r.id tags } :=
      ⟨h.inv, h.indexed, h.index, h.nodes, h.arcs⟩
    cases hi : s.index[i]? with
    | none =>
      refine .inr (.inr ⟨by simp [Op.attempt, addArc, descriptor, hi], i, j, r, tags, rfl, ?_⟩)
      rw [List.getElem?_eq_none_iff] at hi
      omega
    | some v =>
      cases hj : s.index[j]? with
      | none =>
        refine .inr (.inr ⟨by simp [Op.attempt, addArc, descriptor, hi, hj], i, j, r, tags, rfl, ?_⟩)
        rw [List.getElem?_eq_none_iff] at hj
        omega
      | some w =>
        have hat : Op.attempt (.arc i j r tags) s =
            addEdgeAt s.now v w r { s.next with edgeTags := Tags.setMapTags s.edgeTags r.id tags } := by
          simp [Op.attempt, addArc, descriptor, hi, hj]
        rw [hat]
        have hlti := (List.getElem?_eq_some_iff.1 hi).1
        have hltj := (List.getElem?_eq_some_iff.1 hj).1
        rcases edge_attempt h' s.now i j v w r tags hi hj with ⟨t, h1, h2, h3, h4, h5⟩ | ⟨t, h1, h2, h3, h4, h5, h6⟩
        · refine .inl ⟨t, h1, h2, tagged_arc ht h3 h4, h5, ?_⟩
          intro i' j' r' tags' hh
          cases hh
          omega
        · exact .inr (.inl ⟨t, h1, h2, tagged_arc ht h3 h4, h5, h6⟩)

/-- What a call does: the node or edge is stored once, or nothing was stored and two attempts in a row failed (one, without
retries), or it refers to a node that does not exist. -/
theorem call_spec {done : List (Op P L)} {s : Store P L} (h : Core done s) (ht : Tagged done s) (mapped : Bool) (op : Op P L) :
    (∃ t, call mapped op s = .ok (t, some (resultOf done op)) ∧ Core (done ++ [op]) t ∧ Tagged (done ++ [op]) t ∧
      (t.pending = s.pending.tail ∨ t.pending = s.pending.tail.tail) ∧
      ∀ i j r tags, op = .arc i j r tags → i < (nodesOf done).length ∧ j < (nodesOf done).length) ∨
    (∃ t, call mapped op s = .ok (t, none) ∧ Core done t ∧ s.now ≠ {} ∧ (mapped = true → s.next.now ≠ {})) ∨
    (call mapped op s = .throws ∧ ∃ i j r tags, op = .arc i j r tags ∧
      ¬ (i < (nodesOf done).length ∧ j < (nodesOf done).length)) := by
  rcases attempt_spec h op (.inl ht) with ⟨t, h1, h2, h3, h4, h5⟩ | ⟨t, h1, h2, h3, h4, h5⟩ | ⟨h1, h2⟩
  · left
    refine ⟨t, ?_, h2, h3, .inl h4, h5⟩
    cases mapped <;> simp [call, retry, h1]
  · cases mapped with
    | false => exact .inr (.inl ⟨t, by simp [call, h1], h2, h5, by simp⟩)
    | true =>
      have hc : Core done (grow t) := ⟨h2.inv, h2.indexed, h2.index, h2.nodes, h2.arcs⟩
      have hg : Tagged (done ++ [op]) (grow t) := ⟨h3.noEmptyN, h3.noEmptyE, h3.nodes, h3.arcs⟩
      have hp : (grow t).pending = s.pending.tail := h4
      have hn : (grow t).now = s.next.now := by simp [Store.now, Store.next, hp]
      rcases attempt_spec hc op (.inr hg) with ⟨u, g1, g2, g3, g4, g5⟩ | ⟨u, g1, g2, g3, g4, g5⟩ | ⟨g1, g2⟩
      · left
        refine ⟨u, ?_, g2, g3, .inr (by rw [g4, hp]), g5⟩
        simp [call, retry, h1, g1]
      · right; left
        refine ⟨grow u, ?_, ⟨g2.inv, g2.indexed, g2.index, g2.nodes, g2.arcs⟩, h5, fun _ => by rw [← hn]; exact g5⟩
        simp [call, retry, h1, g1]
      · right; right
        refine ⟨?_, g2⟩
        simp [call, retry, h1, g1]
  · right; right
    refine ⟨?_, h2⟩
    cases mapped <;> simp [call, retry, h1]

/-- All calls, from a storage holding what `done` handed over. -/
theorem run_spec (mapped : Bool) (ops : List (Op P L)) : ∀ (done : List (Op P L)) (s : Store P L) (rs : List Nat),
    Core done s → Tagged done s → rs.length = done.length →
    (∀ k op, done[k]? = some op → rs[k]? = some (resultOf (done.take k) op)) →
    run mapped ops s rs ≠ .ub ∧
    (run mapped ops s rs = .throws → ∃ k i j r tags, ops[k]? = some (.arc i j r tags) ∧
      ¬ (i < (nodesOf (done ++ ops.take k)).length ∧ j < (nodesOf (done ++ ops.take k)).length)) ∧
    ∀ r, run mapped ops s rs = .ok r → ∃ n, n ≤ ops.length ∧ r.results.length = done.length + n ∧
      Core (done ++ ops.take n) r.store ∧
      (∀ k op, (done ++ ops.take n)[k]? = some op → r.results[k]? = some (resultOf ((done ++ ops.take n).take k) op)) ∧
      (r.complete = true → n = ops.length ∧ Tagged (done ++ ops) r.store) ∧
      (r.complete = false → n < ops.length) := by
  induction ops with
  | nil =>
    intro done s rs hc ht hl hr
    refine ⟨by simp [run], by simp [run], ?_⟩
    intro r h
    simp only [run, Outcome.ok.injEq] at h
    subst h
    exact ⟨0, by simp, by simpa using hl, by simpa using hc, by simpa using hr, by simpa using ht, by simp⟩
  | cons op ops ih =>
    intro done s rs hc ht hl hr
    rcases call_spec hc ht mapped op with ⟨t, h1, h2, h3, -, h5⟩ | ⟨t, h1, h2, h3⟩ | ⟨h1, h2⟩
    · have hrun : run mapped (op :: ops) s rs = run mapped ops t (rs ++ [resultOf done op]) := by
        simp [run, h1]
      rw [hrun]
      have hr' : ∀ k o, (done ++ [op])[k]? = some o →
          (rs ++ [resultOf done op])[k]? = some (resultOf ((done ++ [op]).take k) o) := by
        intro k o hk
        by_cases hlt : k < done.length
        · rw [List.getElem?_append_left hlt] at hk
          rw [List.getElem?_append_left (by omega), hr k o hk, List.take_append_of_le_length (by omega)]
        · have hk' : k = done.length := by
            have := (List.getElem?_eq_some_iff.1 hk).1
            simp at this; omega
          subst hk'
          simp at hk
          subst hk
          rw [List.getElem?_append_right (by omega)]
          simp [hl]
      obtain ⟨g1, g2, g3⟩ := ih (done ++ [op]) t (rs ++ [resultOf done op]) h2 h3 (by simp [hl]) hr'
      refine ⟨g1, ?_, ?_⟩
      · intro hth
        obtain ⟨k, i, j, r, tags, hk, hn⟩ := g2 hth
        exact ⟨k + 1, i, j, r, tags, by simpa using hk, by simpa using hn⟩
      · intro r h
        obtain ⟨n, hn, hlen, hco, hre, hcomp, hinc⟩ := g3 r h
        refine ⟨n + 1, by simpa using hn, by simp at hlen; omega, by simpa using hco, by simpa using hre, ?_, ?_⟩
        · intro hh
          obtain ⟨a, b⟩ := hcomp hh
          exact ⟨by simp [a], by simpa using b⟩
        · intro hh
          simpa using hinc hh
    · have hrun : run mapped (op :: ops) s rs = .ok ⟨t, rs, false⟩ := by simp [run, h1]
      rw [hrun]
      refine ⟨by simp, by simp, ?_⟩
      intro r h
      simp only [Outcome.ok.injEq] at h
      subst h
      exact ⟨0, by simp, by simpa using hl, by simpa using h2, by simpa using hr, by simp, by simp⟩
    · have hrun : run mapped (op :: ops) s rs = .throws := by simp [run, h1]
      rw [hrun]
      obtain ⟨i, j, r, tags, ho, hn⟩ := h2
      exact ⟨by simp, fun _ => ⟨0, i, j, r, tags, by simp [ho], by simpa using hn⟩, by simp⟩

theorem core_start (size : Nat) (pending : List Trouble) : Core ([] : List (Op P L)) (start size pending) :=
  ⟨inv_empty, rfl, rfl, rfl, rfl⟩

theorem tagged_start (size : Nat) (pending : List Trouble) : Tagged ([] : List (Op P L)) (start size pending) :=
  ⟨by simp [NoEmpty, start], by simp [NoEmpty, start], fun _ => rfl, fun _ => rfl⟩

/-! ## C79 -/

/-- **C79.** Whatever allocations fail: building a network never runs into undefined behaviour, it is refused only if an edge
refers to a node not handed over before, and otherwise the storage holds exactly the nodes and edges of the calls that
returned, once each and in order, every edge connecting the nodes it was handed over for, with coherent incidence lists.
Every call returned the number of its node or edge. -/
theorem built (mapped : Bool) (ops : List (Op P L)) (size : Nat) (pending : List Trouble) :
    run mapped ops (start size pending) [] ≠ .ub ∧
    (run mapped ops (start size pending) [] = .throws → ¬ Legal ops) ∧
    ∀ r, run mapped ops (start size pending) [] = .ok r →
      nodes r.store = nodesOf (ops.take r.results.length) ∧
      arcs r.store = arcsOf (ops.take r.results.length) ∧
      Coherent .bidirectional r.store.graph ∧
      (∀ k nd tags, ops[k]? = some (.node nd tags) → k < r.results.length →
        r.results[k]? = some (nodesOf (ops.take k)).length) ∧
      (∀ k i j e tags, ops[k]? = some (.arc i j e tags) → k < r.results.length →
        r.results[k]? = some (arcsOf (ops.take k)).length) ∧
      (r.complete = true ↔ r.results.length = ops.length) := by
  obtain ⟨h1, h2, h3⟩ := run_spec mapped ops [] (start size pending) [] (core_start size pending) (tagged_start size pending)
    rfl (by simp)
  refine ⟨h1, ?_, ?_⟩
  · intro hth hl
    obtain ⟨k, i, j, r, tags, hk, hn⟩ := h2 hth
    exact hn (by simpa using hl k i j r tags hk)
  · intro r hr
    obtain ⟨n, hn, hlen, hco, hre, hcomp, hinc⟩ := h3 r hr
    simp only [List.length_nil, Nat.zero_add, List.nil_append] at hlen hco hre
    subst hlen
    have hget : ∀ k op, ops[k]? = some op → k < r.results.length → r.results[k]? = some (resultOf (ops.take k) op) := by
      intro k op hk hlt
      have := hre k op (by rw [List.getElem?_take_of_lt hlt]; exact hk)
      rw [this, List.take_take, Nat.min_eq_left (by omega)]
    refine ⟨hco.nodes, hco.arcs, coherent_of_inv hco.inv, fun k nd tags hk hlt => hget k _ hk hlt,
      fun k i j e tags hk hlt => hget k _ hk hlt, fun h => (hcomp h).1, ?_⟩
    intro he
    cases hc : r.complete with
    | true => rfl
    | false => have := hinc hc; omega

/-- **C79.** Once all calls have returned, every node and edge has the tags handed over for its id first. -/
theorem built_tags (mapped : Bool) (ops : List (Op P L)) (size : Nat) (pending : List Trouble) (r : Run P L)
    (hr : run mapped ops (start size pending) [] = .ok r) (hc : r.complete = true) (id : Nat) :
    Tags.mapTags r.store.nodeTags id = nodeTagsOf id ops ∧ Tags.mapTags r.store.edgeTags id = arcTagsOf id ops := by
  obtain ⟨-, -, h3⟩ := run_spec mapped ops [] (start size pending) [] (core_start size pending) (tagged_start size pending)
    rfl (by simp)
  obtain ⟨n, -, -, -, -, hcomp, -⟩ := h3 r hr
  have := (hcomp hc).2
  exact ⟨this.nodes id, this.arcs id⟩

/-- **C79.** Storage that had to grow holds the same network as memory. -/
theorem same_as_memory (ops : List (Op P L)) (size size' : Nat) (pending pending' : List Trouble) (r r' : Run P L)
    (hr : run true ops (start size pending) [] = .ok r) (hc : r.complete = true)
    (hr' : run false ops (start size' pending') [] = .ok r') (hc' : r'.complete = true) :
    nodes r.store = nodes r'.store ∧ arcs r.store = arcs r'.store ∧ r.results = r'.results ∧
    (∀ id, Tags.mapTags r.store.nodeTags id = Tags.mapTags r'.store.nodeTags id) ∧
    (∀ id, Tags.mapTags r.store.edgeTags id = Tags.mapTags r'.store.edgeTags id) := by
  obtain ⟨-, -, h⟩ := built true ops size pending
  obtain ⟨-, -, h'⟩ := built false ops size' pending'
  obtain ⟨a1, a2, -, a4, a5, a6⟩ := h r hr
  obtain ⟨b1, b2, -, b4, b5, b6⟩ := h' r' hr'
  have ha := a6.1 hc
  have hb := b6.1 hc'
  refine ⟨by rw [a1, b1, ha, hb], by rw [a2, b2, ha, hb], ?_, fun id => ?_, fun id => ?_⟩
  · refine List.ext_getElem? (fun k => ?_)
    by_cases hk : k < ops.length
    · cases ho : ops[k] with
      | node nd tags =>
        have hk' : ops[k]? = some (.node nd tags) := by rw [List.getElem?_eq_getElem hk, ho]
        rw [a4 k nd tags hk' (by omega), b4 k nd tags hk' (by omega)]
      | arc i j e tags =>
        have hk' : ops[k]? = some (.arc i j e tags) := by rw [List.getElem?_eq_getElem hk, ho]
        rw [a5 k i j e tags hk' (by omega), b5 k i j e tags hk' (by omega)]
    · rw [List.getElem?_eq_none (by omega), List.getElem?_eq_none (by omega)]
  · rw [(built_tags true ops size pending r hr hc id).1, (built_tags false ops size' pending' r' hr' hc' id).1]
  · rw [(built_tags true ops size pending r hr hc id).2, (built_tags false ops size' pending' r' hr' hc' id).2]

/-- No two attempts in a row run out of memory. -/
def Isolated (pending : List Trouble) : Prop := 
  ∀ k : Nat, pending[k]?.getD ({} : Trouble) = ({} : Trouble) ∨ pending[k + 1]?.getD ({} : Trouble) = ({} : Trouble)

theorem isolated_tail {pending : List Trouble} (h : Isolated pending) : Isolated pending.tail := by
  intro k
  have := h (k + 1)
  cases pending with
  | nil => simp
  | cons a l => simpa using this

theorem survives_aux (ops : List (Op P L)) : ∀ (done : List (Op P L)) (s : Store P L) (rs : List Nat),
    Core done s → Tagged done s → Legal (done ++ ops) → Isolated s.pending →
    ∃ r, run true ops s rs = .ok r ∧ r.complete = true := by
  induction ops with
  | nil => intro done s rs _ _ _ _; exact ⟨_, rfl, rfl⟩
  | cons op ops ih =>
    intro done s rs hc ht hl hp
    rcases call_spec hc ht true op with ⟨t, h1, h2, h3, h4, h5⟩ | ⟨t, h1, h2, h3, h4⟩ | ⟨h1, i, j, r, tags, ho, hn⟩
    · simp only [run, h1]
      refine ih (done ++ [op]) t _ h2 h3 (by simpa using hl) ?_
      rcases h4 with h4 | h4 <;> rw [h4]
      · exact isolated_tail hp
      · exact isolated_tail (isolated_tail hp)
    · exfalso
      have h4 := h4 rfl
      have := hp 0
      unfold Store.next Store.now at h4
      unfold Store.now at h3
      cases hpe : s.pending with
      | nil => rw [hpe] at h3; exact h3 rfl
      | cons a l =>
        rw [hpe] at h3 h4 this
        cases l with
        | nil => exact h4 rfl
        | cons b l =>
          simp at this h3 h4
          rcases this with this | this
          · exact h3 this
          · exact h4 this
    · exfalso
      apply hn
      have := hl done.length i j r tags (by simp [ho])
      simpa using this

/-- **C79.** If doubling the storage is enough, the network is built completely. -/
theorem survives (ops : List (Op P L)) (size : Nat) (pending : List Trouble) (hl : Legal ops) (hp : Isolated pending) :
    ∃ r, run true ops (start size pending) [] = .ok r ∧ r.complete = true :=
  survives_aux ops [] (start size pending) [] (core_start size pending) (tagged_start size pending) (by simpa using hl) hp

theorem attempt_size (op : Op P L) (s t : Store P L) (o : Option Nat) (h : op.attempt s = .ok (t, o)) : t.size = s.size := by
  cases op with
  | node r tags =>
    simp only [Op.attempt, addNode, addVertexMapped] at h
    split at h
    · simp at h; rw [← h.1]; rfl
    · simp only [addToIndexMap] at h
      generalize vertexIndex _ _ = vi at h
      cases vi <;> simp at h
      split at h
      · split at h
        · generalize removeVertex _ _ = rv at h
          cases rv <;> simp at h
          rw [← h.1]; rfl
        · simp at h; rw [← h.1]; rfl
      · cases h
  | arc i j r tags =>
    simp only [Op.attempt, addArc] at h
    generalize descriptor s i = v at h
    cases v <;> simp at h
    generalize descriptor s j = v at h
    cases v <;> simp at h
    simp only [addEdgeAt] at h
    generalize addEdge _ _ _ _ _ _ = v at h
    cases v <;> simp at h
    rw [← h.1]; rfl

/-- **C79.** After a failed attempt a call is repeated in a storage of twice the size. -/
theorem grows (op : Op P L) (s u t : Store P L) (o : Option Nat) (hu : op.attempt s = .ok (u, none))
    (h : call true op s = .ok (t, o)) : (o ≠ none → t.size = 2 * s.size) ∧ (o = none → t.size = 4 * s.size) := by
  simp only [call, if_true, retry, hu] at h
  have hs := attempt_size op s u none hu
  cases ha : op.attempt (grow u) with
  | ok r =>
    obtain ⟨v, a⟩ := r
    have hv := attempt_size op (grow u) v a ha
    have hg : (grow u).size = 2 * s.size := by simp [grow, hs]
    rw [ha] at h
    cases a with
    | none =>
      simp at h
      obtain ⟨h1, h2⟩ := h
      subst h2
      refine ⟨by simp, fun _ => ?_⟩
      rw [← h1]
      simp only [grow] at hv hg ⊢
      omega
    | some a =>
      simp at h
      obtain ⟨h1, h2⟩ := h
      subst h2
      refine ⟨fun _ => ?_, by simp⟩
      rw [← h1, hv, hg]
  | throws => rw [ha] at h; simp at h
  | ub => rw [ha] at h; simp at h

/-- Three nodes and two edges; the index runs out of memory for the second node, the last allocation of the first edge
fails. -/
def demoOps : List (Op Char Nat) :=
  [.node ⟨10, 'a'⟩ [], .node ⟨11, 'b'⟩ [7], .node ⟨12, 'c'⟩ [], .arc 0 1 ⟨5, 50⟩ [8], .arc 1 0 ⟨5, 51⟩ [9], .arc 2 1 ⟨6, 60⟩ []]

/-- The failures of that example. -/
def demoTrouble : List Trouble := [{}, { index := .dirty }, {}, {}, { edge := { tgtIn := .dirty } }, {}, {}, {}]

example : (run true demoOps (start 1 demoTrouble) []).map (fun r =>
    (nodes r.store, arcs r.store, r.store.size, r.results, r.complete)) =
    .ok ([⟨10, 'a'⟩, ⟨11, 'b'⟩, ⟨12, 'c'⟩], [(0, 1, ⟨5, 50⟩), (1, 0, ⟨5, 51⟩), (2, 1, ⟨6, 60⟩)], 4, [0, 1, 2, 0, 1, 2], true) := by
  rfl

example : Isolated demoTrouble := by
  intro k
  unfold demoTrouble
  match k with
  | 0 | 1 | 2 | 3 | 4 | 5 | 6 | 7 => decide
  | k + 8 => simp

example : Legal demoOps := by
  intro k i j r tags hk
  unfold demoOps at *
  match k with
  | 0 | 1 | 2 => simp at hk
  | 3 | 4 | 5 => simp at hk; obtain ⟨rfl, rfl, -⟩ := hk; decide
  | k + 6 => simp at hk

/-- **C79, false in general.** One retry doubles the storage once: an operation that still does not fit fails for good, though
doubling it again would be enough. -/
theorem one_retry_fails : ∃ (ops : List (Op Char Nat)) (pending : List Trouble), Legal ops ∧
    (run true ops (start 1 pending) []).map (fun r => (r.complete, nodes r.store)) = .ok (false, []) ∧
    (retry (Op.attempt (.node ⟨1, 'a'⟩ [])) grow 2 (start (P := Char) (L := Nat) 1 pending)).map (fun r => r.2) = .ok (some 0) ∧
    ops = [.node ⟨1, 'a'⟩ []] := by
  refine ⟨[.node ⟨1, 'a'⟩ []], [{ vert := .clean }, { vert := .clean }], ?_, by decide, by decide, rfl⟩
  intro k i j r tags hk
  match k with
  | 0 => simp at hk
  | k + 1 => simp at hk

/-! ### How far the storage grows -/

/-- Trying with `2 ^ r` times the storage at most. -/
theorem retry_fits (need : Nat) (r : Nat) : ∀ size, 0 < size →
    (need ≤ 2 ^ r * size → ∃ k, k ≤ r ∧ retry (fits need) (fun n => growTo n (2 * n)) r size = .ok (2 ^ k * size, some (2 ^ k * size)) ∧
      need ≤ 2 ^ k * size ∧ (k = 0 ∨ 2 ^ k * size < 2 * need)) ∧
    (2 ^ r * size < need → ∃ n, retry (fits need) (fun n => growTo n (2 * n)) r size = .ok (n, none)) := by
  induction r with
  | zero =>
    intro size hs
    refine ⟨fun h => ⟨0, Nat.le_refl _, ?_, by simpa using h, .inl rfl⟩, fun h => ⟨growTo size (2 * size), ?_⟩⟩
    · simp only [Nat.pow_zero, Nat.one_mul] at h
      simp [retry, fits, h]
    · have : ¬ need ≤ size := by simp at h; omega
      simp [retry, fits, this]
  | succ r ih =>
    intro size hs
    by_cases hn : need ≤ size
    · refine ⟨fun _ => ⟨0, Nat.zero_le _, ?_, by simpa using hn, .inl rfl⟩, fun h => ?_⟩
      · simp [retry, fits, hn]
      · exfalso
        have : size ≤ 2 ^ (r + 1) * size := Nat.le_mul_of_pos_left _ (Nat.two_pow_pos _)
        omega
    · have hg : growTo size (2 * size) = 2 * size := by unfold growTo; rw [if_pos (by omega)]
      have hstep : retry (fits need) (fun n => growTo n (2 * n)) (r + 1) size =
          retry (fits need) (fun n => growTo n (2 * n)) r (2 * size) := by
        simp [retry, fits, hn, hg]
      rw [hstep]
      have hp : ∀ k, 2 ^ k * (2 * size) = 2 ^ (k + 1) * size := by
        intro k; rw [Nat.pow_succ, Nat.mul_assoc]
      obtain ⟨a, b⟩ := ih (2 * size) (by omega)
      rw [hp] at a b
      refine ⟨fun h => ?_, b⟩
      obtain ⟨k, hk, h1, h2, h3⟩ := a h
      rw [hp] at h1 h2 h3
      refine ⟨k + 1, by omega, h1, h2, .inr ?_⟩
      rcases h3 with rfl | h3
      · simp; omega
      · exact h3

/-- **C79.** While the storage is smaller than the free space, a conversion that fits into half the free space succeeds, and
the storage it ends with fits into the free space and is less than twice what is needed, unless it was enough from the
beginning. -/
theorem convert_partial (available need guess size : Nat) (hs : 0 < size) (ha : max size guess ≤ available)
    (hn : 2 * need ≤ available) :
    ∃ n, convert available need guess size = .ok (n, some n) ∧ need ≤ n ∧ n ≤ available ∧
      (n = max size guess ∨ n < 2 * need) := by
  have hg : growTo size guess = max size guess := by
    unfold growTo; split <;> omega
  have hg0 : 0 < max size guess := by omega
  generalize hm : max size guess = m at *
  have hq : 0 < available / m := Nat.div_pos ha hg0
  have h1 : 2 ^ Nat.log2 (available / m) ≤ available / m := Nat.log2_self_le (by omega)
  have h2 : available / m < 2 ^ (Nat.log2 (available / m) + 1) := Nat.lt_log2_self
  have h3 : 2 ^ Nat.log2 (available / m) * m ≤ available :=
    Nat.le_trans (Nat.mul_le_mul_right m h1) (Nat.div_mul_le_self available m)
  have h4 : available < 2 ^ (Nat.log2 (available / m) + 1) * m := (Nat.div_lt_iff_lt_mul hg0).1 h2
  have hfit : need ≤ 2 ^ Nat.log2 (available / m) * m := by
    rw [Nat.pow_succ, Nat.mul_assoc, Nat.mul_left_comm] at h4; omega
  obtain ⟨k, hk, e1, e2, e3⟩ := (retry_fits need (Nat.log2 (available / m)) m hg0).1 hfit
  refine ⟨2 ^ k * m, ?_, e2, ?_, ?_⟩
  · unfold convert maxRetries
    rw [hg, if_neg (by omega), if_neg (by omega)]
    exact e1
  · exact Nat.le_trans (Nat.mul_le_mul_right m (Nat.pow_le_pow_right (by omega) hk)) h3
  · rcases e3 with rfl | e3
    · exact .inl (by simp)
    · exact .inr e3

/-- Ten units of storage, thirty needed, a hundred free: doubled twice. -/
example : convert 100 30 8 10 = .ok (40, some 40) := by decide

/-- **C79, false in general.** With less free space than the storage has already, the number of retries is the logarithm of
zero: undefined, even though the data would fit without any growth. -/
theorem convert_fails : ∃ available need guess size, need ≤ size ∧ guess ≤ size ∧ convert available need guess size = .ub :=
  ⟨9, 5, 8, 10, by decide, by decide, by decide⟩

end MM.GHelper
