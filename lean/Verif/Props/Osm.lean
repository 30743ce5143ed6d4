import Verif.Model.Osm
import Mathlib.Data.List.Nodup
import Mathlib.Data.List.Perm.Basic
import Mathlib.Tactic.SplitIfs

/-!
# C39: nodes can be looked up whatever their order; C40: edges in the permitted directions
-/

set_option autoImplicit false
set_option linter.unusedSectionVars false

namespace MM.Osm

variable {P : Type}

/-! ### Invariant -/

/-- Identifiers are unique, the order is known, vertices of the graph and nodes with index belong together. -/
structure Inv (st : St P) : Prop where
  nodup : (st.vertices.map Vertex.id).Nodup
  sorted : st.sort = false → st.vertices.Pairwise Vertex.le
  index : ∀ k id p, st.verts[k]? = some (id, p) ↔ (⟨id, p, some k⟩ : Vertex P) ∈ st.vertices
  edges : ∀ e ∈ st.edges, e.src < st.verts.length ∧ e.tgt < st.verts.length

/-- Nodes without their index. -/
def plain (vs : List (Vertex P)) : List (Nat × P) := vs.map (fun v => (v.id, v.point))

theorem Inv.unique {st : St P} (h : Inv st) {v w : Vertex P} (hv : v ∈ st.vertices) (hw : w ∈ st.vertices) (he : v.id = w.id) : v = w :=
  List.inj_on_of_nodup_map h.nodup hv hw he

instance : Std.Total (Vertex.le (P := P)) := ⟨fun a b => Nat.le_total a.id b.id⟩
instance : IsTrans (Vertex P) Vertex.le := ⟨fun _ _ _ h h' => Nat.le_trans (show _ ≤ _ from h) h'⟩

theorem checkAndSort_spec {st : St P} (h : Inv st) : Inv (checkAndSort st) ∧ (checkAndSort st).vertices.Perm st.vertices ∧
    (checkAndSort st).verts = st.verts ∧ (checkAndSort st).edges = st.edges ∧ (checkAndSort st).vertices.Pairwise Vertex.le := by
  unfold checkAndSort
  by_cases hs : st.sort = true
  · rw [if_pos hs]
    have hp : (st.vertices.insertionSort Vertex.le).Perm st.vertices := List.perm_insertionSort _ _
    have hsorted : (st.vertices.insertionSort Vertex.le).Pairwise Vertex.le := List.pairwise_insertionSort _ _
    refine ⟨⟨?_, fun _ => hsorted, ?_, h.edges⟩, hp, rfl, rfl, hsorted⟩
    · exact (hp.map Vertex.id).nodup_iff.2 h.nodup
    · intro k id p
      rw [h.index k id p]
      exact hp.mem_iff.symm
  · rw [if_neg hs]
    exact ⟨h, .refl _, rfl, rfl, h.sorted (by simpa using hs)⟩

theorem hit_spec {vs : List (Vertex P)} (hs : vs.Pairwise Vertex.le) (id : Nat) :
    (∀ i, hit vs id (vs.findIdx (fun v => decide (id ≤ v.id))) = some i → ∃ v, vs[i]? = some v ∧ v.id = id) ∧
    (hit vs id (vs.findIdx (fun v => decide (id ≤ v.id))) = none → ∀ v ∈ vs, v.id ≠ id) := by
  unfold hit
  constructor
  · intro i hi
    cases hv : vs[vs.findIdx (fun v => decide (id ≤ v.id))]? with
    | none => rw [hv] at hi; simp at hi
    | some v =>
      rw [hv] at hi
      simp only at hi
      split at hi
      · next he =>
        simp only [Option.some.injEq] at hi
        subst hi
        exact ⟨v, hv, he⟩
      · simp at hi
  · intro hn v hv he
    have hlt : vs.findIdx (fun v => decide (id ≤ v.id)) < vs.length := by
      rw [List.findIdx_lt_length]
      exact ⟨v, hv, by simp [he]⟩
    rw [List.getElem?_eq_getElem hlt] at hn
    simp only at hn
    have hge := List.findIdx_getElem (w := hlt)
    simp only [decide_eq_true_eq] at hge
    obtain ⟨j, hj, rfl⟩ := List.getElem_of_mem hv
    have hle : vs.findIdx (fun v => decide (id ≤ v.id)) ≤ j := by
      by_contra hlt'
      have := List.not_of_lt_findIdx (p := fun v : Vertex P => decide (id ≤ v.id)) (xs := vs) (i := j) (by omega)
      simp [he] at this
    have : (vs[vs.findIdx (fun v => decide (id ≤ v.id))]).id ≤ (vs[j]).id := by
      rcases Nat.lt_or_eq_of_le hle with h | h
      · exact List.pairwise_iff_getElem.1 hs _ _ hlt hj h
      · simp only [h]; exact Nat.le_refl _
    rw [if_pos (by omega)] at hn
    simp at hn

/-- Looking up never is undefined, and keeps everything but the order of the nodes. -/
theorem getNode_spec {st : St P} (h : Inv st) (id : Nat) : ∃ st' o, getNode st id = .ok (st', o) ∧ Inv st' ∧
    st'.vertices.Perm st.vertices ∧ st'.verts = st.verts ∧ st'.edges = st.edges ∧ st'.vertices.Pairwise Vertex.le ∧ st'.sort = false ∧
    (∀ i, o = some i → ∃ v, st'.vertices[i]? = some v ∧ v.id = id) ∧ (o = none → ∀ v ∈ st.vertices, v.id ≠ id) := by
  obtain ⟨h1, h2, h3, h4, h5⟩ := checkAndSort_spec h
  obtain ⟨h6, h7⟩ := hit_spec h5 id
  refine ⟨checkAndSort st, _, ?_, h1, h2, h3, h4, h5, ?_, h6, fun ho v hv => h7 ho v (h2.mem_iff.2 hv)⟩
  · unfold getNode lowerBound
    rw [if_pos h5]
    rfl
  · unfold checkAndSort
    split
    · rfl
    · next hs => simpa using hs

/-- A second look up at once does not change anything. -/
theorem getNode_again {st : St P} (hs : st.sort = false) (hp : st.vertices.Pairwise Vertex.le) (id : Nat) :
    ∃ o, getNode st id = .ok (st, o) ∧ (∀ i, o = some i → ∃ v, st.vertices[i]? = some v ∧ v.id = id) ∧
      (o = none → ∀ v ∈ st.vertices, v.id ≠ id) := by
  obtain ⟨h6, h7⟩ := hit_spec hp id
  have hc : checkAndSort st = st := by unfold checkAndSort; rw [if_neg (by simp [hs])]
  refine ⟨_, ?_, h6, h7⟩
  unfold getNode lowerBound
  rw [hc, if_pos hp]
  rfl

/-! ### Nodes -/

theorem inv_empty : Inv (St.empty : St P) := by
  constructor <;> simp [St.empty]

theorem node_spec {st : St P} (h : Inv st) (n : Node P) : ∃ st', node st n = .ok st' ∧ Inv st' ∧ st'.verts = st.verts ∧
    st'.edges = st.edges ∧ ∀ id p, (id, p) ∈ plain st'.vertices ↔
      (id, p) ∈ plain st.vertices ∨ (n.visible = true ∧ (∀ q, (n.id, q) ∉ plain st.vertices) ∧ id = n.id ∧ p = n.point) := by
  unfold node
  by_cases hv : n.visible = true
  swap
  · rw [if_neg hv]
    exact ⟨st, rfl, h, rfl, rfl, fun id p => by simp [hv]⟩
  rw [if_pos hv]
  obtain ⟨st', o, h1, h2, h3, h4, h5, h6, h7, h8, h9⟩ := getNode_spec h n.id
  have hc : containsNode st n.id = .ok (st', o.isSome) := by
    unfold getNode at h1
    unfold containsNode
    cases hl : lowerBound (checkAndSort st).vertices n.id with
    | ok i =>
      rw [hl] at h1
      simp only [Outcome.bind_ok, Outcome.ok.injEq, Prod.mk.injEq] at h1 ⊢
      rw [h1.1]
      rw [h1.1] at h1
      exact ⟨rfl, by rw [h1.2]⟩
    | throws => rw [hl] at h1; simp at h1
    | ub => rw [hl] at h1; simp at h1
  rw [hc]
  simp only [Outcome.bind_ok]
  have hmem : ∀ id p, (id, p) ∈ plain st'.vertices ↔ (id, p) ∈ plain st.vertices := fun id p => (h3.map _).mem_iff
  cases o with
  | some i =>
    obtain ⟨v, hvi, hid⟩ := h8 i rfl
    refine ⟨st', by simp, h2, h4, h5, ?_⟩
    intro id p
    rw [hmem]
    constructor
    · exact .inl
    · rintro (h' | ⟨_, hno, _, _⟩)
      · exact h'
      · refine absurd ?_ (hno v.point)
        have : v ∈ st.vertices := h3.mem_iff.1 (List.mem_of_getElem? hvi)
        exact List.mem_map.2 ⟨v, this, by rw [hid]⟩
  | none =>
    have hno := h9 rfl
    refine ⟨addNode st' n.id n.point, by simp, ⟨?_, ?_, ?_, ?_⟩, h4, h5, ?_⟩
    · simp only [addNode, List.map_append, List.map_cons, List.map_nil]
      rw [List.nodup_append]
      refine ⟨h2.nodup, by simp, ?_⟩
      intro a ha b hb
      simp only [List.mem_singleton] at hb
      subst hb
      rw [List.mem_map] at ha
      obtain ⟨v, hv', rfl⟩ := ha
      exact hno v (h3.mem_iff.1 hv')
    · intro hs
      simp only [addNode, Bool.or_eq_false_iff] at hs ⊢
      rw [List.pairwise_append]
      refine ⟨h6, by simp, ?_⟩
      intro a ha b hb
      simp only [List.mem_singleton] at hb
      subst hb
      -- the last one is not greater
      have hne : st'.vertices ≠ [] := List.ne_nil_of_mem ha
      have hlast := hs.2
      unfold outOfOrder at hlast
      rw [List.getLast?_eq_getLast_of_ne_nil hne] at hlast
      simp only [decide_eq_false_iff_not, Nat.not_lt] at hlast
      show a.id ≤ n.id
      have : a.id ≤ (st'.vertices.getLast hne).id := by
        have hsplit := List.dropLast_append_getLast hne
        rw [← hsplit] at h6 ha
        rcases List.mem_append.1 ha with ha | ha
        · exact (List.pairwise_append.1 h6).2.2 a ha _ (by simp)
        · simp only [List.mem_singleton] at ha
          rw [ha]
      omega
    · intro k id p
      simp only [addNode]
      rw [h2.index k id p]
      simp
    · exact h2.edges
    · intro id p
      simp only [addNode, plain, List.map_append, List.map_cons, List.map_nil, List.mem_append, List.mem_singleton, Prod.mk.injEq]
      rw [show ((id, p) ∈ List.map (fun v : Vertex P => (v.id, v.point)) st'.vertices ↔ _) from hmem id p]
      constructor
      · rintro (h' | h')
        · exact .inl h'
        · refine .inr ⟨hv, ?_, h'⟩
          intro q hq
          obtain ⟨v, hv', he⟩ := List.mem_map.1 hq
          simp only [Prod.mk.injEq] at he
          exact hno v hv' he.1
      · rintro (h' | ⟨_, _, h'⟩)
        · exact .inl h'
        · exact .inr h'

/-! ### Vertices of a way -/

theorem addVertex_spec {st : St P} (h : Inv st) {i : Nat} {v : Vertex P} (hv : st.vertices[i]? = some v) :
    Inv (addVertex st i) ∧ plain (addVertex st i).vertices = plain st.vertices ∧ (addVertex st i).edges = st.edges ∧
    (∃ new, (addVertex st i).verts = st.verts ++ new) ∧
    (∀ id, id ∈ (addVertex st i).verts.map Prod.fst ↔ id ∈ st.verts.map Prod.fst ∨ id = v.id) := by
  have hi := (List.getElem?_eq_some_iff.1 hv).1
  have hmem : v ∈ st.vertices := List.mem_of_getElem? hv
  unfold addVertex
  rw [hv]
  simp only
  cases hx : v.index with
  | some k =>
    simp only [Option.isSome_some, if_true]
    refine ⟨h, trivial, trivial, ⟨[], by simp⟩, ?_⟩
    intro id
    constructor
    · exact .inl
    · rintro (h' | rfl)
      · exact h'
      · have : st.verts[k]? = some (v.id, v.point) := (h.index k v.id v.point).2 (by rw [← hx]; exact hmem)
        exact List.mem_map.2 ⟨_, List.mem_of_getElem? this, rfl⟩
  | none =>
    simp only [Option.isSome_none, Bool.false_eq_true, if_false]
    have hget : ∀ j, (st.vertices.set i { v with index := some st.verts.length })[j]? =
        if i = j then some { v with index := some st.verts.length } else st.vertices[j]? := by
      intro j
      rw [List.getElem?_set]
      by_cases hij : i = j
      · subst hij
        simp [hi]
      · simp [hij]
    have hplain : plain (st.vertices.set i { v with index := some st.verts.length }) = plain st.vertices := by
      apply List.ext_getElem?
      intro j
      unfold plain
      rw [List.getElem?_map, List.getElem?_map, hget]
      by_cases hij : i = j
      · subst hij
        simp [hv]
      · simp [hij]
    have hids : (st.vertices.set i { v with index := some st.verts.length }).map Vertex.id = st.vertices.map Vertex.id := by
      have := congrArg (List.map Prod.fst) hplain
      simpa [plain, Function.comp_def] using this
    refine ⟨⟨by rw [hids]; exact h.nodup, ?_, ?_, ?_⟩, hplain, trivial, ⟨_, rfl⟩, ?_⟩
    · intro hs
      have hp := h.sorted hs
      have h1 : (st.vertices.map Vertex.id).Pairwise (· ≤ ·) := List.pairwise_map.2 hp
      rw [← hids] at h1
      have h2 := List.pairwise_map.1 h1
      exact h2
    · intro k id p
      simp only
      have hnew : (⟨id, p, some k⟩ : Vertex P) ∈ st.vertices.set i { v with index := some st.verts.length } ↔
          (⟨id, p, some k⟩ : Vertex P) ∈ st.vertices ∨ (id = v.id ∧ p = v.point ∧ k = st.verts.length) := by
        constructor
        · intro hm
          obtain ⟨j, hj⟩ := List.getElem?_of_mem hm
          rw [hget] at hj
          split at hj
          · simp only [Option.some.injEq, Vertex.mk.injEq] at hj
            exact .inr ⟨hj.1.symm, hj.2.1.symm, hj.2.2.symm⟩
          · exact .inl (List.mem_of_getElem? hj)
        · rintro (hm | ⟨rfl, rfl, rfl⟩)
          · obtain ⟨j, hj⟩ := List.getElem?_of_mem hm
            have hij : i ≠ j := by
              rintro rfl
              rw [hv] at hj
              simp only [Option.some.injEq] at hj
              rw [hj] at hx
              simp at hx
            exact List.mem_of_getElem? (i := j) (by rw [hget, if_neg hij, hj])
          · exact List.mem_of_getElem? (i := i) (by rw [hget, if_pos rfl])
      rw [hnew, ← h.index k id p]
      by_cases hk : k < st.verts.length
      · rw [List.getElem?_append_left hk]
        constructor
        · exact .inl
        · rintro (h' | ⟨_, _, h'⟩)
          · exact h'
          · omega
      · rw [List.getElem?_append_right (by omega), List.getElem?_eq_none (l := st.verts) (by omega)]
        by_cases hk' : k = st.verts.length
        · subst hk'
          simp [eq_comm]
        · rw [List.getElem?_eq_none (by simp; omega)]
          simp [hk']
    · intro e he
      have := h.edges e he
      simp only [List.length_append, List.length_singleton]
      omega
    · intro id
      simp

theorem plain_perm {vs ws : List (Vertex P)} (h : vs.Perm ws) (id : Nat) (p : P) : (id, p) ∈ plain vs ↔ (id, p) ∈ plain ws :=
  (h.map _).mem_iff

theorem addVertices_spec (rs : List Nat) : ∀ {st : St P}, Inv st → ∃ st', addVertices st rs = .ok st' ∧ Inv st' ∧
    (∀ id p, (id, p) ∈ plain st'.vertices ↔ (id, p) ∈ plain st.vertices) ∧ st'.edges = st.edges ∧
    (∃ new, st'.verts = st.verts ++ new) ∧
    (∀ id, id ∈ st'.verts.map Prod.fst ↔ id ∈ st.verts.map Prod.fst ∨ (id ∈ rs ∧ ∃ p, (id, p) ∈ plain st.vertices)) := by
  induction rs with
  | nil => intro st h; exact ⟨st, rfl, h, fun _ _ => .rfl, rfl, ⟨[], by simp⟩, by simp⟩
  | cons r rs ih =>
    intro st h
    obtain ⟨st1, o, h1, h2, h3, h4, h5, _, _, h8, h9⟩ := getNode_spec h r
    rw [addVertices, h1]
    simp only [Outcome.bind_ok]
    cases o with
    | none =>
      obtain ⟨st', g1, g2, g3, g4, ⟨new, g5⟩, g6⟩ := ih h2
      refine ⟨st', g1, g2, fun id p => (g3 id p).trans (plain_perm h3 id p), g4.trans h5, ⟨new, by rw [g5, h4]⟩, ?_⟩
      intro id
      rw [g6, h4]
      have hno := h9 rfl
      constructor
      · rintro (h' | ⟨h', p, hp⟩)
        · exact .inl h'
        · exact .inr ⟨List.mem_cons_of_mem _ h', p, (plain_perm h3 id p).1 hp⟩
      · rintro (h' | ⟨h', p, hp⟩)
        · exact .inl h'
        · rcases List.mem_cons.1 h' with rfl | h'
          · obtain ⟨v, hv, he⟩ := List.mem_map.1 hp
            simp only [Prod.mk.injEq] at he
            exact absurd he.1 (hno v hv)
          · exact .inr ⟨h', p, (plain_perm h3 id p).2 hp⟩
    | some i =>
      obtain ⟨v, hv, hid⟩ := h8 i rfl
      obtain ⟨a1, a2, a3, ⟨new1, a4⟩, a5⟩ := addVertex_spec h2 hv
      obtain ⟨st', g1, g2, g3, g4, ⟨new, g5⟩, g6⟩ := ih a1
      refine ⟨st', g1, g2, fun id p => (g3 id p).trans (by rw [a2]; exact plain_perm h3 id p), g4.trans (a3.trans h5),
        ⟨new1 ++ new, by rw [g5, a4, h4, List.append_assoc]⟩, ?_⟩
      intro id
      rw [g6, a5, h4, a2]
      have hvm : ∃ p, (v.id, p) ∈ plain st.vertices :=
        ⟨v.point, (plain_perm h3 _ _).1 (List.mem_map.2 ⟨v, List.mem_of_getElem? hv, rfl⟩)⟩
      constructor
      · rintro ((h' | rfl) | ⟨h', p, hp⟩)
        · exact .inl h'
        · exact .inr ⟨by rw [hid]; exact List.mem_cons_self .., hvm⟩
        · exact .inr ⟨List.mem_cons_of_mem _ h', p, (plain_perm h3 id p).1 hp⟩
      · rintro (h' | ⟨h', p, hp⟩)
        · exact .inl (.inl h')
        · rcases List.mem_cons.1 h' with rfl | h'
          · exact .inl (.inr hid.symm)
          · exact .inr ⟨h', p, (plain_perm h3 id p).2 hp⟩

/-! ### Edges of a way -/

/-- An edge with the vertices at its ends instead of their indices. -/
def named (verts : List (Nat × P)) (e : Edge P) : Option (Nat × P) × Option (Nat × P) × Nat × (P × P) :=
  (verts[e.src]?, verts[e.tgt]?, e.way, e.line)

/-- The edge between two nodes with their points. -/
def expect (way : Nat) (a b : Nat × P) : Option (Nat × P) × Option (Nat × P) × Nat × (P × P) := (some a, some b, way, (a.2, b.2))

/-- The edges between two nodes of which both are known. -/
def between (oneway reverse : Bool) (way : Nat) (a b : Nat × P) : List (Option (Nat × P) × Option (Nat × P) × Nat × (P × P)) :=
  if oneway then if reverse then [expect way b a] else [expect way a b] else [expect way a b, expect way b a]

/-- The edges of a way for consecutive nodes of which both are known. -/
def along (kn : Nat → Option P) (oneway reverse : Bool) (way : Nat) :
    List Nat → List (Option (Nat × P) × Option (Nat × P) × Nat × (P × P))
  | a :: b :: rs => (match kn a, kn b with
    | some p, some q => between oneway reverse way (a, p) (b, q)
    | _, _ => []) ++ along kn oneway reverse way (b :: rs)
  | _ => []

/-- What is known about the nodes. -/
def Knows (st : St P) (kn : Nat → Option P) : Prop := ∀ id p, (id, p) ∈ plain st.vertices ↔ kn id = some p

theorem graphEdge_spec {st : St P} (h : Inv st) {a b : Vertex P} (ha : a ∈ st.vertices) (hb : b ∈ st.vertices) {k l : Nat}
    (hk : a.index = some k) (hl : b.index = some l) (way : Nat) :
    ∃ st', graphEdge st way a b = some st' ∧ Inv st' ∧ st'.vertices = st.vertices ∧ st'.verts = st.verts ∧ st'.sort = st.sort ∧
      st'.edges.map (named st'.verts) = st.edges.map (named st.verts) ++ [expect way (a.id, a.point) (b.id, b.point)] := by
  have h1 : st.verts[k]? = some (a.id, a.point) := (h.index k a.id a.point).2 (by rw [← hk]; exact ha)
  have h2 : st.verts[l]? = some (b.id, b.point) := (h.index l b.id b.point).2 (by rw [← hl]; exact hb)
  have h1' := (List.getElem?_eq_some_iff.1 h1).1
  have h2' := (List.getElem?_eq_some_iff.1 h2).1
  unfold graphEdge
  rw [hk, hl]
  simp only [Option.getD_some]
  rw [if_pos ⟨h1', h2'⟩]
  refine ⟨_, rfl, ⟨h.nodup, h.sorted, h.index, ?_⟩, rfl, rfl, rfl, ?_⟩
  · intro e he
    rcases List.mem_append.1 he with he | he
    · exact h.edges e he
    · simp only [List.mem_singleton] at he
      subst he
      exact ⟨h1', h2'⟩
  · simp [named, expect, h1, h2]

theorem addEdge_spec {st : St P} (h : Inv st) {a b : Vertex P} (ha : a ∈ st.vertices) (hb : b ∈ st.vertices) {k l : Nat}
    (hk : a.index = some k) (hl : b.index = some l) (way : Nat) (oneway reverse : Bool) :
    Inv (addEdge st oneway reverse way a b) ∧ (addEdge st oneway reverse way a b).vertices = st.vertices ∧
      (addEdge st oneway reverse way a b).verts = st.verts ∧
      (addEdge st oneway reverse way a b).edges.map (named st.verts) =
        st.edges.map (named st.verts) ++ between oneway reverse way (a.id, a.point) (b.id, b.point) := by
  obtain ⟨s1, e1, i1, v1, w1, _, m1⟩ := graphEdge_spec h ha hb hk hl way
  obtain ⟨s2, e2, i2, v2, w2, _, m2⟩ := graphEdge_spec h hb ha hl hk way
  unfold addEdge between
  cases oneway with
  | true =>
    cases reverse with
    | true => simp only [if_true, e2, Option.getD_some]; exact ⟨i2, v2, w2, by rw [← w2, m2, w2]⟩
    | false => simp only [Bool.false_eq_true, if_false, if_true, e1, Option.getD_some]; exact ⟨i1, v1, w1, by rw [← w1, m1, w1]⟩
  | false =>
    simp only [Bool.false_eq_true, if_false, e1]
    obtain ⟨s3, e3, i3, v3, w3, _, m3⟩ := graphEdge_spec i1 (a := b) (b := a) (by rw [v1]; exact hb) (by rw [v1]; exact ha) hl hk way
    simp only [e3, Option.getD_some]
    refine ⟨i3, v3.trans v1, w3.trans w1, ?_⟩
    rw [← w1, ← w3, m3, m1, w3, w1]
    simp

theorem addEdges_spec (f : Filters) (w : Way) (kn : Nat → Option P) (rs : List Nat) : ∀ {st : St P}, Inv st → Knows st kn →
    (∀ id p, id ∈ rs → kn id = some p → id ∈ st.verts.map Prod.fst) → rs ≠ [] →
    ∃ st', addEdges f w st rs = .ok st' ∧ Inv st' ∧ Knows st' kn ∧ st'.verts = st.verts ∧
      st'.edges.map (named st.verts) = st.edges.map (named st.verts) ++
        along kn (detectOneway f w.tags).1 (detectOneway f w.tags).2 w.id rs := by
  induction rs with
  | nil => intro st _ _ _ hne; exact absurd rfl hne
  | cons a rs ih =>
    cases rs with
    | nil => intro st h hkn _ _; exact ⟨st, rfl, h, hkn, rfl, by simp [along]⟩
    | cons b rs =>
      intro st h hkn hall _
      obtain ⟨st1, o, h1, h2, h3, h4, h5, h6, h7, h8, h9⟩ := getNode_spec h a
      obtain ⟨o2, k1, k2, k3⟩ := getNode_again h7 h6 b
      rw [addEdges, h1]
      simp only [Outcome.bind_ok]
      rw [k1]
      simp only [Outcome.bind_ok]
      have hkn1 : Knows st1 kn := fun id p => (plain_perm h3 id p).trans (hkn id p)
      -- the edges between the two
      have key : Inv (pairEdge f w st1 o o2) ∧ (pairEdge f w st1 o o2).vertices = st1.vertices ∧
          (pairEdge f w st1 o o2).verts = st1.verts ∧
          (pairEdge f w st1 o o2).edges.map (named st1.verts) = st1.edges.map (named st1.verts) ++
            (match kn a, kn b with
            | some p, some q => between (detectOneway f w.tags).1 (detectOneway f w.tags).2 w.id (a, p) (b, q)
            | _, _ => []) := by
        have hnone : ∀ {id : Nat}, (∀ v ∈ st1.vertices, v.id ≠ id) → kn id = none := by
          intro id hno
          cases hk : kn id with
          | none => rfl
          | some p =>
            obtain ⟨v, hv, he⟩ := List.mem_map.1 ((hkn1 id p).2 hk)
            simp only [Prod.mk.injEq] at he
            exact absurd he.1 (hno v hv)
        cases o with
        | none =>
          have : kn a = none := hnone (fun v hv => h9 rfl v (h3.mem_iff.1 hv))
          simp only [pairEdge, this, List.append_nil]
          exact ⟨h2, trivial, trivial, trivial⟩
        | some i =>
          cases o2 with
          | none =>
            have : kn b = none := hnone (k3 rfl)
            simp only [pairEdge, this]
            refine ⟨h2, trivial, trivial, ?_⟩
            cases kn a <;> simp
          | some j =>
            obtain ⟨va, hva, hida⟩ := h8 i rfl
            obtain ⟨vb, hvb, hidb⟩ := k2 j rfl
            have hma := List.mem_of_getElem? hva
            have hmb := List.mem_of_getElem? hvb
            have hka : kn a = some va.point := (hkn1 a va.point).1 (List.mem_map.2 ⟨va, hma, by rw [hida]⟩)
            have hkb : kn b = some vb.point := (hkn1 b vb.point).1 (List.mem_map.2 ⟨vb, hmb, by rw [hidb]⟩)
            have hidx : ∀ {v : Vertex P} {id : Nat}, v ∈ st1.vertices → v.id = id → id ∈ st.verts.map Prod.fst → ∃ k, v.index = some k := by
              intro v id hv hvid hmem
              rw [← h4] at hmem
              obtain ⟨⟨id', p'⟩, hp, rfl⟩ := List.mem_map.1 hmem
              obtain ⟨k, hk⟩ := List.getElem?_of_mem hp
              have := h2.unique hv ((h2.index k id' p').1 hk) hvid
              exact ⟨k, by rw [this]⟩
            obtain ⟨k, hk⟩ := hidx hma hida (hall a _ (List.mem_cons_self ..) hka)
            obtain ⟨l, hl⟩ := hidx hmb hidb (hall b _ (by simp) hkb)
            simp only [pairEdge, hva, hvb, hka, hkb]
            have := addEdge_spec h2 hma hmb hk hl w.id (detectOneway f w.tags).1 (detectOneway f w.tags).2
            rw [hida, hidb] at this
            exact this
      obtain ⟨p1, p2, p3, p4⟩ := key
      obtain ⟨st', g1, g2, g3, g4, g5⟩ := ih p1 (by intro id p; rw [p2]; exact hkn1 id p)
        (by intro id p hid hk; rw [p3, h4]; exact hall id p (List.mem_cons_of_mem _ hid) hk) (by simp)
      refine ⟨st', g1, g2, g3, g4.trans (p3.trans h4), ?_⟩
      rw [p3] at g5
      rw [← h4, g5, p4, along, List.append_assoc, h5]

/-! ### Whole files -/

/-- The point of the first visible node with an identifier. -/
def firstPoint : List (Element P) → Nat → Option P
  | [], _ => none
  | .node n :: es, id => if n.visible = true ∧ n.id = id then some n.point else firstPoint es id
  | .way _ :: es, id => firstPoint es id

/-- The way is used. -/
def used (f : Filters) (w : Way) : Bool := w.visible && keep f w.tags

theorem firstPoint_node (es : List (Element P)) (n : Node P) (id : Nat) : firstPoint (es ++ [.node n]) id =
    (firstPoint es id).or (if n.visible = true ∧ n.id = id then some n.point else none) := by
  induction es with
  | nil => simp [firstPoint]
  | cons e es ih =>
    cases e with
    | node m =>
      simp only [List.cons_append, firstPoint]
      rw [ih]
      split <;> simp
    | way w => simpa only [List.cons_append, firstPoint] using ih

theorem firstPoint_way (es : List (Element P)) (w : Way) (id : Nat) : firstPoint (es ++ [.way w]) id = firstPoint es id := by
  induction es with
  | nil => simp [firstPoint]
  | cons e es ih =>
    cases e with
    | node m => simp only [List.cons_append, firstPoint]; rw [ih]
    | way w' => simpa only [List.cons_append, firstPoint] using ih

theorem run_snoc (f : Filters) (es : List (Element P)) (e : Element P) : ∀ st, run f st (es ++ [e]) = (run f st es).bind (fun s => element f s e) := by
  induction es with
  | nil =>
    intro st
    simp only [List.nil_append, run, Outcome.bind_ok]
    cases element f st e <;> rfl
  | cons x es ih =>
    intro st
    simp only [List.cons_append, run]
    cases element f st x with
    | ok s => simpa using ih s
    | throws => rfl
    | ub => rfl

/-- No used way is empty. -/
def NoEmpty (f : Filters) (es : List (Element P)) : Prop := ∀ w, .way w ∈ es → used f w = true → w.refs ≠ []

/-- The edges that the ways have to give, in order; `pre` came before. -/
def expected (f : Filters) (pre : List (Element P)) : List (Element P) → List (Option (Nat × P) × Option (Nat × P) × Nat × (P × P))
  | [] => []
  | .node n :: es => expected f (pre ++ [.node n]) es
  | .way w :: es => (if used f w = true then along (firstPoint pre) (detectOneway f w.tags).1 (detectOneway f w.tags).2 w.id w.refs
      else []) ++ expected f (pre ++ [.way w]) es

theorem named_append {verts new : List (Nat × P)} {es : List (Edge P)} (h : ∀ e ∈ es, e.src < verts.length ∧ e.tgt < verts.length) :
    es.map (named (verts ++ new)) = es.map (named verts) := by
  apply List.map_congr_left
  intro e he
  obtain ⟨h1, h2⟩ := h e he
  simp [named, List.getElem?_append_left h1, List.getElem?_append_left h2]

theorem element_spec (f : Filters) (pre : List (Element P)) (e : Element P) {st : St P} (h : Inv st) (hkn : Knows st (firstPoint pre))
    (hne : NoEmpty f [e]) : ∃ st', element f st e = .ok st' ∧ Inv st' ∧ Knows st' (firstPoint (pre ++ [e])) ∧
      st'.edges.map (named st'.verts) = st.edges.map (named st.verts) ++ expected f pre [e] ∧
      (∃ new, st'.verts = st.verts ++ new) ∧
      (∀ id, id ∈ st'.verts.map Prod.fst ↔ id ∈ st.verts.map Prod.fst ∨
        ∃ w, e = .way w ∧ used f w = true ∧ id ∈ w.refs ∧ firstPoint pre id ≠ none) := by
  cases e with
  | node n =>
    obtain ⟨st', h1, h2, h3, h4, h5⟩ := node_spec h n
    refine ⟨st', h1, h2, ?_, by simp [h3, h4, expected], ⟨[], by simp [h3]⟩, by simp [h3]⟩
    intro id p
    rw [h5, firstPoint_node, hkn id p]
    constructor
    · rintro (h' | ⟨hv, hno, rfl, rfl⟩)
      · simp [h']
      · have : firstPoint pre n.id = none := by
          cases hk : firstPoint pre n.id with
          | none => rfl
          | some q => exact absurd ((hkn n.id q).2 hk) (hno q)
        simp [this, hv]
    · intro h'
      cases hk : firstPoint pre id with
      | some q => rw [hk] at h'; exact .inl (by simpa using h')
      | none =>
        rw [hk] at h'
        simp only [Option.none_or] at h'
        split at h'
        · next hc =>
          simp only [Option.some.injEq] at h'
          refine .inr ⟨hc.1, ?_, hc.2.symm, h'.symm⟩
          intro q hq
          have := (hkn n.id q).1 hq
          rw [hc.2, hk] at this
          simp at this
        · simp at h'
  | way w =>
    simp only [element, way, expected, List.append_nil]
    have hu : (w.visible && keep f w.tags) = used f w := rfl
    rw [hu]
    by_cases hus : used f w = true
    swap
    · rw [if_neg hus, if_neg hus]
      refine ⟨st, rfl, h, ?_, by simp, ⟨[], by simp⟩, ?_⟩
      · intro id p
        rw [firstPoint_way]
        exact hkn id p
      · intro id
        constructor
        · exact .inl
        · rintro (h' | ⟨w', he, h', _⟩)
          · exact h'
          · cases he
            exact absurd h' hus
    rw [if_pos hus, if_pos hus]
    obtain ⟨st1, g1, g2, g3, g4, ⟨new, g5⟩, g6⟩ := addVertices_spec w.refs h
    rw [g1]
    simp only [Outcome.bind_ok]
    have hkn1 : Knows st1 (firstPoint pre) := fun id p => (g3 id p).trans (hkn id p)
    obtain ⟨st', k1, k2, k3, k4, k5⟩ := addEdges_spec f w (firstPoint pre) w.refs g2 hkn1
      (by intro id p hid hk; rw [g6]; exact .inr ⟨hid, p, (hkn id p).2 hk⟩) (hne w (by simp) hus)
    refine ⟨st', k1, k2, ?_, ?_, ⟨new, by rw [k4, g5]⟩, ?_⟩
    · intro id p
      rw [firstPoint_way]
      exact k3 id p
    · rw [k4, k5, g4, g5, named_append h.edges]
    · intro id
      rw [k4, g6]
      constructor
      · rintro (h' | ⟨h', p, hp⟩)
        · exact .inl h'
        · exact .inr ⟨w, rfl, hus, h', by rw [(hkn id p).1 hp]; simp⟩
      · rintro (h' | ⟨w', he, _, h', hk⟩)
        · exact .inl h'
        · cases he
          obtain ⟨p, hp⟩ := Option.ne_none_iff_exists'.1 hk
          exact .inr ⟨h', p, (hkn id p).2 hp⟩

theorem run_spec (f : Filters) (es : List (Element P)) : ∀ (pre : List (Element P)) {st : St P}, Inv st → Knows st (firstPoint pre) →
    NoEmpty f es → ∃ st', run f st es = .ok st' ∧ Inv st' ∧ Knows st' (firstPoint (pre ++ es)) ∧
      st'.edges.map (named st'.verts) = st.edges.map (named st.verts) ++ expected f pre es ∧
      (∀ id, id ∈ st'.verts.map Prod.fst ↔ id ∈ st.verts.map Prod.fst ∨
        ∃ before w after, es = before ++ .way w :: after ∧ used f w = true ∧ id ∈ w.refs ∧ firstPoint (pre ++ before) id ≠ none) := by
  induction es with
  | nil => intro pre st h hkn _; exact ⟨st, rfl, h, by simpa using hkn, by simp [expected], by simp⟩
  | cons e es ih =>
    intro pre st h hkn hne
    obtain ⟨st1, h1, h2, h3, h4, ⟨new, h5⟩, h6⟩ := element_spec f pre e h hkn
      (by intro w hw hu; simp only [List.mem_singleton] at hw; exact hne w (by rw [hw]; exact List.mem_cons_self ..) hu)
    obtain ⟨st', g1, g2, g3, g4, g5⟩ := ih (pre ++ [e]) h2 h3 (fun w hw => hne w (List.mem_cons_of_mem _ hw))
    refine ⟨st', by rw [run, h1]; exact g1, g2, by simpa using g3, ?_, ?_⟩
    · rw [g4, h4, List.append_assoc]
      congr 1
      cases e <;> simp [expected]
    · intro id
      rw [g5, h6]
      constructor
      · rintro ((h' | ⟨w, rfl, hu, hr, hk⟩) | ⟨b, w, a, rfl, hu, hr, hk⟩)
        · exact .inl h'
        · exact .inr ⟨[], w, es, rfl, hu, hr, by simpa using hk⟩
        · exact .inr ⟨e :: b, w, a, rfl, hu, hr, by simpa using hk⟩
      · rintro (h' | ⟨b, w, a, he, hu, hr, hk⟩)
        · exact .inl (.inl h')
        · cases b with
          | nil =>
            simp only [List.nil_append, List.cons.injEq] at he
            exact .inl (.inr ⟨w, he.1, hu, hr, by simpa using hk⟩)
          | cons x b =>
            simp only [List.cons_append, List.cons.injEq] at he
            obtain ⟨rfl, rfl⟩ := he
            exact .inr ⟨b, w, a, rfl, hu, hr, by simpa using hk⟩

/-- **C39**, lookups: after any sequence of nodes and ways, whatever the order of the identifiers, looking up a node succeeds exactly
when a visible node with this identifier came, and gives the point of the first one.  Missing from the full property: used ways
without nodes (`empty_way_fails`). -/
theorem lookup_partial (f : Filters) (es : List (Element P)) (hne : NoEmpty f es) (id : Nat) :
    ∃ st st' o, run f St.empty es = .ok st ∧ getNode st id = .ok (st', o) ∧
      (o.bind (fun i => st'.vertices[i]?)).map (fun v => (v.id, v.point)) = (firstPoint es id).map (fun p => (id, p)) := by
  obtain ⟨st, h1, h2, h3, _, _⟩ := run_spec f es [] inv_empty (by intro id p; simp [St.empty, plain, firstPoint]) hne
  obtain ⟨st', o, g1, g2, g3, _, _, _, _, g8, g9⟩ := getNode_spec h2 id
  refine ⟨st, st', o, h1, g1, ?_⟩
  simp only [List.nil_append] at h3
  cases o with
  | none =>
    have : firstPoint es id = none := by
      cases hk : firstPoint es id with
      | none => rfl
      | some p =>
        obtain ⟨v, hv, he⟩ := List.mem_map.1 ((h3 id p).2 hk)
        simp only [Prod.mk.injEq] at he
        exact absurd he.1 (g9 rfl v hv)
    simp [this]
  | some i =>
    obtain ⟨v, hv, hid⟩ := g8 i rfl
    have : firstPoint es id = some v.point :=
      (h3 id v.point).1 ((plain_perm g3 _ _).1 (List.mem_map.2 ⟨v, List.mem_of_getElem? hv, by rw [hid]⟩))
    simp [this, hv, hid]

/-- **C39**, vertices: each node that a used way refers to after it came is one vertex of the graph, with its point; there are no
other vertices.  Missing as above. -/
theorem vertices_partial (f : Filters) (es : List (Element P)) (hne : NoEmpty f es) : ∃ st, run f St.empty es = .ok st ∧
    (st.verts.map Prod.fst).Nodup ∧ (∀ id p, (id, p) ∈ st.verts → firstPoint es id = some p) ∧
    (∀ id, id ∈ st.verts.map Prod.fst ↔
      ∃ before w after, es = before ++ .way w :: after ∧ used f w = true ∧ id ∈ w.refs ∧ firstPoint before id ≠ none) := by
  obtain ⟨st, h1, h2, h3, _, h5⟩ := run_spec f es [] inv_empty (by intro id p; simp [St.empty, plain, firstPoint]) hne
  simp only [List.nil_append] at h3 h5
  refine ⟨st, h1, ?_, ?_, fun id => by rw [h5]; simp [St.empty]⟩
  · rw [List.nodup_iff_injective_getElem]
    intro ⟨i, hi⟩ ⟨j, hj⟩ he
    simp only [List.getElem_map] at he
    simp only [List.length_map] at hi hj
    have hi' : st.verts[i]? = some (st.verts[i].1, st.verts[i].2) := by rw [List.getElem?_eq_getElem hi]
    have hj' : st.verts[j]? = some (st.verts[j].1, st.verts[j].2) := by rw [List.getElem?_eq_getElem hj]
    have := h2.unique ((h2.index _ _ _).1 hi') ((h2.index _ _ _).1 hj') he
    simp only [Vertex.mk.injEq, Option.some.injEq] at this
    exact Fin.ext this.2.2
  · intro id p hp
    obtain ⟨k, hk⟩ := List.getElem?_of_mem hp
    have := (h2.index k id p).1 hk
    exact (h3 id p).1 (List.mem_map.2 ⟨_, this, rfl⟩)

/-- The edges of the graph, with any filters: exactly those of the used ways. -/
theorem edges_exact (f : Filters) (es : List (Element P)) (hne : NoEmpty f es) : ∃ st, run f St.empty es = .ok st ∧
    st.edges.map (named st.verts) = expected f [] es := by
  obtain ⟨st, h1, _, _, h4, _⟩ := run_spec f es [] inv_empty (by intro id p; simp [St.empty, plain, firstPoint]) hne
  exact ⟨st, h1, by simpa [St.empty] using h4⟩

/-! ### C40: directions by the tags -/

/-- The way is a road. -/
def isRoad (w : Way) : Prop := w.visible = true ∧ ∃ v, ("highway", v) ∈ w.tags

/-- Tagged as one-way. -/
def taggedOneway (w : Way) : Prop := ("oneway", "yes") ∈ w.tags ∨ ("oneway", "true") ∈ w.tags ∨ ("oneway", "1") ∈ w.tags ∨
  ("junction", "roundabout") ∈ w.tags ∨ ("highway", "motorway") ∈ w.tags

/-- Tagged as one-way against the order of its nodes. -/
def taggedReverse (w : Way) : Prop := ("oneway", "-1") ∈ w.tags ∨ ("oneway", "reverse") ∈ w.tags

theorem used_defaults (w : Way) : used defaults w = true ↔ isRoad w := by
  unfold used isRoad keep
  simp only [Bool.and_eq_true]
  refine and_congr_right fun _ => ?_
  have hall : w.tags.all defaults.filter.test = true := by simp [defaults, Filter.test]
  rw [hall]
  constructor
  · intro h
    split at h
    · next ha =>
      rw [List.any_eq_true] at ha
      obtain ⟨⟨k, v⟩, ht, hq⟩ := ha
      refine ⟨v, ?_⟩
      by_cases hk : k = "highway"
      · rw [← hk]; exact ht
      · simp [defaults, Filter.test, Rule.applies, Ne.symm hk] at hq
    · simp at h
  · rintro ⟨v, hv⟩
    rw [if_pos]
    rw [List.any_eq_true]
    exact ⟨_, hv, by simp [defaults, Filter.test, Rule.applies]⟩

theorem test_any {rules : List Rule} (h : ∀ r ∈ rules, r.result = true) (tag : String × String) :
    (⟨false, rules⟩ : Filter).test tag = rules.any (fun r => r.applies tag) := by
  unfold Filter.test
  cases hf : rules.find? (fun r => r.applies tag) with
  | none =>
    rw [List.find?_eq_none] at hf
    symm
    simpa using hf
  | some r =>
    have h1 := List.mem_of_find?_eq_some hf
    have h2 := List.find?_some hf
    simp only [h r h1]
    symm
    rw [List.any_eq_true]
    exact ⟨r, h1, h2⟩

theorem oneway_test (tag : String × String) : defaults.oneway.test tag = true ↔ tag = ("oneway", "yes") ∨ tag = ("oneway", "true") ∨
    tag = ("oneway", "1") ∨ tag = ("junction", "roundabout") ∨ tag = ("highway", "motorway") := by
  obtain ⟨k, v⟩ := tag
  simp only [defaults]
  rw [test_any (by simp)]
  simp only [Rule.applies, List.any_cons, List.any_nil, Bool.or_eq_true, Bool.and_eq_true, decide_eq_true_eq, Prod.mk.injEq,
    Bool.or_false, Bool.false_eq_true, or_false, eq_comm (a := k), eq_comm (a := v)]

theorem reverse_test (tag : String × String) : defaults.reverse.test tag = true ↔ tag = ("oneway", "-1") ∨ tag = ("oneway", "reverse") := by
  obtain ⟨k, v⟩ := tag
  simp only [defaults]
  rw [test_any (by simp)]
  simp only [Rule.applies, List.any_cons, List.any_nil, Bool.or_eq_true, Bool.and_eq_true, decide_eq_true_eq, Prod.mk.injEq,
    Bool.or_false, Bool.false_eq_true, or_false, eq_comm (a := k), eq_comm (a := v)]

theorem detect_oneway (w : Way) : (detectOneway defaults w.tags).1 = true ↔ taggedOneway w := by
  unfold detectOneway taggedOneway
  simp only [List.any_eq_true, oneway_test]
  grind

theorem detect_reverse (w : Way) : (detectOneway defaults w.tags).2 = true ↔ taggedReverse w := by
  unfold detectOneway taggedReverse
  simp only [List.any_eq_true, reverse_test]
  grind

open Classical in
/-- The edges between two nodes by the tags of the way. -/
noncomputable def permitted (w : Way) (a b : Nat × P) : List (Option (Nat × P) × Option (Nat × P) × Nat × (P × P)) :=
  if taggedReverse w then [expect w.id b a]
  else if taggedOneway w then [expect w.id a b]
  else [expect w.id a b, expect w.id b a]

/-- The permitted edges between consecutive nodes of which both are known. -/
noncomputable def permittedAlong (kn : Nat → Option P) (w : Way) : List Nat → List (Option (Nat × P) × Option (Nat × P) × Nat × (P × P))
  | a :: b :: rs => (match kn a, kn b with
    | some p, some q => permitted w (a, p) (b, q)
    | _, _ => []) ++ permittedAlong kn w (b :: rs)
  | _ => []

open Classical in
/-- The permitted edges of all roads; `pre` came before. -/
noncomputable def permittedEdges (pre : List (Element P)) : List (Element P) → List (Option (Nat × P) × Option (Nat × P) × Nat × (P × P))
  | [] => []
  | .node n :: es => permittedEdges (pre ++ [.node n]) es
  | .way w :: es => (if isRoad w then permittedAlong (firstPoint pre) w w.refs else []) ++ permittedEdges (pre ++ [.way w]) es

/-- **C40.**  The graph has exactly the permitted edges of the roads.  Missing from the full property: ways that are only tagged as
reverse one-way (`reverse_fails`) and empty ways (`empty_way_fails`). -/
theorem oneway_partial (es : List (Element P)) (hne : ∀ w, .way w ∈ es → isRoad w → w.refs ≠ [])
    (hrev : ∀ w, .way w ∈ es → isRoad w → taggedReverse w → taggedOneway w) : ∃ st, run defaults St.empty es = .ok st ∧
    st.edges.map (named st.verts) = permittedEdges [] es := by
  obtain ⟨st, h1, h2⟩ := edges_exact defaults es (fun w hw hu => hne w hw ((used_defaults w).1 hu))
  refine ⟨st, h1, h2.trans ?_⟩
  clear h1 h2 hne
  generalize ([] : List (Element P)) = pre
  induction es generalizing pre with
  | nil => rfl
  | cons e es ih =>
    have hih := ih (fun w hw => hrev w (List.mem_cons_of_mem _ hw))
    cases e with
    | node n => exact hih _
    | way w =>
      simp only [expected, permittedEdges, hih]
      congr 1
      by_cases hu : isRoad w
      swap
      · rw [if_neg hu, if_neg (fun h => hu ((used_defaults w).1 h))]
      rw [if_pos hu, if_pos ((used_defaults w).2 hu)]
      have hb : ∀ a b : Nat × P, between (detectOneway defaults w.tags).1 (detectOneway defaults w.tags).2 w.id a b = permitted w a b := by
        intro a b
        unfold between permitted
        have h1 := detect_oneway w
        have h2 := detect_reverse w
        have h3 := hrev w (List.mem_cons_self ..) hu
        by_cases ho : taggedOneway w <;> by_cases hr : taggedReverse w
        · rw [if_pos (h1.2 ho), if_pos (h2.2 hr), if_pos hr]
        · rw [if_pos (h1.2 ho), if_neg (fun h => hr (h2.1 h)), if_neg hr, if_pos ho]
        · exact absurd (h3 hr) ho
        · rw [if_neg (fun h => ho (h1.1 h)), if_neg hr, if_neg ho]
      have : ∀ rs, along (firstPoint pre) (detectOneway defaults w.tags).1 (detectOneway defaults w.tags).2 w.id rs =
          permittedAlong (firstPoint pre) w rs := by
        intro rs
        induction rs with
        | nil => rfl
        | cons a rs ih2 =>
          cases rs with
          | nil => rfl
          | cons b rs =>
            simp only [along, permittedAlong, ih2, hb]
      exact this w.refs

/-! ### Cases -/

/-- Nodes 5, 3, 3 (moved), 9 and two ways; node 4 is unknown. -/
def demo : List (Element (Nat × Nat)) :=
  [.node ⟨5, true, (5, 5)⟩, .node ⟨3, true, (3, 3)⟩, .node ⟨3, true, (0, 0)⟩, .node ⟨9, true, (9, 9)⟩, .node ⟨1, false, (1, 1)⟩,
    .way ⟨100, true, [3, 9, 4, 5, 3], [("highway", "primary"), ("oneway", "yes")]⟩,
    .way ⟨101, true, [9, 5], [("highway", "primary")]⟩, .way ⟨102, true, [], [("building", "yes")]⟩]

example : run defaults St.empty demo = .ok ⟨[⟨3, (3, 3), some 0⟩, ⟨5, (5, 5), some 2⟩, ⟨9, (9, 9), some 1⟩], false,
    [(3, (3, 3)), (9, (9, 9)), (5, (5, 5))],
    [⟨0, 1, 100, ((3, 3), (9, 9))⟩, ⟨2, 0, 100, ((5, 5), (3, 3))⟩, ⟨1, 2, 101, ((9, 9), (5, 5))⟩, ⟨2, 1, 101, ((5, 5), (9, 9))⟩]⟩ := by
  decide

example : (∀ w, .way w ∈ demo → isRoad w → w.refs ≠ []) ∧ (∀ w, .way w ∈ demo → isRoad w → taggedReverse w → taggedOneway w) := by
  unfold demo isRoad taggedReverse taggedOneway
  simp

/-- **C40 fails**: a way tagged `oneway=-1` yields edges in both directions. -/
theorem reverse_fails : run defaults St.empty [.node ⟨1, true, 10⟩, .node ⟨2, true, 20⟩,
      .way ⟨100, true, [1, 2], [("highway", "primary"), ("oneway", "-1")]⟩] =
    .ok ⟨[⟨1, 10, some 0⟩, ⟨2, 20, some 1⟩], false, [(1, 10), (2, 20)], [⟨0, 1, 100, (10, 20)⟩, ⟨1, 0, 100, (20, 10)⟩]⟩ := by decide

/-- **C39, C40 fail**: a used way without nodes is undefined behaviour. -/
theorem empty_way_fails : run defaults (St.empty : St Nat) [.way ⟨100, true, [], [("highway", "primary")]⟩] = .ub := by decide

end MM.Osm
