import Verif.Spec.Graph
import Mathlib.Tactic.SplitIfs

/-! # Representation invariant of the adjacency list (helper lemmas for C06–C09) -/

set_option autoImplicit false
set_option linter.unusedSectionVars false

namespace MM.AdjList

variable {α β : Type} {d : Dir} {g : Graph α β}

/-- Edge `e` has to be listed among the out edges of `v`. -/
def outInc (d : Dir) (v : Nat) (e : Edge β) : Bool := (e.src == v) || (d.isUndirected && e.tgt == v)

/-- Representation invariant: the incidence lists are functions of the stored edges, in insertion order. -/
structure Inv (d : Dir) (g : Graph α β) : Prop where
  vlt : ∀ v ∈ g.verts, v.id < g.next
  elt : ∀ e ∈ g.edges, e.id < g.next
  vnodup : (g.verts.map Vert.id).Nodup
  enodup : (g.edges.map Edge.id).Nodup
  ends : ∀ e ∈ g.edges, g.hasV e.src = true ∧ g.hasV e.tgt = true
  out : ∀ v, g.out v = (g.edges.filter (outInc d v)).map Edge.id
  inn : ∀ v, g.inn v = if d.isBidirectional then (g.edges.filter (fun e => e.tgt == v)).map Edge.id else []

theorem hasV_iff {v : Nat} : g.hasV v = true ↔ ∃ x ∈ g.verts, x.id = v := by
  simp [Graph.hasV]

theorem id_inj (h : (g.edges.map Edge.id).Nodup) {a b : Edge β} (ha : a ∈ g.edges) (hb : b ∈ g.edges)
    (hab : a.id = b.id) : a = b := by
  exact List.inj_on_of_nodup_map h ha hb hab

theorem getE_eq (h : Inv d g) {e : Edge β} (he : e ∈ g.edges) : g.getE e.id = some e := by
  unfold Graph.getE
  cases hf : g.edges.find? (fun x => x.id == e.id) with
  | none =>
    have := List.find?_eq_none.1 hf e he
    simp at this
  | some x =>
    have h1 := List.mem_of_find?_eq_some hf
    have h2 := List.find?_some hf
    rw [id_inj h.enodup h1 he (by simpa using h2)]

theorem getE_some {i : Nat} {e : Edge β} (hi : g.getE i = some e) : e ∈ g.edges ∧ e.id = i := by
  unfold Graph.getE at hi
  exact ⟨List.mem_of_find?_eq_some hi, by simpa using List.find?_some hi⟩

theorem mapM_getE (h : Inv d g) (l : List (Edge β)) (hl : ∀ e ∈ l, e ∈ g.edges) :
    (l.map Edge.id).mapM g.getE = some l := by
  induction l with
  | nil => rfl
  | cons e l ih =>
    have h1 := getE_eq h (hl e (by simp))
    have h2 := ih (fun x hx => hl x (by simp [hx]))
    simp [List.mapM_cons, h1, h2]

theorem mapM_out (h : Inv d g) (v : Nat) : (g.out v).mapM g.getE = some (g.edges.filter (outInc d v)) := by
  rw [h.out]
  exact mapM_getE h _ (fun e he => List.mem_of_mem_filter he)

theorem inv_empty : Inv d (empty : Graph α β) := by
  constructor <;> simp [empty]

theorem coherent_of_inv (h : Inv d g) : Coherent d g := by
  have hcount : ∀ (p : Edge β → Bool) (e : Edge β), e ∈ g.edges → p e = true →
      ((g.edges.filter p).map Edge.id).count e.id = 1 := by
    intro p e he hp
    have hsub : ((g.edges.filter p).map Edge.id).Nodup :=
      h.enodup.sublist (List.Sublist.map _ List.filter_sublist)
    exact List.count_eq_one_of_mem hsub (List.mem_map.2 ⟨e, List.mem_filter.2 ⟨he, hp⟩, rfl⟩)
  constructor
  · exact h.vnodup
  · exact h.enodup
  · intro e he
    obtain ⟨h1, h2⟩ := h.ends e he
    exact ⟨hasV_iff.1 h1, hasV_iff.1 h2⟩
  · intro e he
    rw [h.out]
    exact hcount _ e he (by simp [outInc])
  · intro hu e he
    rw [h.out]
    exact hcount _ e he (by simp [outInc, hu])
  · intro hb e he
    rw [h.inn, if_pos hb]
    exact hcount _ e he (by simp)
  · intro v i hi
    rw [h.out] at hi
    obtain ⟨e, he, rfl⟩ := List.mem_map.1 hi
    obtain ⟨he, hp⟩ := List.mem_filter.1 he
    exact ⟨e, he, rfl, by simpa [outInc] using hp⟩
  · intro v i hi
    rw [h.inn] at hi
    split at hi
    · rename_i hb
      obtain ⟨e, he, rfl⟩ := List.mem_map.1 hi
      obtain ⟨he, hp⟩ := List.mem_filter.1 he
      exact ⟨e, he, rfl, by simpa using hp, hb⟩
    · cases hi

/-! ### Insertions -/

theorem tryAdd_cases {γ : Type} (f : Fault) (c : List γ) (x : γ) :
    tryAdd f c x = (c ++ [x], false) ∨ tryAdd f c x = (c, true) := by
  cases f <;> simp [tryAdd]

theorem addVertex_cases (f : Fault) (a : α) :
    addVertex f g a = ⟨true, g⟩ ∨
    addVertex f g a = ⟨false, { g with verts := g.verts ++ [⟨g.next, g.verts.length, a⟩], next := g.next + 1 }⟩ := by
  unfold addVertex
  rcases tryAdd_cases f g.verts ⟨g.next, g.verts.length, a⟩ with h | h <;> rw [h] <;> simp

theorem inv_addVertex (h : Inv d g) (f : Fault) (a : α) : Inv d (addVertex f g a).graph := by
  rcases addVertex_cases (g := g) f a with hc | hc <;> rw [hc]
  · exact h
  · constructor
    · intro v hv
      rcases List.mem_append.1 hv with hv | hv
      · exact Nat.lt_succ_of_lt (h.vlt v hv)
      · simp at hv; subst hv; exact Nat.lt_succ_self _
    · intro e he; exact Nat.lt_succ_of_lt (h.elt e he)
    · simp only [List.map_append, List.map_cons, List.map_nil]
      rw [List.nodup_append]
      refine ⟨h.vnodup, by simp, ?_⟩
      intro a ha b hb hab
      simp at hb
      obtain ⟨v, hv, rfl⟩ := List.mem_map.1 ha
      have := h.vlt v hv
      omega
    · exact h.enodup
    · intro e he
      obtain ⟨h1, h2⟩ := h.ends e he
      simp only [hasV_iff] at *
      obtain ⟨x, hx, hx'⟩ := h1
      obtain ⟨y, hy, hy'⟩ := h2
      exact ⟨⟨x, by simp [hx], hx'⟩, ⟨y, by simp [hy], hy'⟩⟩
    · exact h.out
    · exact h.inn

/-- The edge record a successful insertion stores. -/
def newEdge (g : Graph α β) (s t : Nat) (b : β) : Edge β := ⟨g.next, g.edges.length, s, t, b⟩

/-- Result of a successful insertion. -/
def added (d : Dir) (g : Graph α β) (s t : Nat) (b : β) : Graph α β :=
  { g with
    edges := g.edges ++ [newEdge g s t b]
    out := fun v => if outInc d v (newEdge g s t b) then g.out v ++ [g.next] else g.out v
    inn := fun v => if d.isBidirectional && (t == v) then g.inn v ++ [g.next] else g.inn v
    next := g.next + 1 }

theorem update_id {γ : Type} (f : Nat → γ) (a : Nat) (b : γ) (h : f a = b) : Function.update f a b = f := by
  subst h; exact Function.update_eq_self _ _

theorem dropLast_concat' {γ : Type} (l : List γ) (x : γ) : (l ++ [x]).dropLast = l := by simp

/-- An insertion either throws and leaves the graph as it was or stores the edge. -/
theorem addEdgeAux_cases (d : Dir) (f : Faults) (s t : Nat) (b : β) :
    addEdgeAux d f g s t b = ⟨true, g⟩ ∨ addEdgeAux d f g s t b = ⟨false, added d g s t b⟩ := by
  unfold addEdgeAux
  rcases tryAdd_cases f.edges g.edges ⟨g.next, g.edges.length, s, t, b⟩ with h1 | h1 <;> rw [h1] <;>
    simp only
  · rcases tryAdd_cases f.srcOut (g.out s) g.next with h2 | h2 <;> rw [h2] <;> simp only
    · cases d with
      | directional =>
        right
        simp only [added, newEdge, Res.mk.injEq, true_and, Graph.mk.injEq]
        refine ⟨?_, ?_, ?_⟩
        · funext v
          by_cases hv : v = s
          · subst hv; simp [outInc]
          · simp [outInc, Dir.isUndirected, Function.update_of_ne hv, Ne.symm hv]
        · funext v; simp [Dir.isBidirectional]
        · trivial
      | undirected =>
        unfold addTgtOut
        by_cases hst : s = t
        · right
          subst hst
          simp only [added, newEdge, if_true, Res.mk.injEq, true_and, Graph.mk.injEq]
          refine ⟨?_, ?_, ?_⟩
          · funext v
            by_cases hv : v = s
            · subst hv; simp [outInc]
            · simp [outInc, Function.update_of_ne hv, Ne.symm hv]
          · funext v; simp [Dir.isBidirectional]
          · trivial
        · simp only [hst, if_false]
          rcases tryAdd_cases f.tgtOut (Function.update g.out s (g.out s ++ [g.next]) t) g.next with h3 | h3 <;>
            rw [h3] <;> simp only
          · right
            simp only [added, newEdge, Res.mk.injEq, true_and, Graph.mk.injEq]
            refine ⟨?_, ?_, ?_⟩
            · funext v
              by_cases hv : v = t
              · subst hv
                simp [outInc, Dir.isUndirected, Function.update_of_ne (Ne.symm hst)]
              · by_cases hvs : v = s
                · subst hvs; simp [outInc, Function.update_of_ne hv]
                · simp [outInc, Function.update_of_ne hv, Function.update_of_ne hvs, Ne.symm hv, Ne.symm hvs]
            · funext v; simp [Dir.isBidirectional]
            · trivial
          · left
            simp [sourceTidy, edgesTidy, Function.update_idem]
      | bidirectional =>
        unfold addTgtIn
        simp only
        rcases tryAdd_cases f.tgtIn (g.inn t) g.next with h3 | h3 <;> rw [h3] <;> simp only
        · right
          simp only [added, newEdge, Res.mk.injEq, true_and, Graph.mk.injEq]
          refine ⟨?_, ?_, ?_⟩
          · funext v
            by_cases hv : v = s
            · subst hv; simp [outInc]
            · simp [outInc, Dir.isUndirected, Function.update_of_ne hv, Ne.symm hv]
          · funext v
            by_cases hv : v = t
            · subst hv; simp [Dir.isBidirectional]
            · simp [Function.update_of_ne hv, Ne.symm hv]
          · trivial
        · left
          simp [sourceTidy, edgesTidy, Function.update_idem]
    · left
      simp [edgesTidy]
  · left; simp

theorem inv_added (h : Inv d g) {s t : Nat} {b : β} (hs : g.hasV s = true) (ht : g.hasV t = true) :
    Inv d (added d g s t b) := by
  constructor
  · intro v hv; exact Nat.lt_succ_of_lt (h.vlt v hv)
  · intro e he
    rcases List.mem_append.1 he with he | he
    · exact Nat.lt_succ_of_lt (h.elt e he)
    · simp [newEdge] at he; subst he; exact Nat.lt_succ_self _
  · exact h.vnodup
  · simp only [added, List.map_append, List.map_cons, List.map_nil]
    rw [List.nodup_append]
    refine ⟨h.enodup, by simp, ?_⟩
    intro a ha b hb hab
    simp [newEdge] at hb
    obtain ⟨v, hv, rfl⟩ := List.mem_map.1 ha
    have := h.elt v hv
    omega
  · intro e he
    rcases List.mem_append.1 he with he | he
    · exact h.ends e he
    · simp at he; subst he; exact ⟨hs, ht⟩
  · intro v
    simp only [added, List.filter_append, List.map_append]
    split
    · rename_i hi
      rw [List.filter_cons_of_pos hi]
      simp [h.out, newEdge]
    · rename_i hi
      rw [List.filter_cons_of_neg (by simpa using hi)]
      simp [h.out]
  · intro v
    simp only [added, List.filter_append, List.map_append]
    rw [h.inn v]
    cases hb : d.isBidirectional
    · simp
    · by_cases hv : t = v
      · simp [newEdge, hv]
      · simp [newEdge, hv]

/-! ### Removals -/

theorem inv_filter (h : Inv d g) (p : Edge β → Bool) (g' : Graph α β) (hv : g'.verts = g.verts)
    (hn : g'.next = g.next) (he : g'.edges = g.edges.filter p)
    (ho : ∀ w, ∃ q : Nat → Bool, g'.out w = (g.out w).filter q ∧
      ∀ e ∈ g.edges, outInc d w e = true → q e.id = p e)
    (hi : ∀ w, ∃ q : Nat → Bool, g'.inn w = (g.inn w).filter q ∧
      ∀ e ∈ g.edges, d.isBidirectional = true → e.tgt = w → q e.id = p e) : Inv d g' := by
  have key : ∀ (inc : Edge β → Bool) (q : Nat → Bool), (∀ e ∈ g.edges, inc e = true → q e.id = p e) →
      ((g.edges.filter inc).map Edge.id).filter q = ((g.edges.filter p).filter inc).map Edge.id := by
    intro inc q hq
    rw [List.filter_map, List.filter_filter, List.filter_filter]
    congr 1
    apply List.filter_congr
    intro e he
    simp only [Function.comp]
    cases hinc : inc e
    · simp
    · simp [hq e he hinc]
  constructor
  · rw [hv, hn]; exact h.vlt
  · rw [he, hn]; intro e hm; exact h.elt e (List.mem_of_mem_filter hm)
  · rw [hv]; exact h.vnodup
  · rw [he]; exact h.enodup.sublist (List.Sublist.map _ List.filter_sublist)
  · intro e hm
    rw [he] at hm
    have := h.ends e (List.mem_of_mem_filter hm)
    unfold Graph.hasV at *
    rw [hv]; exact this
  · intro w
    obtain ⟨q, hq, hq'⟩ := ho w
    rw [hq, h.out, he]
    exact key _ _ hq'
  · intro w
    obtain ⟨q, hq, hq'⟩ := hi w
    rw [hq, h.inn, he]
    cases hb : d.isBidirectional
    · simp
    · simp only [if_true]
      exact key _ _ (fun e he ht => hq' e he hb (by simpa using ht))

/-- How an operation filters the incidence lists, leaving the rest alone. -/
structure Filters (f : Graph α β → Edge β → Graph α β) (ro ri : Edge β → Nat → Nat → Bool) : Prop where
  out : ∀ g e w, (f g e).out w = (g.out w).filter (fun i => !ro e w i)
  inn : ∀ g e w, (f g e).inn w = (g.inn w).filter (fun i => !ri e w i)
  rest : ∀ g e, (f g e).verts = g.verts ∧ (f g e).edges = g.edges ∧ (f g e).next = g.next

theorem Filters.foldl {f : Graph α β → Edge β → Graph α β} {ro ri : Edge β → Nat → Nat → Bool}
    (hf : Filters f ro ri) (es : List (Edge β)) : ∀ g : Graph α β,
    (∀ w, (es.foldl f g).out w = (g.out w).filter (fun i => es.all (fun e => !ro e w i))) ∧
    (∀ w, (es.foldl f g).inn w = (g.inn w).filter (fun i => es.all (fun e => !ri e w i))) ∧
    (es.foldl f g).verts = g.verts ∧ (es.foldl f g).edges = g.edges ∧ (es.foldl f g).next = g.next := by
  induction es with
  | nil => intro g; simp
  | cons e es ih =>
    intro g
    obtain ⟨h1, h2, h3, h4, h5⟩ := ih (f g e)
    obtain ⟨r1, r2, r3⟩ := hf.rest g e
    refine ⟨?_, ?_, ?_, ?_, ?_⟩
    · intro w
      rw [List.foldl_cons, h1, hf.out, List.filter_filter]
      apply List.filter_congr
      intro i _
      simp [Bool.and_comm]
    · intro w
      rw [List.foldl_cons, h2, hf.inn, List.filter_filter]
      apply List.filter_congr
      intro i _
      simp [Bool.and_comm]
    · rw [List.foldl_cons, h3, r1]
    · rw [List.foldl_cons, h4, r2]
    · rw [List.foldl_cons, h5, r3]

theorem outRemoveIf_out (g : Graph α β) (v : Nat) (p : Nat → Bool) (w : Nat) :
    (outRemoveIf g v p).out w = (g.out w).filter (fun i => !((v == w) && p i)) := by
  unfold outRemoveIf
  by_cases h : w = v
  · subst h; simp
  · have : (v == w) = false := by simpa using Ne.symm h
    simp [Function.update_of_ne h, this]

theorem inRemoveIf_inn (g : Graph α β) (v : Nat) (p : Nat → Bool) (w : Nat) :
    (inRemoveIf g v p).inn w = (g.inn w).filter (fun i => !((v == w) && p i)) := by
  unfold inRemoveIf
  by_cases h : w = v
  · subst h; simp
  · have : (v == w) = false := by simpa using Ne.symm h
    simp [Function.update_of_ne h, this]

@[simp] theorem outRemoveIf_inn (g : Graph α β) (v : Nat) (p : Nat → Bool) : (outRemoveIf g v p).inn = g.inn := rfl
@[simp] theorem outRemoveIf_verts (g : Graph α β) (v : Nat) (p : Nat → Bool) :
    (outRemoveIf g v p).verts = g.verts := rfl
@[simp] theorem outRemoveIf_edges (g : Graph α β) (v : Nat) (p : Nat → Bool) :
    (outRemoveIf g v p).edges = g.edges := rfl
@[simp] theorem outRemoveIf_next (g : Graph α β) (v : Nat) (p : Nat → Bool) :
    (outRemoveIf g v p).next = g.next := rfl
@[simp] theorem inRemoveIf_out (g : Graph α β) (v : Nat) (p : Nat → Bool) : (inRemoveIf g v p).out = g.out := rfl
@[simp] theorem inRemoveIf_verts (g : Graph α β) (v : Nat) (p : Nat → Bool) :
    (inRemoveIf g v p).verts = g.verts := rfl
@[simp] theorem inRemoveIf_edges (g : Graph α β) (v : Nat) (p : Nat → Bool) :
    (inRemoveIf g v p).edges = g.edges := rfl
@[simp] theorem inRemoveIf_next (g : Graph α β) (v : Nat) (p : Nat → Bool) :
    (inRemoveIf g v p).next = g.next := rfl

theorem unlist_filters (d : Dir) : Filters (unlistTarget (α := α) (β := β) d)
    (fun e w i => d.isUndirected && (e.src != e.tgt) && (e.tgt == w) && (i == e.id))
    (fun e w i => d.isBidirectional && (e.tgt == w) && (i == e.id)) := by
  have hne : ∀ e : Edge β, e.src ≠ e.tgt → (e.src != e.tgt) = true := fun e h => by simpa using h
  constructor
  · intro g e w
    unfold unlistTarget
    by_cases hst : e.src = e.tgt
    · cases d <;> simp [Dir.isUndirected, Dir.isBidirectional, hst]
    · cases d <;> simp [Dir.isUndirected, Dir.isBidirectional, hst, hne e hst, outRemoveIf_out]
  · intro g e w
    unfold unlistTarget
    by_cases hst : e.src = e.tgt
    · cases d <;> simp [Dir.isUndirected, Dir.isBidirectional, hst, inRemoveIf_inn]
    · cases d <;> simp [Dir.isUndirected, Dir.isBidirectional, hst, hne e hst, inRemoveIf_inn]
  · intro g e
    unfold unlistTarget
    by_cases hst : e.src = e.tgt
    · cases d <;> simp [Dir.isUndirected, Dir.isBidirectional, hst]
    · cases d <;> simp [Dir.isUndirected, Dir.isBidirectional, hst, hne e hst]

theorem clearOne_filters (d : Dir) (v : Nat) : Filters (clearOne (α := α) (β := β) d v)
    (fun e w i => (e.src != e.tgt) && (i == e.id) &&
      ((d.isUndirected && (e.tgt == v) && (e.src == w)) || ((e.src == v) && (e.tgt == w))))
    (fun e w i => d.isBidirectional && (e.src != e.tgt) && (e.src == v) && (e.tgt == w) && (i == e.id)) := by
  constructor
  · intro g e w
    unfold clearOne
    by_cases hst : e.src = e.tgt
    · simp [hst]
    · rw [if_neg hst, outRemoveIf_out]
      cases d <;> simp only [Dir.isUndirected, Dir.isBidirectional, Bool.true_and, Bool.false_and,
        if_true, Bool.false_eq_true, if_false]
      · split
        · rw [outRemoveIf_out, List.filter_filter]
          apply List.filter_congr
          grind
        · apply List.filter_congr
          grind
      · apply List.filter_congr
        grind
      · rw [inRemoveIf_out]
        apply List.filter_congr
        grind
  · intro g e w
    unfold clearOne
    by_cases hst : e.src = e.tgt
    · simp [hst]
    · rw [if_neg hst, outRemoveIf_inn]
      cases d <;> simp only [Dir.isUndirected, Dir.isBidirectional, Bool.true_and, Bool.false_and,
        if_true, Bool.false_eq_true, if_false]
      · split <;> simp
      · simp
      · rw [inRemoveIf_inn]
        apply List.filter_congr
        grind
  · intro g e
    unfold clearOne
    by_cases hst : e.src = e.tgt
    · simp [hst]
    · rw [if_neg hst]
      cases d <;> simp only [Dir.isUndirected, Dir.isBidirectional, Bool.true_and, Bool.false_and,
        if_true, Bool.false_eq_true, if_false]
      · split <;> simp
      · simp
      · simp

theorem mem_map_id_filter (h : Inv d g) {e : Edge β} (he : e ∈ g.edges) (p : Edge β → Bool) :
    ((g.edges.filter p).map Edge.id).contains e.id = p e := by
  cases hp : p e
  · rw [← Bool.not_eq_true]
    intro hc
    rw [List.contains_iff_mem] at hc
    obtain ⟨x, hx, hxe⟩ := List.mem_map.1 hc
    obtain ⟨hx1, hx2⟩ := List.mem_filter.1 hx
    rw [id_inj h.enodup hx1 he hxe, hp] at hx2
    cases hx2
  · rw [List.contains_iff_mem]
    exact List.mem_map.2 ⟨e, List.mem_filter.2 ⟨he, hp⟩, rfl⟩

/-- `remove_edge(source, target)` removes exactly the edges stored from `s` to `t`. -/
theorem removeEdges_spec (h : Inv d g) {s t : Nat} (hs : g.hasV s = true) (ht : g.hasV t = true) :
    ∃ g', removeEdges d g s t = .ok g' ∧ Inv d g' ∧ g'.verts = g.verts ∧
      g'.edges = g.edges.filter (fun e => !(e.src == s && e.tgt == t)) := by
  unfold removeEdges
  simp only [hs, ht, Bool.and_self, if_true]
  rw [mapM_out h]
  simp only
  refine ⟨_, rfl, ?_⟩
  have hff : (g.edges.filter (outInc d s)).filter (fun e => e.src == s && e.tgt == t) =
      g.edges.filter (fun e => e.src == s && e.tgt == t) := by
    rw [List.filter_filter]
    apply List.filter_congr
    intro e _
    by_cases h1 : e.src = s <;> simp [outInc, h1]
  rw [hff]
  have hedges : g.edges.filter (fun e => !(((g.edges.filter (fun e => e.src == s && e.tgt == t)).map Edge.id).contains
      e.id)) = g.edges.filter (fun e => !(e.src == s && e.tgt == t)) := by
    apply List.filter_congr
    intro e he
    rw [mem_map_id_filter h he]
  obtain ⟨f1, f2, f3, f4, f5⟩ := (unlist_filters (α := α) (β := β) d).foldl
    (g.edges.filter (fun e => e.src == s && e.tgt == t)) g
  refine ⟨inv_filter h (fun e => !(e.src == s && e.tgt == t)) _ ?_ ?_ ?_ ?_ ?_, ?_, ?_⟩
  · exact f3
  · exact f5
  · exact hedges
  · intro w
    refine ⟨_, (outRemoveIf_out _ _ _ _).trans (by rw [f1, List.filter_filter]), ?_⟩
    intro e he hinc
    rw [mem_map_id_filter h he]
    cases hp : (e.src == s && e.tgt == t)
    · simp only [Bool.and_false, Bool.not_false, Bool.true_and, List.all_eq_true]
      intro x hx
      obtain ⟨hx1, hx2⟩ := List.mem_filter.1 hx
      by_cases hid : e.id = x.id
      · rw [id_inj h.enodup he hx1 hid, hx2] at hp; cases hp
      · simp [hid]
    · simp only [Bool.not_true]
      simp only [Bool.and_eq_true, beq_iff_eq] at hp
      obtain ⟨hp1, hp2⟩ := hp
      by_cases hsw : s = w
      · simp [hsw]
      · simp only [Bool.and_eq_false_iff]
        right
        simp only [outInc, Bool.or_eq_true, beq_iff_eq, Bool.and_eq_true] at hinc
        rcases hinc with hinc | ⟨hu, hinc⟩
        · exact absurd (hp1.symm.trans hinc) hsw
        · rw [List.all_eq_false]
          refine ⟨e, List.mem_filter.2 ⟨he, by simp [hp1, hp2]⟩, ?_⟩
          have : e.src ≠ e.tgt := fun hc => hsw (by rw [← hp1, hc, hinc])
          grind
  · intro w
    refine ⟨_, f2 w, ?_⟩
    intro e he hb htw
    cases hp : (e.src == s && e.tgt == t)
    · simp only [Bool.not_false, List.all_eq_true]
      intro x hx
      obtain ⟨hx1, hx2⟩ := List.mem_filter.1 hx
      by_cases hid : e.id = x.id
      · rw [id_inj h.enodup he hx1 hid, hx2] at hp; cases hp
      · simp [hid]
    · simp only [Bool.not_true]
      rw [List.all_eq_false]
      refine ⟨e, List.mem_filter.2 ⟨he, hp⟩, ?_⟩
      simp [hb, htw]
  · exact f3
  · exact hedges

/-- `remove_edge(edge)` removes exactly this edge. -/
theorem removeEdge_spec (h : Inv d g) {e : Edge β} (he : e ∈ g.edges) :
    ∃ g', removeEdge d g e.id = .ok g' ∧ Inv d g' ∧ g'.verts = g.verts ∧
      g'.edges = g.edges.filter (fun x => x.id != e.id) := by
  unfold removeEdge
  rw [getE_eq h he]
  simp only
  have hmem : (g.out e.src).contains e.id = true := by
    rw [h.out, mem_map_id_filter h he]; simp [outInc]
  rw [if_pos hmem]
  refine ⟨_, rfl, ?_, ?_, rfl⟩
  · have uf := unlist_filters (α := α) (β := β) d
    have hnd : ∀ w, (g.out w).Nodup := by
      intro w
      rw [h.out]
      exact h.enodup.sublist (List.Sublist.map _ List.filter_sublist)
    refine inv_filter h (fun x => x.id != e.id) _ (uf.rest g e).1 (uf.rest g e).2.2 rfl ?_ ?_
    · intro w
      by_cases hw : w = e.src
      · subst hw
        refine ⟨fun i => (i != e.id) && !(d.isUndirected && (e.src != e.tgt) && (e.tgt == e.src) && (i == e.id)),
          ?_, ?_⟩
        · simp only [Function.update_self, uf.out]
          rw [List.Nodup.erase_eq_filter ((hnd e.src).filter _), List.filter_filter]
        · intro x hx _
          grind
      · refine ⟨_, (by simp only [Function.update_of_ne hw]; exact uf.out g e w), ?_⟩
        intro x hx hinc
        by_cases hid : x.id = e.id
        · have hxe := id_inj h.enodup hx he hid
          subst hxe
          simp only [outInc, Bool.or_eq_true, beq_iff_eq, Bool.and_eq_true] at hinc
          rcases hinc with hinc | ⟨hu, hinc⟩
          · exact absurd hinc.symm hw
          · grind
        · grind
    · intro w
      refine ⟨_, uf.inn g e w, ?_⟩
      intro x hx hb htw
      by_cases hid : x.id = e.id
      · have hxe := id_inj h.enodup hx he hid
        subst hxe
        simp [hb, htw]
      · grind
  · exact ((unlist_filters (α := α) (β := β) d).rest g e).1

theorem clearOwn_out (d : Dir) (v w : Nat) (g : Graph α β) :
    (clearOwn d v g).out w = (g.out w).filter (fun _ => !(v == w)) := by
  unfold clearOwn
  by_cases h : w = v
  · subst h; simp
  · have : (v == w) = false := by simpa using Ne.symm h
    simp [Function.update_of_ne h, this]

theorem clearOwn_inn (d : Dir) (v w : Nat) (g : Graph α β) :
    (clearOwn d v g).inn w = (g.inn w).filter (fun _ => !(d.isBidirectional && v == w)) := by
  unfold clearOwn
  cases hb : d.isBidirectional
  · simp
  · by_cases h : w = v
    · subst h; simp
    · have : (v == w) = false := by simpa using Ne.symm h
      simp [Function.update_of_ne h, this]

theorem scan_foldl (p : Nat → Bool) (vs : List (Vert α)) : ∀ g : Graph α β,
    (∀ w, (vs.foldl (fun h x => outRemoveIf h x.id p) g).out w =
      (g.out w).filter (fun i => !(vs.any (fun x => x.id == w) && p i))) ∧
    (vs.foldl (fun h x => outRemoveIf h x.id p) g).inn = g.inn ∧
    (vs.foldl (fun h x => outRemoveIf h x.id p) g).verts = g.verts ∧
    (vs.foldl (fun h x => outRemoveIf h x.id p) g).edges = g.edges ∧
    (vs.foldl (fun h x => outRemoveIf h x.id p) g).next = g.next := by
  induction vs with
  | nil => intro g; simp
  | cons x vs ih =>
    intro g
    obtain ⟨h1, h2, h3, h4, h5⟩ := ih (outRemoveIf g x.id p)
    refine ⟨?_, ?_, ?_, ?_, ?_⟩
    · intro w
      rw [List.foldl_cons, h1, outRemoveIf_out, List.filter_filter]
      apply List.filter_congr
      intro i _
      simp only [List.any_cons]
      cases (x.id == w) <;> cases (p i) <;> simp
    · rw [List.foldl_cons, h2]; rfl
    · rw [List.foldl_cons, h3]; rfl
    · rw [List.foldl_cons, h4]; rfl
    · rw [List.foldl_cons, h5]; rfl

/-- `clear_vertex` removes exactly the edges with `v` as an end point. -/
theorem clearVertex_spec (h : Inv d g) {v : Nat} (hv : g.hasV v = true) :
    ∃ g', clearVertex d g v = .ok g' ∧ Inv d g' ∧ g'.verts = g.verts ∧
      g'.edges = g.edges.filter (fun e => !(e.src == v || e.tgt == v)) := by
  unfold clearVertex
  simp only [hv, if_true]
  rw [mapM_out h]
  simp only
  refine ⟨_, rfl, ?_⟩
  obtain ⟨f1, f2, f3, f4, f5⟩ := (clearOne_filters (α := α) (β := β) d v).foldl (g.edges.filter (outInc d v)) g
  generalize hg1 : (g.edges.filter (outInc d v)).foldl (clearOne d v) g = g1 at *
  -- the state on which the scan works
  have hcv : (clearOwn d v g1).verts = g.verts := f3
  have hce : (clearOwn d v g1).edges = g.edges := f4
  have htgt : ∀ e ∈ g.edges, (clearOwn d v g1).tgtOf e.id = some e.tgt := by
    intro e he
    have : (clearOwn d v g1).getE e.id = g.getE e.id := by unfold Graph.getE; rw [hce]
    rw [Graph.tgtOf, this, getE_eq h he]; rfl
  -- edges surviving the first two phases at `w`
  have hout2 : ∀ w, (clearOwn d v g1).out w = (g.out w).filter (fun i =>
      (!(v == w)) && (g.edges.filter (outInc d v)).all (fun e => !((e.src != e.tgt) && (i == e.id) &&
      ((d.isUndirected && (e.tgt == v) && (e.src == w)) || ((e.src == v) && (e.tgt == w)))))) := by
    intro w
    rw [clearOwn_out, f1, List.filter_filter]
  -- membership in the deletion list
  have hdel : ∀ e ∈ g.edges, (g.out v ++ scanDeleted d v (clearOwn d v g1)).contains e.id =
      (e.src == v || e.tgt == v) := by
    intro e he
    rw [Bool.eq_iff_iff, List.contains_iff_mem, List.mem_append]
    have h1 : e.id ∈ g.out v ↔ outInc d v e = true := by
      rw [← List.contains_iff_mem, h.out, mem_map_id_filter h he]
    rw [h1]
    constructor
    · rintro (hx | hx)
      · unfold outInc at hx; grind
      · unfold scanDeleted at hx
        split at hx
        · obtain ⟨x, hx1, hx2⟩ := List.mem_flatMap.1 hx
          have hx3 := (List.mem_filter.1 hx2).2
          rw [htgt e he] at hx3
          simp at hx3
          simp [hx3]
        · cases hx
    · intro hx
      by_cases hi : outInc d v e = true
      · exact .inl hi
      · right
        have hsv : e.src ≠ v := by
          intro hc; apply hi; simp [outInc, hc]
        have htv : e.tgt = v := by
          rcases Bool.or_eq_true _ _ ▸ hx with hx | hx
          · exact absurd (by simpa using hx) hsv
          · simpa using hx
        have hu : d.isUndirected = false := by
          rw [← Bool.not_eq_true]; intro hu; apply hi; simp [outInc, hu, htv]
        have hd : d.isDirectional = true := by cases d <;> simp_all [Dir.isUndirected, Dir.isDirectional]
        unfold scanDeleted
        rw [if_pos hd]
        obtain ⟨x, hx1, hx2⟩ := hasV_iff.1 (h.ends e he).1
        refine List.mem_flatMap.2 ⟨x, by rw [hcv]; exact hx1, List.mem_filter.2 ⟨?_, by simp [htgt e he, htv]⟩⟩
        rw [hout2, hx2, List.mem_filter]
        refine ⟨?_, ?_⟩
        · rw [h.out]
          exact List.mem_map.2 ⟨e, List.mem_filter.2 ⟨he, by simp [outInc]⟩, rfl⟩
        · have : (v == e.src) = false := by simpa using Ne.symm hsv
          simp only [this, Bool.not_false, Bool.true_and, List.all_eq_true]
          intro y hy
          obtain ⟨hy1, hy2⟩ := List.mem_filter.1 hy
          by_cases hid : e.id = y.id
          · have := id_inj h.enodup he hy1 hid
            subst this
            exact absurd hy2 hi
          · simp [hid]
  have hedges : g.edges.filter (fun e => !((g.out v ++ scanDeleted d v (clearOwn d v g1)).contains e.id)) =
      g.edges.filter (fun e => !(e.src == v || e.tgt == v)) := by
    apply List.filter_congr
    intro e he
    rw [hdel e he]
  obtain ⟨s1, s2, s3, s4, s5⟩ := scan_foldl (β := β) (fun i => (clearOwn d v g1).tgtOf i == some v)
    (clearOwn d v g1).verts (clearOwn d v g1)
  have hscan_out : ∀ w, (clearScan d v (clearOwn d v g1)).out w = ((clearOwn d v g1).out w).filter
      (fun i => !(d.isDirectional && g.hasV w && ((clearOwn d v g1).tgtOf i == some v))) := by
    intro w
    unfold clearScan
    cases hd : d.isDirectional
    · simp
    · simp only [if_true]
      rw [s1, hcv]
      simp [Graph.hasV]
  have hscan_inn : (clearScan d v (clearOwn d v g1)).inn = (clearOwn d v g1).inn := by
    unfold clearScan; split
    · exact s2
    · rfl
  have hscan_verts : (clearScan d v (clearOwn d v g1)).verts = g.verts := by
    unfold clearScan; split
    · rw [s3]; exact hcv
    · exact hcv
  have hscan_next : (clearScan d v (clearOwn d v g1)).next = g.next := by
    unfold clearScan; split
    · rw [s5]; exact f5
    · exact f5
  refine ⟨inv_filter h (fun e => !(e.src == v || e.tgt == v)) _ hscan_verts hscan_next hedges ?_ ?_,
    hscan_verts, hedges⟩
  · intro w
    refine ⟨_, (hscan_out w).trans (by rw [hout2, List.filter_filter]), ?_⟩
    intro e he hinc
    rw [htgt e he]
    cases hp : (e.src == v || e.tgt == v)
    · -- survives everywhere
      simp only [Bool.or_eq_false_iff, beq_eq_false_iff_ne] at hp
      obtain ⟨hp1, hp2⟩ := hp
      have hvw : ¬ (v = w) := by
        intro hc; subst hc
        simp only [outInc, Bool.or_eq_true, beq_iff_eq, Bool.and_eq_true] at hinc
        rcases hinc with hinc | ⟨_, hinc⟩
        · exact hp1 hinc
        · exact hp2 hinc
      have hall : (g.edges.filter (outInc d v)).all (fun x => !((x.src != x.tgt) && (e.id == x.id) &&
          ((d.isUndirected && (x.tgt == v) && (x.src == w)) || ((x.src == v) && (x.tgt == w))))) = true := by
        rw [List.all_eq_true]
        intro y hy
        obtain ⟨hy1, hy2⟩ := List.mem_filter.1 hy
        by_cases hid : e.id = y.id
        · have := id_inj h.enodup he hy1 hid
          subst this
          simp [outInc, hp1, hp2] at hy2
        · simp [hid]
      rw [hall]
      grind
    · simp only [Bool.not_true]
      by_cases hvw : v = w
      · simp [hvw]
      · by_cases hi : outInc d v e = true
        · -- removed in the first phase, or by the scan
          by_cases htv : e.tgt = v
          · by_cases hd : d.isDirectional = true
            · have hw : e.src = w := by
                have hu : d.isUndirected = false := by cases d <;> simp_all [Dir.isUndirected, Dir.isDirectional]
                simpa [outInc, hu] using hinc
              have : g.hasV w = true := hw ▸ (h.ends e he).1
              simp [hd, this, htv]
            · have hsw : e.src = w := by
                simp only [outInc, Bool.or_eq_true, beq_iff_eq, Bool.and_eq_true] at hinc
                rcases hinc with hinc | ⟨_, hinc⟩
                · exact hinc
                · exact absurd (htv.symm.trans hinc) hvw
              have hu : d.isUndirected = true := by cases d <;> simp_all [Dir.isUndirected, Dir.isDirectional]
              have hall : (g.edges.filter (outInc d v)).all (fun x => !((x.src != x.tgt) && (e.id == x.id) &&
                  ((d.isUndirected && (x.tgt == v) && (x.src == w)) || ((x.src == v) && (x.tgt == w))))) = false := by
                rw [List.all_eq_false]
                refine ⟨e, List.mem_filter.2 ⟨he, hi⟩, ?_⟩
                have hne : e.src ≠ e.tgt := by rw [hsw, htv]; exact Ne.symm hvw
                grind
              simp only [hall, Bool.and_false]
          · have hsv : e.src = v := by
              rcases Bool.or_eq_true _ _ ▸ hp with hx | hx
              · simpa using hx
              · exact absurd (by simpa using hx) htv
            have htw : e.tgt = w := by
              simp only [outInc, Bool.or_eq_true, beq_iff_eq, Bool.and_eq_true] at hinc
              rcases hinc with hinc | ⟨_, hinc⟩
              · exact absurd (hsv.symm.trans hinc) hvw
              · exact hinc
            have hall : (g.edges.filter (outInc d v)).all (fun x => !((x.src != x.tgt) && (e.id == x.id) &&
                ((d.isUndirected && (x.tgt == v) && (x.src == w)) || ((x.src == v) && (x.tgt == w))))) = false := by
              rw [List.all_eq_false]
              refine ⟨e, List.mem_filter.2 ⟨he, hi⟩, ?_⟩
              have hne : e.src ≠ e.tgt := by rw [hsv, htw]; exact hvw
              grind
            simp only [hall, Bool.and_false]
        · have hsv : e.src ≠ v := by
            intro hc; apply hi; simp [outInc, hc]
          have htv : e.tgt = v := by
            rcases Bool.or_eq_true _ _ ▸ hp with hx | hx
            · exact absurd (by simpa using hx) hsv
            · simpa using hx
          have hu : d.isUndirected = false := by
            rw [← Bool.not_eq_true]; intro hu; apply hi; simp [outInc, hu, htv]
          have hd : d.isDirectional = true := by cases d <;> simp_all [Dir.isUndirected, Dir.isDirectional]
          have hw : e.src = w := by simpa [outInc, hu] using hinc
          have : g.hasV w = true := hw ▸ (h.ends e he).1
          simp [hd, this, htv]
  · intro w
    refine ⟨_, (congrFun hscan_inn w).trans ((clearOwn_inn d v w g1).trans (by rw [f2, List.filter_filter])), ?_⟩
    intro e he hb htw
    subst htw
    simp only [hb, Bool.true_and]
    have hu : d.isUndirected = false := by cases d <;> simp_all [Dir.isUndirected, Dir.isBidirectional]
    cases hp : (e.src == v || e.tgt == v)
    · simp only [Bool.or_eq_false_iff, beq_eq_false_iff_ne] at hp
      obtain ⟨hp1, hp2⟩ := hp
      simp only [Bool.not_false, Bool.and_eq_true, Bool.not_eq_true', beq_eq_false_iff_ne, List.all_eq_true]
      refine ⟨Ne.symm hp2, ?_⟩
      intro y hy
      obtain ⟨hy1, hy2⟩ := List.mem_filter.1 hy
      by_cases hid : e.id = y.id
      · have := id_inj h.enodup he hy1 hid
        subst this
        simp [outInc, hp1, hu] at hy2
      · simp [hid]
    · by_cases htv : e.tgt = v
      · simp [htv]
      · have hsv : e.src = v := by
          rcases Bool.or_eq_true _ _ ▸ hp with hx | hx
          · simpa using hx
          · exact absurd (by simpa using hx) htv
        simp only [Bool.not_true, Bool.and_eq_false_iff]
        right
        rw [List.all_eq_false]
        refine ⟨e, List.mem_filter.2 ⟨he, by simp [outInc, hsv]⟩, ?_⟩
        have hne : e.src ≠ e.tgt := by rw [hsv]; exact Ne.symm htv
        grind

/-- Removing a vertex no edge ends at. -/
theorem removeVertex_spec (h : Inv d g) {v : Nat} {g' : Graph α β} (hr : removeVertex g v = .ok g')
    (hin : ∀ e ∈ g.edges, e.tgt ≠ v) :
    Inv d g' ∧ g'.verts = g.verts.filter (fun x => x.id != v) ∧ g'.edges = g.edges := by
  unfold removeVertex at hr
  split at hr
  · split at hr
    · rename_i hv ho
      cases hr
      have hsrc : ∀ e ∈ g.edges, e.src ≠ v := by
        intro e he hc
        have : e.id ∈ g.out v := by
          rw [h.out]; exact List.mem_map.2 ⟨e, List.mem_filter.2 ⟨he, by simp [outInc, hc]⟩, rfl⟩
        rw [ho] at this; cases this
      refine ⟨?_, rfl, rfl⟩
      constructor
      · intro x hx; exact h.vlt x (List.mem_of_mem_filter hx)
      · exact h.elt
      · exact h.vnodup.sublist (List.Sublist.map _ List.filter_sublist)
      · exact h.enodup
      · intro e he
        obtain ⟨h1, h2⟩ := h.ends e he
        obtain ⟨x, hx, hx'⟩ := hasV_iff.1 h1
        obtain ⟨y, hy, hy'⟩ := hasV_iff.1 h2
        refine ⟨hasV_iff.2 ⟨x, List.mem_filter.2 ⟨hx, by rw [hx']; simpa using hsrc e he⟩, hx'⟩, hasV_iff.2
          ⟨y, List.mem_filter.2 ⟨hy, by rw [hy']; simpa using hin e he⟩, hy'⟩⟩
      · exact h.out
      · intro w
        by_cases hw : w = v
        · subst hw
          simp only [Function.update_self]
          split
          · symm
            rw [List.map_eq_nil_iff, List.filter_eq_nil_iff]
            intro e he
            simpa using hin e he
          · rfl
        · simp only [Function.update_of_ne hw]
          exact h.inn w
    · cases hr
  · cases hr

/-! ### Reindexing -/

theorem mapIdx_map_congr {γ δ : Type} (l : List γ) (f : Nat → γ → γ) (p : γ → δ) (hf : ∀ i x, p (f i x) = p x) :
    (l.mapIdx f).map p = l.map p := by
  apply List.ext_getElem
  · simp
  · intro i h1 h2; simp [hf]

theorem inv_reindex (h : Inv d g) : Inv d (reindex g) := by
  have hvid : (reindex g).verts.map Vert.id = g.verts.map Vert.id := mapIdx_map_congr _ _ _ (fun _ _ => rfl)
  have heid : (reindex g).edges.map Edge.id = g.edges.map Edge.id := mapIdx_map_congr _ _ _ (fun _ _ => rfl)
  have hE : ∀ e ∈ (reindex g).edges, ∃ e' ∈ g.edges, e'.id = e.id ∧ e'.src = e.src ∧ e'.tgt = e.tgt := by
    intro e he
    obtain ⟨i, hi, rfl⟩ := List.mem_mapIdx.1 he
    exact ⟨g.edges[i], List.getElem_mem _, rfl, rfl, rfl⟩
  have hV : ∀ w, (reindex g).hasV w = g.hasV w := by
    intro w
    have : ∀ l : List (Vert α), l.any (fun x => x.id == w) = (l.map Vert.id).any (fun i => i == w) := by
      intro l; simp [List.any_map, Function.comp_def]
    rw [Graph.hasV, Graph.hasV, this, this, hvid]
  have hfil : ∀ p : Nat → Nat → Nat → Bool,
      ((reindex g).edges.filter (fun e => p e.id e.src e.tgt)).map Edge.id =
      (g.edges.filter (fun e => p e.id e.src e.tgt)).map Edge.id := by
    intro p
    have key : ∀ l : List (Edge β), (l.filter (fun e => p e.id e.src e.tgt)).map Edge.id =
        ((l.map (fun e => (e.id, e.src, e.tgt))).filter (fun t => p t.1 t.2.1 t.2.2)).map Prod.fst := by
      intro l
      rw [List.filter_map, List.map_map]
      rfl
    rw [key, key]
    congr 2
    exact mapIdx_map_congr _ _ _ (fun _ _ => rfl)
  constructor
  · intro v hv
    have : v.id ∈ g.verts.map Vert.id := hvid ▸ List.mem_map.2 ⟨v, hv, rfl⟩
    obtain ⟨x, hx, hx'⟩ := List.mem_map.1 this
    rw [← hx']; exact h.vlt x hx
  · intro e he
    obtain ⟨e', he', hid, _⟩ := hE e he
    rw [← hid]; exact h.elt e' he'
  · rw [hvid]; exact h.vnodup
  · rw [heid]; exact h.enodup
  · intro e he
    obtain ⟨e', he', hid, hs, ht⟩ := hE e he
    rw [hV, hV, ← hs, ← ht]
    exact h.ends e' he'
  · intro v
    exact (h.out v).trans (hfil (fun _ s t => (s == v) || (d.isUndirected && t == v))).symm
  · intro v
    rw [show (reindex g).inn v = g.inn v from rfl, h.inn]
    split
    · exact (hfil (fun _ _ t => t == v)).symm
    · rfl

end MM.AdjList
