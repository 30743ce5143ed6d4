import Verif.Model.Csr
import Verif.Props.AdjList
import Mathlib.Algebra.BigOperators.Group.List.Lemmas
import Mathlib.Data.List.Forall2

/-! # Conversion to the compressed graph (helper lemmas for C10) -/

set_option autoImplicit false
set_option linter.unusedSectionVars false

namespace MM.Csr

open MM.AdjList

variable {α β : Type} {d : Dir} {g : Graph α β}

theorem indexOf_mem (h : Inv d g) {v : Vert α} (hv : v ∈ g.verts) : indexOf g v.id = some v.index := by
  unfold indexOf
  cases hf : g.verts.find? (fun x => x.id == v.id) with
  | none => have := List.find?_eq_none.1 hf v hv; simp at this
  | some x =>
    have h1 := List.mem_of_find?_eq_some hf
    have h2 := List.find?_some hf
    rw [List.inj_on_of_nodup_map h.vnodup h1 hv (by simpa using h2)]
    rfl

/-- The row stored for an edge. -/
def rowOf (g : Graph α β) (e : Edge β) : Row β :=
  ⟨(indexOf g e.src).getD 0, (indexOf g e.tgt).getD 0, e.data⟩

theorem indexed_get {v : Vert α} (hx : Indexed g) {k : Nat} (hk : g.verts[k]? = some v) : v.index = k := by
  have h1 : (g.verts.map Vert.index)[k]? = some v.index := by simp [hk]
  rw [hx.1] at h1
  rw [List.getElem?_eq_some_iff] at h1
  obtain ⟨h2, h3⟩ := h1
  simpa using h3.symm

theorem indexOf_inj (h : Inv d g) (hx : Indexed g) {a b : Vert α} (ha : a ∈ g.verts) (hb : b ∈ g.verts)
    (hab : a.index = b.index) : a.id = b.id := by
  have hn : (g.verts.map Vert.index).Nodup := by rw [hx.1]; exact List.nodup_range
  rw [List.inj_on_of_nodup_map hn ha hb hab]

theorem convEdge_spec (h : Inv d g) (hx : Indexed g) {v : Vert α} (hv : v ∈ g.verts) {e : Edge β} (he : e ∈ g.edges)
    (hinc : outInc d v.id e = true) (c : Csr α β) :
    convEdge d g v.index (c, c.edges.length) e.id =
      .ok ({ c with edges := c.edges ++ (if e.src = v.id then [rowOf g e] else []) },
        (c.edges ++ (if e.src = v.id then [rowOf g e] else [])).length) := by
  obtain ⟨h1, h2⟩ := h.ends e he
  obtain ⟨x, hx1, hx2⟩ := hasV_iff.1 h1
  obtain ⟨y, hy1, hy2⟩ := hasV_iff.1 h2
  have hi1 : indexOf g e.src = some x.index := hx2 ▸ indexOf_mem h hx1
  have hi2 : indexOf g e.tgt = some y.index := hy2 ▸ indexOf_mem h hy1
  unfold convEdge
  rw [getE_eq h he]
  simp only [hi1, hi2]
  by_cases hs : e.src = v.id
  · have hxv : x = v := List.inj_on_of_nodup_map h.vnodup hx1 hv (hx2.trans hs)
    subst hxv
    simp [hs, rowOf, hi2, indexOf_mem h hv]
  · have hu : d.isUndirected = true ∧ e.tgt = v.id := by
      simp only [outInc, Bool.or_eq_true, beq_iff_eq, Bool.and_eq_true] at hinc
      exact hinc.resolve_left hs
    have hyv : y = v := List.inj_on_of_nodup_map h.vnodup hy1 hv (hy2.trans hu.2)
    subst hyv
    have hne : (x.index != y.index) = true := by
      simp only [bne_iff_ne]
      intro hc
      exact hs (hx2.symm.trans (indexOf_inj h hx hx1 hy1 hc))
    simp [hs, hu.1, hne]

theorem convEdges_spec (h : Inv d g) (hx : Indexed g) {v : Vert α} (hv : v ∈ g.verts) (es : List (Edge β))
    (hes : ∀ e ∈ es, e ∈ g.edges ∧ outInc d v.id e = true) : ∀ c : Csr α β,
    convEdges d g v.index (es.map Edge.id) (c, c.edges.length) =
      .ok ({ c with edges := c.edges ++ (es.filter (fun e => e.src == v.id)).map (rowOf g) },
        (c.edges ++ (es.filter (fun e => e.src == v.id)).map (rowOf g)).length) := by
  induction es with
  | nil => intro c; simp [convEdges]
  | cons e es ih =>
    intro c
    obtain ⟨he, hi⟩ := hes e (by simp)
    simp only [List.map_cons, convEdges]
    rw [convEdge_spec h hx hv he hi c]
    simp only [Outcome.bind_ok]
    rw [ih (fun x hx => hes x (by simp [hx]))]
    by_cases hs : e.src = v.id <;> simp [hs]

/-- The rows of a vertex. -/
def rowsOf (g : Graph α β) (v : Vert α) : List (Row β) :=
  (g.edges.filter (fun e => e.src == v.id)).map (rowOf g)

theorem out_filter (d : Dir) (v : Nat) (es : List (Edge β)) :
    (es.filter (outInc d v)).filter (fun e => e.src == v) = es.filter (fun e => e.src == v) := by
  rw [List.filter_filter]
  apply List.filter_congr
  intro e _
  simp [outInc]
  grind

/-- Starts of the rows. -/
def starts (g : Graph α β) (n : Nat) : List (Vert α) → List (Nat × α)
  | [] => []
  | v :: vs => (n, v.data) :: starts g (n + (rowsOf g v).length) vs

theorem convVerts_spec (h : Inv d g) (hx : Indexed g) (vs : List (Vert α)) (hvs : ∀ v ∈ vs, v ∈ g.verts) :
    ∀ c : Csr α β, convVerts d g vs (c, c.edges.length) =
      .ok (⟨c.verts ++ starts g c.edges.length vs, c.edges ++ (vs.map (rowsOf g)).flatten⟩,
        (c.edges ++ (vs.map (rowsOf g)).flatten).length) := by
  induction vs with
  | nil => intro c; simp [convVerts, starts]
  | cons v vs ih =>
    intro c
    simp only [convVerts]
    have hv := hvs v (by simp)
    rw [h.out]
    have := convEdges_spec h hx hv (g.edges.filter (outInc d v.id))
      (fun e he => ⟨List.mem_of_mem_filter he, (List.mem_filter.1 he).2⟩)
      { c with verts := c.verts ++ [(c.edges.length, v.data)] }
    simp only at this
    rw [this, out_filter]
    simp only [Outcome.bind_ok]
    rw [ih (fun x hx => hvs x (by simp [hx]))
      ⟨c.verts ++ [(c.edges.length, v.data)], c.edges ++ (g.edges.filter (fun e => e.src == v.id)).map (rowOf g)⟩]
    simp [starts, rowsOf, Nat.add_assoc]

theorem starts_length (vs : List (Vert α)) : ∀ n, (starts g n vs).length = vs.length := by
  induction vs with
  | nil => intro n; rfl
  | cons v vs ih => intro n; simp [starts, ih]

theorem starts_get (vs : List (Vert α)) : ∀ (n k : Nat), k < vs.length →
    (starts g n vs)[k]?.map Prod.fst = some (n + ((vs.map (fun v => (rowsOf g v).length)).take k).sum) := by
  induction vs with
  | nil => intro n k hk; simp at hk
  | cons v vs ih =>
    intro n k hk
    cases k with
    | zero => simp [starts]
    | succ k =>
      simp only [starts, List.getElem?_cons_succ]
      rw [ih _ k (by simpa using hk)]
      simp [Nat.add_assoc]

theorem starts_data (vs : List (Vert α)) : ∀ n, (starts g n vs).map Prod.snd = vs.map Vert.data := by
  induction vs with
  | nil => intro n; rfl
  | cons v vs ih => intro n; simp [starts, ih]

/-- Reading the rows back. -/
theorem outEdges_built (vs : List (Vert α)) (k : Nat) (v : Vert α) (hk : vs[k]? = some v) :
    (⟨starts g 0 vs, (vs.map (rowsOf g)).flatten⟩ : Csr α β).outEdges k = .ok (rowsOf g v) := by
  obtain ⟨hlt, hv⟩ := List.getElem?_eq_some_iff.1 hk
  have hs := starts_get (g := g) vs 0 k hlt
  simp only [Nat.zero_add] at hs
  obtain ⟨x, hx1, hx2⟩ := Option.map_eq_some_iff.1 hs
  have hmm : vs.map (fun v => (rowsOf g v).length) = (vs.map (rowsOf g)).map List.length := by simp
  rw [hmm] at hx2
  have hstop : (⟨starts g 0 vs, (vs.map (rowsOf g)).flatten⟩ : Csr α β).stopOf k =
      (((vs.map (rowsOf g)).map List.length).take (k + 1)).sum := by
    unfold Csr.stopOf
    simp only
    by_cases hk1 : k + 1 < vs.length
    · have hs' := starts_get (g := g) vs 0 (k + 1) hk1
      simp only [Nat.zero_add] at hs'
      obtain ⟨y, hy1, hy2⟩ := Option.map_eq_some_iff.1 hs'
      rw [hy1, ← hmm]
      exact hy2
    · have : (starts g 0 vs)[k + 1]? = none := by
        rw [List.getElem?_eq_none_iff, starts_length]; omega
      rw [this]
      simp only [List.length_flatten]
      rw [List.take_of_length_le]
      simp; omega
  unfold Csr.outEdges
  simp only [hx1]
  rw [hstop, hx2, subview]
  have hle : ∀ (l : List Nat) (j : Nat), (l.take j).sum ≤ l.sum := by
    intro l j
    conv_rhs => rw [← List.take_append_drop j l]
    rw [List.sum_append]; omega
  have hmono : ∀ (l : List Nat) (j : Nat), (l.take j).sum ≤ (l.take (j + 1)).sum := by
    intro l j
    have := hle (l.take (j + 1)) j
    rwa [List.take_take, Nat.min_eq_left (Nat.le_succ j)] at this
  rw [if_neg, List.drop_take_succ_flatten_eq_getElem _ k (by simpa using hlt)]
  · simp [hv]
  · simp only [List.length_flatten, not_or, not_lt]
    exact ⟨hle _ _, hle _ _, hmono _ _⟩

end MM.Csr
