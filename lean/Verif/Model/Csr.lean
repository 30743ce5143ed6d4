import Verif.Model.AdjList

/-!
# The compressed graph (`compressed_sparse_row`)

Model of `src/library/include/graph/compressed_sparse_row.hpp` (vector containers, descriptors are positions) and of
the sub view it uses.  The asserts of the conversion are not modelled (they are compiled out in release builds).
-/

set_option autoImplicit false

namespace MM.Csr

open MM.AdjList

/-- compressed_sparse_row.hpp 76-122 `edge`: positions of source and target, data. -/
structure Row (β : Type) where
  src : Nat
  tgt : Nat
  data : β
  deriving DecidableEq, Repr

/-- compressed_sparse_row.hpp 162-206, 497-498 `vertices` (start of the out edges and data) and `edges`. -/
structure Csr (α β : Type) where
  verts : List (Nat × α)
  edges : List (Row β)
  deriving DecidableEq, Repr

variable {α β : Type}

/-- A default constructed compressed graph (compressed_sparse_row.hpp 497-498). -/
def Csr.empty : Csr α β := ⟨[], []⟩

/-- adjacency_list.hpp 928 `vertex_index` of a descriptor: the stored index; none for a dead descriptor. -/
def indexOf (g : Graph α β) (v : Nat) : Option Nat := (g.verts.find? (fun x => x.id == v)).map Vert.index

/-- compressed_sparse_row.hpp 324-349: one out edge of the vertex with index `vi`.  The second component is
`edge_desc`. -/
def convEdge (d : Dir) (g : Graph α β) (vi : Nat) (st : Csr α β × Nat) (i : Nat) : Outcome (Csr α β × Nat) :=
  match g.getE i with
  | none => .ub
  | some e =>
    match indexOf g e.src, indexOf g e.tgt with
    | some si, some ti =>
      if d.isUndirected && (si != vi && ti == vi) then .ok st
      else .ok ({ st.1 with edges := st.1.edges ++ [⟨si, ti, e.data⟩] }, st.1.edges.length + 1)
    | _, _ => .ub

/-- compressed_sparse_row.hpp 324-349: the loop over the out edges. -/
def convEdges (d : Dir) (g : Graph α β) (vi : Nat) : List Nat → Csr α β × Nat → Outcome (Csr α β × Nat)
  | [], st => .ok st
  | i :: is, st => (convEdge d g vi st i).bind (convEdges d g vi is)

/-- compressed_sparse_row.hpp 312-350: loop over the vertices; `_add_vertex` (356-366) stores `edge_desc` as start. -/
def convVerts (d : Dir) (g : Graph α β) : List (Vert α) → Csr α β × Nat → Outcome (Csr α β × Nat)
  | [], st => .ok st
  | v :: vs, st =>
    (convEdges d g v.index (g.out v.id) ({ st.1 with verts := st.1.verts ++ [(st.2, v.data)] }, st.2)).bind
      (convVerts d g vs)

/-- compressed_sparse_row.hpp 297-354 `from_adjacency_list` on a compressed graph with content `c` (nothing clears
it). -/
def fromAdjList (d : Dir) (g : Graph α β) (c : Csr α β) : Outcome (Csr α β) :=
  (convVerts d g g.verts (c, 0)).map Prod.fst

/-- container_subview.hpp 41-48: the constructor throws for an invalid range; content of the sub view. -/
def subview {γ : Type} (l : List γ) (start stop : Nat) : Outcome (List γ) :=
  if l.length < start ∨ l.length < stop ∨ stop < start then .throws else .ok ((l.take stop).drop start)

/-- compressed_sparse_row.hpp 450-457 `_out_edges_start_end`: the end is the start of the next vertex, or the number
of edges. -/
def Csr.stopOf (c : Csr α β) (v : Nat) : Nat :=
  match c.verts[v + 1]? with
  | some x => x.1
  | none => c.edges.length

/-- compressed_sparse_row.hpp 439-448 `out_edges_view`; reading a vertex out of range is undefined behaviour. -/
def Csr.outEdges (c : Csr α β) (v : Nat) : Outcome (List (Row β)) :=
  match c.verts[v]? with
  | none => .ub
  | some x => subview c.edges x.1 (c.stopOf v)

/-- compressed_sparse_row.hpp 477-479 `out_degree`. -/
def Csr.outDegree (c : Csr α β) (v : Nat) : Outcome Nat := (c.outEdges v).map List.length

end MM.Csr
