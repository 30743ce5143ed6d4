import Verif.Model.AdjList
import Mathlib.Data.List.Nodup
import Mathlib.Data.List.Count

/-! # Specification: coherence of a mutable graph -/

set_option autoImplicit false

namespace MM.AdjList

variable {α β : Type}

/-- What a user sees of a coherent graph. -/
structure Coherent (d : Dir) (g : Graph α β) : Prop where
  /-- no vertex and no edge is stored twice -/
  verts_nodup : (g.verts.map Vert.id).Nodup
  edges_nodup : (g.edges.map Edge.id).Nodup
  /-- end points of stored edges are stored vertices -/
  ends : ∀ e ∈ g.edges, (∃ v ∈ g.verts, v.id = e.src) ∧ (∃ v ∈ g.verts, v.id = e.tgt)
  /-- every stored edge is listed exactly once at its source -/
  out_once : ∀ e ∈ g.edges, (g.out e.src).count e.id = 1
  /-- and, undirected, exactly once at its target -/
  out_tgt_once : d.isUndirected = true → ∀ e ∈ g.edges, (g.out e.tgt).count e.id = 1
  /-- bidirectional: exactly once among the in edges of its target -/
  in_once : d.isBidirectional = true → ∀ e ∈ g.edges, (g.inn e.tgt).count e.id = 1
  /-- every listed out edge is a stored edge of that vertex -/
  out_stored : ∀ v i, i ∈ g.out v →
    ∃ e ∈ g.edges, e.id = i ∧ (e.src = v ∨ (d.isUndirected = true ∧ e.tgt = v))
  /-- every listed in edge is a stored edge into that vertex -/
  in_stored : ∀ v i, i ∈ g.inn v → ∃ e ∈ g.edges, e.id = i ∧ e.tgt = v ∧ d.isBidirectional = true

/-- The abstract content of a graph: its vertices and its edges (identity, source, target, data), in order of
insertion. -/
structure Abs (α β : Type) where
  vs : List (Nat × α)
  es : List (Nat × Nat × Nat × β)

/-- The content a user sees through `vertices()` and `edges()`. -/
def content (g : Graph α β) : Abs α β :=
  ⟨g.verts.map (fun v => (v.id, v.data)), g.edges.map (fun e => (e.id, e.src, e.tgt, e.data))⟩

/-- The operations on a graph; insertions carry the memory failures they meet. -/
inductive Op (α β : Type) where
  | addVertex (f : Fault) (a : α)
  | addEdge (f : Faults) (s t : Nat) (b : β)
  | removeEdge (i : Nat)
  | removeEdges (s t : Nat)
  | clearVertex (v : Nat)
  | removeVertex (v : Nat)
  | reindex

/-- Execution of an operation on the model; the flag tells whether an insertion threw. -/
def Op.exec (d : Dir) (g : Graph α β) : Op α β → Outcome (Bool × Graph α β)
  | .addVertex f a => .ok ((MM.AdjList.addVertex f g a).threw, (MM.AdjList.addVertex f g a).graph)
  | .addEdge f s t b => (MM.AdjList.addEdge d f g s t b).map (fun r => (r.threw, r.graph))
  | .removeEdge i => (MM.AdjList.removeEdge d g i).map (fun g' => (false, g'))
  | .removeEdges s t => (MM.AdjList.removeEdges d g s t).map (fun g' => (false, g'))
  | .clearVertex v => (MM.AdjList.clearVertex d g v).map (fun g' => (false, g'))
  | .removeVertex v => (MM.AdjList.removeVertex g v).map (fun g' => (false, g'))
  | .reindex => .ok (false, MM.AdjList.reindex g)

/-- `v` is a vertex of the content. -/
def Abs.isV (A : Abs α β) (v : Nat) : Prop := ∃ a, (v, a) ∈ A.vs

/-- `i` is an edge of the content. -/
def Abs.isE (A : Abs α β) (i : Nat) : Prop := ∃ s t b, (i, s, t, b) ∈ A.es

/-- Obligations of the caller: descriptors are live and a removed vertex has no edges left. -/
def Abs.legal (A : Abs α β) : Op α β → Prop
  | .addVertex _ _ => True
  | .addEdge _ s t _ => A.isV s ∧ A.isV t
  | .removeEdge i => A.isE i
  | .removeEdges s t => A.isV s ∧ A.isV t
  | .clearVertex v => A.isV v
  | .removeVertex v => A.isV v ∧ ∀ i s t b, (i, s, t, b) ∈ A.es → s ≠ v ∧ t ≠ v
  | .reindex => True

/-- What each operation is to do to the content; `new` identifies the inserted element, `threw` tells whether the
insertion failed. -/
def Abs.after (A : Abs α β) (new : Nat) (threw : Bool) : Op α β → Abs α β
  | .addVertex _ a => if threw then A else { A with vs := A.vs ++ [(new, a)] }
  | .addEdge _ s t b => if threw then A else { A with es := A.es ++ [(new, s, t, b)] }
  | .removeEdge i => { A with es := A.es.filter (fun e => !(e.1 == i)) }
  | .removeEdges s t => { A with es := A.es.filter (fun e => !(e.2.1 == s && e.2.2.1 == t)) }
  | .clearVertex v => { A with es := A.es.filter (fun e => !(e.2.1 == v || e.2.2.1 == v)) }
  | .removeVertex v => { A with vs := A.vs.filter (fun x => !(x.1 == v)) }
  | .reindex => A

/-- `History d g A`: some sequence of legal operations on a new graph has led to `g`, and should have led to the
content `A`. -/
inductive History (d : Dir) : Graph α β → Abs α β → Prop
  | start : History d empty ⟨[], []⟩
  | step {g g' A} (op : Op α β) (threw : Bool) : History d g A → A.legal op → op.exec d g = .ok (threw, g') →
      History d g' (A.after g.next threw op)

end MM.AdjList
