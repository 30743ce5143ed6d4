import Verif.Model.AdjList

/-! # Copies of mutable graphs

Model of the constructors and assignments of graph/adjacency_list.hpp (605-701) with lists as containers.  Descriptors are iterators: those of
the copy have nothing to do with those of the original.  Memory suffices; the assertions (663, 669, 688, 692) are not compiled. -/

set_option autoImplicit false

namespace MM.AdjList

variable {α β : Type}

/-- adjacency_list.hpp 922-930 `vertex_index`: through the descriptor, `none` if there is no such vertex. -/
def Graph.vertexIndex (g : Graph α β) (v : Nat) : Option Nat := (g.verts.find? (fun x => x.id == v)).map Vert.index

/-- adjacency_list.hpp 646-648: the map from indexes to vertices of the copy gets the size it needs; nothing happens if it is larger. -/
def sizedMap (n : Nat) (map : List (Option Nat)) : List (Option Nat) := if n > map.length then List.replicate n none else map

/-- adjacency_list.hpp 650-666: one vertex.  The index is the one that the new vertex got. -/
def copyVertex (st : Graph α β × List (Option Nat)) (x : Vert α) : Outcome (Graph α β × List (Option Nat)) :=
  if st.1.verts.length < st.2.length then
    .ok ((addVertex .none st.1 x.data).graph, st.2.set st.1.verts.length (some st.1.next))
  else .ub

/-- adjacency_list.hpp 650-666. -/
def copyVertices : List (Vert α) → Graph α β × List (Option Nat) → Outcome (Graph α β × List (Option Nat))
  | [], st => .ok st
  | x :: xs, st => (copyVertex st x).bind (copyVertices xs)

/-- adjacency_list.hpp 675-683: one edge; its ends are found by the indexes that the vertices have in the original. -/
def copyEdge (d : Dir) (other : Graph α β) (map : List (Option Nat)) (g : Graph α β) (e : Edge β) : Outcome (Graph α β) :=
  match other.vertexIndex e.src, other.vertexIndex e.tgt with
  | some si, some ti =>
    match (map[si]?).join, (map[ti]?).join with
    | some s, some t => (addEdge d {} g s t e.data).map Res.graph
    | _, _ => .ub
  | _, _ => .ub

/-- adjacency_list.hpp 671-690. -/
def copyEdges (d : Dir) (other : Graph α β) (map : List (Option Nat)) : List (Edge β) → Graph α β → Outcome (Graph α β)
  | [], g => .ok g
  | e :: es, g => (copyEdge d other map g e).bind (copyEdges d other map es)

/-- adjacency_list.hpp 639-693 `copy_from` with a map of the caller: the graph afterwards and the map. -/
def copyFrom (d : Dir) (other g : Graph α β) (map : List (Option Nat)) : Outcome (Graph α β × List (Option Nat)) :=
  (copyVertices other.verts (g, sizedMap other.verts.length map)).bind fun st =>
    (copyEdges d other st.2 other.edges st.1).map fun g' => (g', st.2)

/-- adjacency_list.hpp 611-619, 695-701: copy constructors. -/
def copyGraph (d : Dir) (other : Graph α β) : Outcome (Graph α β) :=
  (copyFrom d other empty (List.replicate other.verts.length none)).map Prod.fst

/-- adjacency_list.hpp 626-633: copy assignment, `self` tells whether it is the same object. -/
def assignCopy (d : Dir) (self : Bool) (g other : Graph α β) : Outcome (Graph α β) :=
  if self then .ok g else copyGraph d other

/-- The elements of a list are moved one by one to other nodes (the container with an allocator that differs): new descriptors from
`n` on (adjacency_list.hpp 624). -/
def movedVerts (n : Nat) (l : List (Vert α)) : List (Vert α) := l.mapIdx fun i x => { x with id := n + i }

/-- The same for edges; the descriptors in them stay (adjacency_list.hpp 624). -/
def movedEdges (n : Nat) (l : List (Edge β)) : List (Edge β) := l.mapIdx fun i e => { e with id := n + i }

/-- adjacency_list.hpp 621-624, 635: move.  With the same allocator the nodes of the lists are taken over, otherwise each element is moved
to a new node; the lists of edges in the `i`-th vertex come with it. -/
def moveGraph (sameAllocator : Bool) (g : Graph α β) : Graph α β :=
  if sameAllocator then g
  else
    { verts := movedVerts g.next g.verts
      edges := movedEdges (g.next + g.verts.length) g.edges
      out := fun v => ((g.verts[v - g.next]?).map fun x => g.out x.id).getD []
      inn := fun v => ((g.verts[v - g.next]?).map fun x => g.inn x.id).getD []
      next := g.next + g.verts.length + g.edges.length }

end MM.AdjList
