import Verif.Model.Outcome
import Mathlib.Logic.Function.Basic

/-!
# The mutable graph (`adjacency_list`)

Model of `src/library/include/graph/adjacency_list.hpp` for list containers (the containers that allow removal), all
three directions.  Descriptors are list iterators; the model gives every vertex and edge ever created a fresh number
(its address), so descriptors stay valid while the element lives, as list iterators do.  Using a descriptor of a
removed vertex or edge is undefined behaviour.
-/

set_option autoImplicit false

namespace MM.AdjList

/-- graph/common.hpp 21-25.  `bidirectional` derives from `directional`. -/
inductive Dir where
  | undirected | directional | bidirectional
  deriving DecidableEq, Repr

/-- adjacency_list.hpp 61-71 `is_undirected_v`, `is_directional_v`, `is_bidirectional_v`. -/
def Dir.isUndirected : Dir → Bool
  | .undirected => true
  | _ => false

/-- adjacency_list.hpp 64-66. -/
def Dir.isDirectional : Dir → Bool
  | .directional | .bidirectional => true
  | .undirected => false

/-- adjacency_list.hpp 68-70. -/
def Dir.isBidirectional : Dir → Bool
  | .bidirectional => true
  | _ => false

/-- adjacency_list.hpp 259-411 `vertex` without its incidence lists (kept in `Graph.out`, `Graph.inn`). -/
structure Vert (α : Type) where
  id : Nat
  index : Nat
  data : α
  deriving DecidableEq, Repr

/-- adjacency_list.hpp 104-236 `base_index_edge` and `edge`. -/
structure Edge (β : Type) where
  id : Nat
  index : Nat
  src : Nat
  tgt : Nat
  data : β
  deriving DecidableEq, Repr

/-- adjacency_list.hpp 1218-1219 `vertices`, `edges`, and per vertex 269 `out_edges`, 466 `in_edges`; `next` numbers the next
allocation. -/
structure Graph (α β : Type) where
  verts : List (Vert α)
  edges : List (Edge β)
  out : Nat → List Nat
  inn : Nat → List Nat
  next : Nat

variable {α β : Type}

/-- adjacency_list.hpp 605-606: default construction. -/
def empty : Graph α β := ⟨[], [], fun _ => [], fun _ => [], 0⟩

/-- The descriptor refers to a live vertex (descriptors are iterators of the list, adjacency_list.hpp 1218). -/
def Graph.hasV (g : Graph α β) (v : Nat) : Bool := g.verts.any (fun x => x.id == v)

/-- The descriptor refers to a live edge; the edge (adjacency_list.hpp 852-861 `get_edge`). -/
def Graph.getE (g : Graph α β) (i : Nat) : Option (Edge β) := g.edges.find? (fun e => e.id == i)

/-- How an `emplace_back` inside `try_add` (adjacency_list.hpp 941-965) behaves: succeeds, throws leaving the container unchanged, or throws after
the element was appended. -/
inductive Fault where
  | none | clean | dirty
  deriving DecidableEq, Repr

/-- adjacency_list.hpp 941-965 `try_add` on one container: new content and whether it threw.  After a throw elements
beyond the old size are popped (line 952-954). -/
def tryAdd {γ : Type} (f : Fault) (c : List γ) (x : γ) : List γ × Bool :=
  match f with
  | .none => (c ++ [x], false)
  | .clean => (c, true)
  | .dirty => ((c ++ [x]).take c.length, true)

/-- adjacency_list.hpp 757-763 `edges_tidy`: pop the last edge if it is the one being added. -/
def edgesTidy (i : Nat) (g : Graph α β) : Graph α β :=
  match g.edges.getLast? with
  | some e => if e.id = i then { g with edges := g.edges.dropLast } else g
  | none => g

/-- adjacency_list.hpp 769-775 `source_out_edges_tidy`: pop the source's last out edge if it is the one being added,
then `edges_tidy`. -/
def sourceTidy (s i : Nat) (g : Graph α β) : Graph α β :=
  if (g.out s).getLast? = some i then edgesTidy i { g with out := Function.update g.out s (g.out s).dropLast }
  else edgesTidy i g

/-- The four places where adding an edge can run out of memory: `edges`, source out list, target out list, target in
list (adjacency_list.hpp 755, 766, 781, 797). -/
structure Faults where
  edges : Fault := .none
  srcOut : Fault := .none
  tgtOut : Fault := .none
  tgtIn : Fault := .none
  deriving DecidableEq, Repr

/-- Outcome of an insertion (adjacency_list.hpp 703-813): the flag tells whether it threw, the graph is the state afterwards. -/
structure Res (α β : Type) where
  threw : Bool
  graph : Graph α β

/-- adjacency_list.hpp 703-729 `add_vertex`, list container: the index is the current number of vertices. -/
def addVertex (f : Fault) (g : Graph α β) (a : α) : Res α β :=
  match tryAdd f g.verts ⟨g.next, g.verts.length, a⟩ with
  | (vs, true) => ⟨true, { g with verts := vs }⟩
  | (vs, false) => ⟨false, { g with verts := vs, next := g.next + 1 }⟩

/-- adjacency_list.hpp 777-783: undirected, the edge is also listed at the target unless it is a self loop. -/
def addTgtOut (f : Fault) (s t i : Nat) (g : Graph α β) : Res α β :=
  if s = t then ⟨false, g⟩
  else match tryAdd f (g.out t) i with
    | (l, true) => ⟨true, sourceTidy s i { g with out := Function.update g.out t l }⟩
    | (l, false) => ⟨false, { g with out := Function.update g.out t l }⟩

/-- adjacency_list.hpp 785-799: bidirectional, the edge is listed among the target's in edges. -/
def addTgtIn (f : Fault) (s t i : Nat) (g : Graph α β) : Res α β :=
  match tryAdd f (g.inn t) i with
  | (l, true) => ⟨true, sourceTidy s i { g with inn := Function.update g.inn t l }⟩
  | (l, false) => ⟨false, { g with inn := Function.update g.inn t l }⟩

/-- adjacency_list.hpp 731-807 `add_edge` / `_add_edge` between live vertices. -/
def addEdgeAux (d : Dir) (f : Faults) (g : Graph α β) (s t : Nat) (b : β) : Res α β :=
  match tryAdd f.edges g.edges ⟨g.next, g.edges.length, s, t, b⟩ with
  | (es, true) => ⟨true, { g with edges := es }⟩
  | (es, false) =>
    match tryAdd f.srcOut (g.out s) g.next with
    | (l, true) => ⟨true, edgesTidy g.next { g with edges := es, out := Function.update g.out s l }⟩
    | (l, false) =>
      match d with
      | .directional => ⟨false, { g with edges := es, out := Function.update g.out s l, next := g.next + 1 }⟩
      | .undirected =>
        match addTgtOut f.tgtOut s t g.next { g with edges := es, out := Function.update g.out s l } with
        | ⟨true, g'⟩ => ⟨true, g'⟩
        | ⟨false, g'⟩ => ⟨false, { g' with next := g.next + 1 }⟩
      | .bidirectional =>
        match addTgtIn f.tgtIn s t g.next { g with edges := es, out := Function.update g.out s l } with
        | ⟨true, g'⟩ => ⟨true, g'⟩
        | ⟨false, g'⟩ => ⟨false, { g' with next := g.next + 1 }⟩

/-- adjacency_list.hpp 731-807 with descriptors: dead end points are undefined behaviour. -/
def addEdge (d : Dir) (f : Faults) (g : Graph α β) (s t : Nat) (b : β) : Outcome (Res α β) :=
  if g.hasV s && g.hasV t then .ok (addEdgeAux d f g s t b) else .ub

/-- adjacency_list.hpp 967-984 `reindex`. -/
def reindex (g : Graph α β) : Graph α β :=
  { g with verts := g.verts.mapIdx (fun i v => { v with index := i })
           edges := g.edges.mapIdx (fun i e => { e with index := i }) }

/-- adjacency_list.hpp 1011-1018 `remove_vertex`: throws if the vertex still has out edges. -/
def removeVertex (g : Graph α β) (v : Nat) : Outcome (Graph α β) :=
  if g.hasV v then
    if g.out v = [] then
      .ok { g with verts := g.verts.filter (fun x => x.id != v), inn := Function.update g.inn v [] }
    else .throws
  else .ub

/-- adjacency_list.hpp 1168-1181 `out_remove_if`. -/
def outRemoveIf (g : Graph α β) (v : Nat) (p : Nat → Bool) : Graph α β :=
  { g with out := Function.update g.out v ((g.out v).filter (fun i => !p i)) }

/-- adjacency_list.hpp 1191-1203 `in_remove_if`. -/
def inRemoveIf (g : Graph α β) (v : Nat) (p : Nat → Bool) : Graph α β :=
  { g with inn := Function.update g.inn v ((g.inn v).filter (fun i => !p i)) }

/-- adjacency_list.hpp 1031-1054: body of the loop over the out edges of the vertex `v` to be cleared.  The
predicates there compare the edge itself (`is_same_edge`) and one of its end points; the end point test is evaluated
on the edge `e`. -/
def clearOne (d : Dir) (v : Nat) (g : Graph α β) (e : Edge β) : Graph α β :=
  if e.src = e.tgt then g
  else
    outRemoveIf
      (if d.isBidirectional then
        inRemoveIf
          (if d.isUndirected && (e.tgt == v) then outRemoveIf g e.src (fun i => e.tgt == v && i == e.id) else g)
          e.tgt (fun i => e.src == v && i == e.id)
       else (if d.isUndirected && (e.tgt == v) then outRemoveIf g e.src (fun i => e.tgt == v && i == e.id) else g))
      e.tgt (fun i => e.src == v && i == e.id)

/-- Target of a live edge, by descriptor (adjacency_list.hpp 888-891). -/
def Graph.tgtOf (g : Graph α β) (i : Nat) : Option Nat := (g.getE i).map Edge.tgt

/-- adjacency_list.hpp 1063-1075: directional graphs, scan of all vertices for edges into `v`. -/
def clearScan (d : Dir) (v : Nat) (g : Graph α β) : Graph α β :=
  if d.isDirectional then
    g.verts.foldl (fun h x => outRemoveIf h x.id (fun i => g.tgtOf i == some v)) g
  else g

/-- Edges collected for deletion by that scan (line 1069), in scan order (adjacency_list.hpp 1069). -/
def scanDeleted (d : Dir) (v : Nat) (g : Graph α β) : List Nat :=
  if d.isDirectional then g.verts.flatMap (fun x => (g.out x.id).filter (fun i => g.tgtOf i == some v)) else []

/-- adjacency_list.hpp 1056-1060: own lists are emptied (`in_edges` only when bidirectional). -/
def clearOwn (d : Dir) (v : Nat) (g : Graph α β) : Graph α β :=
  { g with out := Function.update g.out v []
           inn := if d.isBidirectional then Function.update g.inn v [] else g.inn }

/-- adjacency_list.hpp 1020-1081 `clear_vertex`. -/
def clearVertex (d : Dir) (g : Graph α β) (v : Nat) : Outcome (Graph α β) :=
  if g.hasV v then
    match (g.out v).mapM g.getE with
    | none => .ub
    | some es =>
      .ok { clearScan d v (clearOwn d v (es.foldl (clearOne d v) g)) with
            edges := g.edges.filter (fun e => !((g.out v ++
              scanDeleted d v (clearOwn d v (es.foldl (clearOne d v) g))).contains e.id)) }
  else .ub

/-- adjacency_list.hpp 1096-1117: treatment of one matching out edge in `remove_edge(source, target)`, and lines
1141-1154 of `remove_edge(edge)`: it is unlisted at its target. -/
def unlistTarget (d : Dir) (g : Graph α β) (e : Edge β) : Graph α β :=
  if d.isUndirected && (e.src != e.tgt) then
    outRemoveIf (if d.isBidirectional then inRemoveIf g e.tgt (fun i => i == e.id) else g) e.tgt (fun i => i == e.id)
  else (if d.isBidirectional then inRemoveIf g e.tgt (fun i => i == e.id) else g)

/-- adjacency_list.hpp 1083-1126 `remove_edge(source, target)`: removes every edge stored from `s` to `t`. -/
def removeEdges (d : Dir) (g : Graph α β) (s t : Nat) : Outcome (Graph α β) :=
  if g.hasV s && g.hasV t then
    match (g.out s).mapM g.getE with
    | none => .ub
    | some es =>
      .ok { outRemoveIf ((es.filter (fun e => e.src == s && e.tgt == t)).foldl (unlistTarget d) g) s
              (fun i => ((es.filter (fun e => e.src == s && e.tgt == t)).map Edge.id).contains i) with
            edges := g.edges.filter
              (fun e => !(((es.filter (fun e => e.src == s && e.tgt == t)).map Edge.id).contains e.id)) }
  else .ub

/-- adjacency_list.hpp 1128-1166 `remove_edge(edge)`: nothing happens if the edge is not found at its source. -/
def removeEdge (d : Dir) (g : Graph α β) (i : Nat) : Outcome (Graph α β) :=
  match g.getE i with
  | none => .ub
  | some e =>
    if (g.out e.src).contains i then
      .ok { unlistTarget d g e with
            out := Function.update (unlistTarget d g e).out e.src (((unlistTarget d g e).out e.src).erase i)
            edges := g.edges.filter (fun e' => e'.id != i) }
    else .ok g

end MM.AdjList
