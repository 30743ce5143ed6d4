import Verif.Model.Outcome
import Verif.Model.Traversal
import Mathlib.Algebra.Order.Monoid.Defs

/-!
# Preparing a network: simplification, components, duplicates

Model of `src/library/include/geometry/network/network_import.hpp`.  The graph is bidirectional with list containers;
by C06 its incidence lists are determined by the edges, so a network is a list of vertices and a list of edges here.
Indices (`reindex`) and tags are left out; tags are looked up by the id of an edge, so that equal ids have equal tags.
-/

set_option autoImplicit false

namespace MM.Net

/-- geometry/network/edge.hpp 30-35 with its place in the graph; `eid` is the descriptor, `name` the id. -/
structure NEdge (P : Type) where
  eid : Nat
  name : Nat
  src : Nat
  tgt : Nat
  line : List P
deriving DecidableEq

/-- The graph of the network (adjacency_list.hpp 1218-1219); `next` is the next new descriptor. -/
structure Net (P : Type) where
  verts : List Nat
  edges : List (NEdge P)
  next : Nat
deriving DecidableEq

variable {P : Type} [DecidableEq P]

/-- adjacency_list.hpp 877-881 `in_edges_view`. -/
def Net.ins (g : Net P) (v : Nat) : List (NEdge P) := g.edges.filter (fun e => decide (e.tgt = v))

/-- adjacency_list.hpp 868-871 `out_edges_view`. -/
def Net.outs (g : Net P) (v : Nat) : List (NEdge P) := g.edges.filter (fun e => decide (e.src = v))

/-- geometry/algorithm/reverse.hpp 23-52 `lines_are_reversed`. -/
def reversed (a b : List P) : Bool := !a.isEmpty && decide (a = b.reverse)

/-- rich_line.hpp 572-587 and 492-514: merging two lines, the common point once. -/
def mergeLines (a b : List P) : Outcome (List P) :=
  if b = [] then .ok a
  else if a = [] then .ok b
  else if a.getLast? = b.head? then .ok (a ++ b.tail) else .throws

/-! ### Simplification -/

/-- network_import.hpp 328-352: an out edge that runs back along the in edge `i` and is not matched yet. -/
def addPair (i : NEdge P) (pairs : List (NEdge P × NEdge P)) (o : NEdge P) : List (NEdge P × NEdge P) :=
  if o.eid = i.eid then pairs
  else if i.tgt = o.src ∧ i.src = o.tgt then
    if pairs.any (fun p => decide (p.2.eid = o.eid)) then pairs
    else if reversed i.line o.line then pairs ++ [(i, o)] else pairs
  else pairs

/-- network_import.hpp 322-366: matching all in edges; `none` if one has no match. -/
def matchIns (os : List (NEdge P)) : List (NEdge P) → List (NEdge P × NEdge P) → Option (List (NEdge P × NEdge P))
  | [], pairs => some pairs
  | i :: is, pairs =>
    if (os.foldl (addPair i) pairs).any (fun p => decide (p.1.eid = i.eid)) then
      matchIns os is (os.foldl (addPair i) pairs)
    else none

/-- network_import.hpp 299-388 `_is_mergeable`. -/
def isMergeable (g : Net P) (v : Nat) : Bool :=
  if (g.ins v).length = 1 ∧ (g.outs v).length = 1 then true
  else if ((g.outs v).length + (g.ins v).length = 2 ∨ (g.outs v).length + (g.ins v).length = 4) ∧
      (g.ins v).length = (g.outs v).length then
    match matchIns (g.outs v) (g.ins v) [] with
    | none => false
    | some pairs =>
      (g.outs v).all (fun o => pairs.any (fun p => decide (p.2.eid = o.eid))) &&
        decide (2 * pairs.length = (g.outs v).length + (g.ins v).length)
  else false

/-- network_import.hpp 404-437: one pair of an in and an out edge. -/
def addMerge (complete : Bool) (acc : List (NEdge P × NEdge P)) (p : NEdge P × NEdge P) : List (NEdge P × NEdge P) :=
  if p.1.eid = p.2.eid then acc
  else if p.1.tgt = p.2.src ∧ p.1.src ≠ p.2.tgt then
    if complete || decide (p.1.name = p.2.name) then
      if acc.any (fun q => decide (q.1.eid = p.1.eid) || decide (q.2.eid = p.2.eid)) then acc else acc ++ [p]
    else acc
  else acc

/-- network_import.hpp 390-441 `_populate_merges`. -/
def merges (complete : Bool) (g : Net P) (v : Nat) : List (NEdge P × NEdge P) :=
  ((g.ins v).flatMap (fun i => (g.outs v).map (fun o => (i, o)))).foldl (addMerge complete) []

/-- network_import.hpp 272-297: `remove_edge` of both and `add_edge` of the new one. -/
def replaced (g : Net P) (p : NEdge P × NEdge P) (line : List P) : List (NEdge P) :=
  g.edges.filter (fun e => decide (e.eid ≠ p.1.eid ∧ e.eid ≠ p.2.eid)) ++
    [⟨g.next, if p.1.line = [] then p.2.name else p.1.name, p.1.src, p.2.tgt, line⟩]

/-- network_import.hpp 291-296: the vertex is removed when it has no edges left (`degree`). -/
def dropIsolated (edges : List (NEdge P)) (v : Nat) (verts : List Nat) : List Nat :=
  if edges.all (fun e => decide (e.src ≠ v ∧ e.tgt ≠ v)) then verts.filter (fun x => decide (x ≠ v)) else verts

/-- 272-297 `_merge`; merging the lines throws if they do not meet (edge.hpp 72-79). -/
def mergeOne (g : Net P) (p : NEdge P × NEdge P) : Outcome (Net P) :=
  (mergeLines p.1.line p.2.line).map fun line =>
    ⟨dropIsolated (replaced g p line) p.1.tgt g.verts, replaced g p line, g.next + 1⟩

/-- network_import.hpp 93-95: all merges of a vertex. -/
def mergeAll : Net P → List (NEdge P × NEdge P) → Outcome (Net P)
  | g, [] => .ok g
  | g, p :: ps => (mergeOne g p).bind (fun g' => mergeAll g' ps)

/-- network_import.hpp 86-99: one vertex. -/
def simplifyVertex (complete : Bool) (g : Net P) (v : Nat) : Outcome (Net P) :=
  if isMergeable g v then mergeAll g (merges complete g v) else .ok g

/-- network_import.hpp 77-100: vertices in the given order.  Only the vertex at hand can be removed, so the order is the initial one. -/
def simplifyAll (complete : Bool) : Net P → List Nat → Outcome (Net P)
  | g, [] => .ok g
  | g, v :: vs => (simplifyVertex complete g v).bind (fun g' => simplifyAll complete g' vs)

/-- network_import.hpp 68-106 `simplify`. -/
def simplify (complete : Bool) (g : Net P) : Outcome (Net P) := simplifyAll complete g g.verts

/-! ### Unconnected components -/

variable {V : Type} [DecidableEq V]

/-- network_import.hpp 124-133: breadth-first searches along out edges from every vertex not visited before, sharing the visited set; `n`
bounds the iterations of a search. -/
def components (adj : V → List V) (n : Nat) : List V → List V → List (List V)
  | [], _ => []
  | v :: vs, visited =>
    if v ∈ visited then components adj n vs visited
    else match Traversal.bfs adj visited v n with
      | none => []
      | some s => s.discovered :: components adj n vs s.visited

/-- network_import.hpp 135-139: `std::max_element` by size: the first largest. -/
def largest : List (List V) → Option (List V)
  | [] => none
  | c :: cs =>
    match largest cs with
    | none => some c
    | some d => if c.length < d.length then some d else some c

/-- network_import.hpp 117-154 `remove_unconnected_components`: the vertices that are left; vertices of other components are cleared (with
all their edges) and removed.  Dereferencing the end of an empty list of components is undefined behaviour (140). -/
def removeUnconnected (adj : V → List V) (n : Nat) (verts : List V) : Outcome (List V) :=
  match largest (components adj n verts []) with
  | none => .ub
  | some kept => .ok (verts.filter (fun v => decide (v ∈ kept)))

/-! ### Duplicates -/

/-- network_import.hpp 182-195: an in edge of `v` moved to the vertex `w`. -/
def moveIn (v w : Nat) (g : Net P) (e : NEdge P) : Net P :=
  if e.tgt = v then
    { g with edges := g.edges.filter (fun x => decide (x.eid ≠ e.eid)) ++ [{ e with eid := g.next, tgt := w }],
             next := g.next + 1 }
  else g

/-- network_import.hpp 197-211: an out edge of `v` moved to the vertex `w`. -/
def moveOut (v w : Nat) (g : Net P) (e : NEdge P) : Net P :=
  if e.src = v then
    { g with edges := g.edges.filter (fun x => decide (x.eid ≠ e.eid)) ++ [{ e with eid := g.next, src := w }],
             next := g.next + 1 }
  else g

/-- network_import.hpp 178-214: the duplicate `v` is merged into `w` and removed. -/
def absorb (v w : Nat) (g : Net P) : Net P :=
  { ((((g.ins v).foldl (moveIn v w) g).outs v).foldl (moveOut v w) ((g.ins v).foldl (moveIn v w) g)) with
    verts := g.verts.filter (fun x => decide (x ≠ v)) }

/-- State of the loop (network_import.hpp 160-235): network and `node_map`. -/
structure DupSt (P : Type) where
  net : Net P
  map : List (P × Nat)

/-- network_import.hpp 216-232: simplification at the surviving vertex; its entry is erased whenever it is mergeable, merged or not. -/
def afterAbsorb (simplify complete : Bool) (w : Nat) (p : P) (st : DupSt P) : Outcome (DupSt P) :=
  if simplify && isMergeable st.net w then
    (mergeAll st.net (merges complete st.net w)).map
      (fun g => ⟨g, st.map.filter (fun x => decide (x.1 ≠ p))⟩)
  else .ok st

/-- network_import.hpp 170-235: one vertex. -/
def dupVertex (pos : Nat → P) (simplify complete : Bool) (st : DupSt P) (v : Nat) : Outcome (DupSt P) :=
  match st.map.lookup (pos v) with
  | some w => afterAbsorb simplify complete w (pos v) ⟨absorb v w st.net, st.map⟩
  | none => .ok ⟨st.net, st.map ++ [(pos v, v)]⟩

/-- network_import.hpp 169-235: the loop.  A vertex is visited if it still exists. -/
def dupLoop (pos : Nat → P) (simplify complete : Bool) : DupSt P → List Nat → Outcome (DupSt P)
  | st, [] => .ok st
  | st, v :: vs =>
    if v ∈ st.net.verts then
      (dupVertex pos simplify complete st v).bind (fun st' => dupLoop pos simplify complete st' vs)
    else dupLoop pos simplify complete st vs

/-- network_import.hpp 156-238 `remove_duplicate_nodes`. -/
def removeDuplicateNodes (pos : Nat → P) (simplify complete : Bool) (g : Net P) : Outcome (Net P) :=
  (dupLoop pos simplify complete ⟨g, []⟩ g.verts).map DupSt.net

/-- edge.hpp 144-147: equality of edges, by id and line. -/
def sameEdge (a b : NEdge P) : Bool := decide (a.name = b.name) && decide (a.line = b.line)

/-- network_import.hpp 250-261: the loop over the edges; the reference put into the set at 260 dangles if the edge was removed at 256,
and hashing it reads freed memory. -/
def dupEdges : List (NEdge P) → List (NEdge P) → Outcome (List (NEdge P))
  | [], seen => .ok seen
  | e :: es, seen => if seen.any (fun x => sameEdge x e) then .ub else dupEdges es (seen ++ [e])

/-- network_import.hpp 240-266 `remove_duplicate_edges`. -/
def removeDuplicateEdges (g : Net P) : Outcome (Net P) := (dupEdges g.edges []).map (fun es => { g with edges := es })

end MM.Net
