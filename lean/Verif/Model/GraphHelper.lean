import Verif.Model.Outcome
import Verif.Model.AdjList
import Verif.Model.Tags

/-!
# Building a network in storage that has to grow

Model of `src/library/include/io/helper/graph_helper.hpp` 109-160, 270-475, 488-560 (the operations the readers of networks use) on top of the
mutable graph (`AdjList`) and of the growth of storage, `io/memory_mapped/storage/base_storage.hpp` 368-397, 466-500.

Every attempt takes the next element of a list telling which of its allocations fail.  Growing the storage keeps its
contents (`boost::interprocess`), the descriptors of vertices are kept in the storage too and are fetched anew in every
attempt.  Failures inside the storage of tags are the subject of `Tags` and left out here.
-/

set_option autoImplicit false

namespace MM.GHelper

open MM.AdjList

/-! ### Retries (io/memory_mapped/utils.hpp) -/

section Retry

variable {S A : Type}

/-- utils.hpp 72-87 `retry_alloc`, for attempts that can also throw something else or be undefined; `none`: `bad_alloc`. -/
def retry (attempt : S → Outcome (S × Option A)) (grow : S → S) : Nat → S → Outcome (S × Option A)
  | 0, s =>
    match attempt s with
    | .ok (t, some a) => .ok (t, some a)
    | .ok (t, none) => .ok (grow t, none)
    | .throws => .throws
    | .ub => .ub
  | r + 1, s =>
    match attempt s with
    | .ok (t, some a) => .ok (t, some a)
    | .ok (t, none) => retry attempt grow r (grow t)
    | .throws => .throws
    | .ub => .ub

end Retry

/-! ### The storage of the graph -/

/-- geometry/network/node.hpp 30-33 and edge.hpp 30-35: an id with a point or a line. -/
structure Rec (X : Type) where
  id : Nat
  val : X
  deriving DecidableEq, Repr

/-- The allocations of one attempt: the vertex (adjacency_list.hpp 726), the entry of the index (graph_helper.hpp 550) and the
places of an edge (adjacency_list.hpp 755-797). -/
structure Trouble where
  vert : Fault := .none
  index : Fault := .none
  edge : Faults := {}
  deriving DecidableEq, Repr

/-- graph_storage.hpp 353-360 with the tags of the helper (graph_helper.hpp 485-486); `pending` is not part of the program, it
tells which allocations will fail. -/
structure Store (P L : Type) where
  graph : Graph (Rec P) (Rec L)
  index : List Nat
  nodeTags : List (Nat × List Nat)
  edgeTags : List (Nat × List Nat)
  size : Nat
  pending : List Trouble

variable {P L : Type}

/-- graph_storage.hpp 205-219: a new storage. -/
def start (size : Nat) (pending : List Trouble) : Store P L := ⟨AdjList.empty, [], [], [], size, pending⟩

/-- The failures of the next attempt (utils.hpp 76). -/
def Store.now (s : Store P L) : Trouble := s.pending.headD {}

/-- The attempt is over (utils.hpp 76-84). -/
def Store.next (s : Store P L) : Store P L := { s with pending := s.pending.tail }

/-- graph_helper.hpp 512-525 `handle_bad_alloc` with base_storage.hpp 471-487 `grow`: the size is doubled, the content kept. -/
def grow (s : Store P L) : Store P L := { s with size := 2 * s.size }

/-- adjacency_list.hpp 923-930 `vertex_index`. -/
def vertexIndex (g : Graph (Rec P) (Rec L)) (v : Nat) : Outcome Nat :=
  match g.verts.find? (fun x => x.id == v) with
  | some x => .ok x.index
  | none => .ub

/-- graph_helper.hpp 537-560 `_add_to_vertex_index_map`. -/
def addToIndexMap (f : Fault) (v : Nat) (s : Store P L) : Outcome (Store P L × Option Nat) :=
  (vertexIndex s.graph v).bind fun i =>
    if s.index.length ≠ i then .throws
    else if (tryAdd f s.index v).2 then
      (removeVertex s.graph v).map (fun g => ({ s with graph := g, index := (tryAdd f s.index v).1 }, none))
    else .ok ({ s with index := (tryAdd f s.index v).1 }, some i)

/-- graph_helper.hpp 274-280, 300-306: the vertex itself, then the index; the descriptor is the new number. -/
def addVertexMapped (t : Trouble) (r : Rec P) (s : Store P L) : Outcome (Store P L × Option Nat) :=
  if (addVertex t.vert s.graph r).threw then .ok ({ s with graph := (addVertex t.vert s.graph r).graph }, none)
  else addToIndexMap t.index s.graph.next { s with graph := (addVertex t.vert s.graph r).graph }

/-- graph_helper.hpp 270-361 `add_vertex_with_index_mapping`, one attempt: tags first (without effect if there are tags
already), then the vertex. -/
def addNode (r : Rec P) (tags : List Nat) (s : Store P L) : Outcome (Store P L × Option Nat) :=
  addVertexMapped s.now r { s.next with nodeTags := Tags.setMapTags s.nodeTags r.id tags }

/-- graph_helper.hpp 363-366 `get_vertex_descriptor_for_index`. -/
def descriptor (s : Store P L) (i : Nat) : Outcome Nat :=
  match s.index[i]? with
  | some v => .ok v
  | none => .throws

/-- graph_helper.hpp 375-381, 403-409: the edge itself; the result is its position. -/
def addEdgeAt (t : Trouble) (v w : Nat) (r : Rec L) (s : Store P L) : Outcome (Store P L × Option Nat) :=
  (addEdge .bidirectional t.edge s.graph v w r).map fun res =>
    ({ s with graph := res.graph }, if res.threw then none else some s.graph.edges.length)

/-- graph_helper.hpp 368-472 `add_edge`, one attempt: the ends are looked up, then the tags, then the edge. -/
def addArc (i j : Nat) (r : Rec L) (tags : List Nat) (s : Store P L) : Outcome (Store P L × Option Nat) :=
  (descriptor s i).bind fun v => (descriptor s j).bind fun w =>
    addEdgeAt s.now v w r { s.next with edgeTags := Tags.setMapTags s.edgeTags r.id tags }

/-- A call by a reader of networks (osm_handler_helper.hpp 159-215, arc_node_importer.hpp 78, 101). -/
inductive Op (P L : Type) where
  | node (r : Rec P) (tags : List Nat)
  | arc (i j : Nat) (r : Rec L) (tags : List Nat)

/-- One attempt of a call (graph_helper.hpp 270-472). -/
def Op.attempt : Op P L → Store P L → Outcome (Store P L × Option Nat)
  | .node r tags => addNode r tags
  | .arc i j r tags => addArc i j r tags

/-- A call: with retries if the storage is memory mapped (graph_helper.hpp 282-293, 373-395). -/
def call (mapped : Bool) (op : Op P L) (s : Store P L) : Outcome (Store P L × Option Nat) :=
  if mapped then retry op.attempt grow 1 s else op.attempt s

/-- What the calls have returned so far, and whether all of them have (arc_node_importer.hpp 60-109). -/
structure Run (P L : Type) where
  store : Store P L
  results : List Nat
  complete : Bool

/-- All calls; `bad_alloc` ends the reading (arc_node_importer.hpp 60-109, no handler). -/
def run (mapped : Bool) : List (Op P L) → Store P L → List Nat → Outcome (Run P L)
  | [], s, rs => .ok ⟨s, rs, true⟩
  | op :: ops, s, rs =>
    match call mapped op s with
    | .ok (t, some r) => run mapped ops t (rs ++ [r])
    | .ok (t, none) => .ok ⟨t, rs, false⟩
    | .throws => .throws
    | .ub => .ub

/-! ### How far the storage grows -/

/-- base_storage.hpp 466-469 `max_retries` (shared memory: 368-371): `log2` of a quotient of integers, converted to an integer.  A quotient of zero has
no logarithm; the conversion of minus infinity is undefined, as is the division by zero. -/
def maxRetries (available size : Nat) : Outcome Nat :=
  if size = 0 then .ub else if available / size = 0 then .ub else .ok (Nat.log2 (available / size))

/-- base_storage.hpp 475-487 `grow(size)` and 493-499 `drop_grow(size)`: only ever larger. -/
def growTo (size target : Nat) : Nat := if target > size then target else size

/-- An operation needing `need` bytes in the whole storage (graph_helper.hpp 146-151, index_helper.hpp 122-137). -/
def fits (need size : Nat) : Outcome (Nat × Option Nat) := .ok (size, if need ≤ size then some size else none)

/-- graph_helper.hpp 137-152 and base_storage.hpp 489-499: the conversion of a graph needing `need` bytes: the storage is
enlarged to `guess` first, then doubled (and filled anew) as often as the free space allows; the result is the final size. -/
def convert (available need guess size : Nat) : Outcome (Nat × Option Nat) :=
  (maxRetries available (growTo size guess)).bind fun r => retry (fits need) (fun n => growTo n (2 * n)) r (growTo size guess)

end MM.GHelper
