import Verif.Model.Outcome

/-!
# Networks in text files (io/network/{arc_node,melbourne,giscup,seattle}_importer.hpp)

The files are given as their rows, already split and converted.  `proj` is `reproject_point`.  The graph is the list of its vertices and
the list of its edges; `add_vertex_with_index_mapping` gives the index of the new vertex (graph_helper.hpp 270-361), `add_edge` adds an
edge between two indices (graph_helper.hpp 398-430).  A map is a list in which the first entry of a key counts.  Not modelled: missing files
and malformed rows (both end the import with an exception).
-/

set_option autoImplicit false

namespace MM.NetFiles

variable {P : Type}

/-- geometry/network/node.hpp 38-39. -/
structure Vert (P : Type) where
  id : Nat
  point : P
deriving DecidableEq

/-- An edge (geometry/network/edge.hpp 34-35) and the indices of its vertices. -/
structure Edge (P : Type) where
  src : Nat
  tgt : Nat
  id : Nat
  line : List P
deriving DecidableEq

/-- The graph of the graph helper (graph_helper.hpp 270-430). -/
structure Net (P : Type) where
  verts : List (Vert P)
  edges : List (Edge P)
deriving DecidableEq

/-- graph_helper.hpp 270-361, node.hpp 49-54: the point is reprojected. -/
def addVert (proj : P → P) (n : Net P) (id : Nat) (p : P) : Net P := { n with verts := n.verts ++ [⟨id, proj p⟩] }

/-- graph_helper.hpp 398-430. -/
def addEdge (n : Net P) (e : Edge P) : Net P := { n with edges := n.edges ++ [e] }

/-- `emplace` of a map: an existing entry stays (melbourne_importer.hpp 84, giscup_importer.hpp 82, 100, seattle_importer.hpp 93, 105). -/
def emplace {α : Type} (m : List (Nat × α)) (k : Nat) (v : α) : List (Nat × α) := if (m.lookup k).isSome then m else m ++ [(k, v)]

/-- melbourne_importer.hpp 107-115, arc_node_importer.hpp 97-103: the edge between the points of two vertices. -/
def joined (n : Net P) (i j id : Nat) : Outcome (Edge P) :=
  match n.verts[i]?, n.verts[j]? with
  | some a, some b => .ok ⟨i, j, id, [a.point, b.point]⟩
  | _, _ => .ub

/-! ### arc_node_importer.hpp -/

/-- A pair of files (arc_node_importer.hpp 63): points and pairs of positions. -/
structure ArcGroup (P : Type) where
  nodes : List P
  arcs : List (Nat × Nat)

/-- arc_node_importer.hpp 73-81: the graph and `_node_map`; `id` counts the rows. -/
def arcNodes (proj : P → P) : Net P → List Nat → Nat → List P → Net P × List Nat
  | n, m, _, [] => (n, m)
  | n, m, id, p :: ps => arcNodes proj (addVert proj n id p) (m ++ [n.verts.length]) (id + 1) ps

/-- arc_node_importer.hpp 90-104; `at` throws. -/
def arcEdges (m : List Nat) : Net P → Nat → List (Nat × Nat) → Outcome (Net P)
  | n, _, [] => .ok n
  | n, id, (a, b) :: as =>
    match m[a]?, m[b]? with
    | some i, some j => (joined n i j id).bind fun e => arcEdges m (addEdge n e) (id + 1) as
    | _, _ => .throws

/-- arc_node_importer.hpp 61-108 `read`; `_node_map` is cleared after each pair of files. -/
def arcRead (proj : P → P) : Net P → List (ArcGroup P) → Outcome (Net P)
  | n, [] => .ok n
  | n, g :: gs => (arcEdges (arcNodes proj n [] 0 g.nodes).2 (arcNodes proj n [] 0 g.nodes).1 0 g.arcs).bind fun n' => arcRead proj n' gs

/-! ### melbourne_importer.hpp -/

/-- melbourne_importer.hpp 74-85, giscup_importer.hpp 72-83: the graph and `_vertex_map`. -/
def readNodes (proj : P → P) : Net P → List (Nat × Nat) → List (Nat × P) → Net P × List (Nat × Nat)
  | n, m, [] => (n, m)
  | n, m, (id, p) :: ps => readNodes proj (addVert proj n id p) (emplace m id n.verts.length) ps

/-- Three files (melbourne_importer.hpp 60): nodes (identifier, point), edges (identifier, from, to); the third is not read. -/
structure MelGroup (P : Type) where
  nodes : List (Nat × P)
  edges : List (Nat × Nat × Nat)

/-- melbourne_importer.hpp 98-116. -/
def melEdges (m : List (Nat × Nat)) : Net P → List (Nat × Nat × Nat) → Outcome (Net P)
  | n, [] => .ok n
  | n, (id, f, t) :: es =>
    match m.lookup f, m.lookup t with
    | some i, some j => (joined n i j id).bind fun e => melEdges m (addEdge n e) es
    | _, _ => .throws

/-- melbourne_importer.hpp 58-128 `read`; `_vertex_map` is kept for the next files. -/
def melRead (proj : P → P) : Net P → List (Nat × Nat) → List (MelGroup P) → Outcome (Net P)
  | n, _, [] => .ok n
  | n, m, g :: gs => (melEdges (readNodes proj n m g.nodes).2 (readNodes proj n m g.nodes).1 g.edges).bind fun n' =>
      melRead proj n' (readNodes proj n m g.nodes).2 gs

/-! ### giscup_importer.hpp -/

/-- Three files (giscup_importer.hpp 60): nodes, edges, lines of the edges. -/
structure CupGroup (P : Type) where
  nodes : List (Nat × P)
  edges : List (Nat × Nat × Nat)
  lines : List (Nat × List P)

/-- giscup_importer.hpp 93-101: `_edge_map`. -/
def cupMap (m : List (Nat × (Nat × Nat))) (es : List (Nat × Nat × Nat)) : List (Nat × (Nat × Nat)) :=
  es.foldl (fun m e => emplace m e.1 e.2) m

/-- giscup_importer.hpp 111-137; the points of the line are taken as they are. -/
def cupEdges (vm : List (Nat × Nat)) (em : List (Nat × (Nat × Nat))) : Net P → List (Nat × List P) → Outcome (Net P)
  | n, [] => .ok n
  | n, (id, line) :: ls =>
    match em.lookup id with
    | some (f, t) =>
      match vm.lookup f, vm.lookup t with
      | some i, some j => cupEdges vm em (addEdge n ⟨i, j, id, line⟩) ls
      | _, _ => .throws
    | none => .throws

/-- giscup_importer.hpp 58-139 `read`; both maps are kept for the next files. -/
def cupRead (proj : P → P) : Net P → List (Nat × Nat) → List (Nat × (Nat × Nat)) → List (CupGroup P) → Outcome (Net P)
  | n, _, _, [] => .ok n
  | n, vm, em, g :: gs =>
    (cupEdges (readNodes proj n vm g.nodes).2 (cupMap em g.edges) (readNodes proj n vm g.nodes).1 g.lines).bind fun n' =>
      cupRead proj n' (readNodes proj n vm g.nodes).2 (cupMap em g.edges) gs

/-! ### seattle_importer.hpp -/

/-- A row (seattle_importer.hpp 73-84). -/
structure SeaRow (P : Type) where
  id : Nat
  from_ : Nat
  to_ : Nat
  twoWay : Bool
  line : List P

/-- seattle_importer.hpp 86-96, 98-108: the index of the vertex, which is added if the identifier is new; `front()` and `back()` of an empty
line are undefined. -/
def seaVertex (proj : P → P) (n : Net P) (m : List (Nat × Nat)) (id : Nat) (p : Option P) : Outcome (Nat × Net P × List (Nat × Nat)) :=
  match m.lookup id with
  | some i => .ok (i, n, m)
  | none =>
    match p with
    | some p => .ok (n.verts.length, addVert proj n id p, emplace m id n.verts.length)
    | none => .ub

/-- seattle_importer.hpp 110-121; the points of the line are taken as they are. -/
def seaEdges (n : Net P) (r : SeaRow P) (i j : Nat) : Net P :=
  if r.twoWay then addEdge (addEdge n ⟨i, j, r.id, r.line⟩) ⟨j, i, r.id, r.line.reverse⟩ else addEdge n ⟨i, j, r.id, r.line⟩

/-- seattle_importer.hpp 72-122. -/
def seaRows (proj : P → P) : Net P → List (Nat × Nat) → List (SeaRow P) → Outcome (Net P × List (Nat × Nat))
  | n, m, [] => .ok (n, m)
  | n, m, r :: rs => (seaVertex proj n m r.from_ r.line.head?).bind fun a =>
      (seaVertex proj a.2.1 a.2.2 r.to_ r.line.getLast?).bind fun b => seaRows proj (seaEdges b.2.1 r a.1 b.1) b.2.2 rs

/-- seattle_importer.hpp 56-124 `read`; `_vertex_map` is kept for the next file. -/
def seaRead (proj : P → P) : Net P → List (Nat × Nat) → List (List (SeaRow P)) → Outcome (Net P)
  | n, _, [] => .ok n
  | n, m, f :: fs => (seaRows proj n m f).bind fun s => seaRead proj s.1 s.2 fs

end MM.NetFiles
