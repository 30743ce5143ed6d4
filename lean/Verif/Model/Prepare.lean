import Verif.Model.Csr
import Verif.Model.NetImport
import Verif.Model.Osm
import Verif.Model.Pipeline

/-!
# From files to a network

How the parts modelled elsewhere work together when a network is prepared from OpenStreetMap files: import (`Model/Osm.lean`),
simplification and removal of components and duplicates (`Model/NetImport.lean`), conversion to the compressed graph
(`Model/Csr.lean`), and how the network is read when tracks are matched (`Model/Pipeline.lean`).  Paths are relative to
/repo/src/, those without a directory are in app/include/app/.  Not modelled: storage in files (C81), failures of the memory mapped
graph (C79), indices (C83), tags (C36).
-/

set_option autoImplicit false

namespace MM.Prepare

open MM.Net

variable {P : Type} [DecidableEq P]

/-- Values of the option `simplify` (app/src/app/options.cpp 160, 790-806). -/
inductive Mode where
  | none
  | all
  | osmAware
deriving DecidableEq

/-- Options for the processing (app/src/app/options.cpp 790-818). -/
structure Steps where
  simplify : Mode
  unconnected : Bool
  duplicateNodes : Bool
  duplicateEdges : Bool

/-- The imported graph (library/include/io/helper/osm_handler_helper.hpp 159-214, library/include/graph/adjacency_list.hpp 1218-1219): vertices and edges in the order of insertion. -/
def imported (st : Osm.St P) : Net.Net P :=
  ⟨List.range st.verts.length, st.edges.zipIdx.map fun x => ⟨x.2, x.1.way, x.1.src, x.1.tgt, [x.1.line.1, x.1.line.2]⟩, st.edges.length⟩

/-- The node of a vertex (library/include/geometry/network/node.hpp 34-46): identifier and point. -/
def nodeOf [Inhabited P] (st : Osm.St P) (v : Nat) : Nat × P := st.verts.getD v default

/-- prepare.hpp 108-117 `_simplify`. -/
def simplifyStep (s : Steps) (g : Net.Net P) : Outcome (Net.Net P) :=
  if s.simplify = .none then .ok g else simplify (decide (s.simplify = .all)) g

/-- library/include/geometry/network/network_import.hpp 117-154 `remove_unconnected_components`: other components are removed with their edges. -/
def largestComponent (g : Net.Net P) : Outcome (Net.Net P) :=
  (removeUnconnected (fun v => (g.outs v).map NEdge.tgt) g.verts.length g.verts).map fun kept =>
    { g with verts := kept, edges := g.edges.filter fun e => decide (e.src ∈ kept) && decide (e.tgt ∈ kept) }

/-- prepare.hpp 119-126 `_remove_unconnected`. -/
def unconnectedStep (s : Steps) (g : Net.Net P) : Outcome (Net.Net P) := if s.unconnected then largestComponent g else .ok g

/-- prepare.hpp 128-137 `_remove_duplicate_nodes`. -/
def nodesStep (s : Steps) (pos : Nat → P) (g : Net.Net P) : Outcome (Net.Net P) :=
  if s.duplicateNodes then removeDuplicateNodes pos (decide (s.simplify ≠ .none)) (decide (s.simplify = .all)) g else .ok g

/-- prepare.hpp 139-146 `_remove_duplicate_edges`. -/
def edgesStep (s : Steps) (g : Net.Net P) : Outcome (Net.Net P) := if s.duplicateEdges then removeDuplicateEdges g else .ok g

/-- prepare.hpp 222-225. -/
def processed (s : Steps) (pos : Nat → P) (g : Net.Net P) : Outcome (Net.Net P) :=
  (simplifyStep s g).bind fun g => (unconnectedStep s g).bind fun g => (nodesStep s pos g).bind (edgesStep s)

/-- The adjacency list after the steps (library/include/graph/adjacency_list.hpp 1218-1219); every step numbers vertices and edges
anew (network_import.hpp 111, 153, 237, 264).  `top` is greater than all vertices. -/
def graphOf {N : Type} (node : Nat → N) (top : Nat) (g : Net.Net P) : AdjList.Graph N (Nat × List P) where
  verts := g.verts.zipIdx.map fun x => ⟨x.1, x.2, node x.1⟩
  edges := g.edges.zipIdx.map fun x => ⟨x.1.eid, x.2, x.1.src, x.1.tgt, (x.1.name, x.1.line)⟩
  out v := (g.outs v).map NEdge.eid
  inn v := (g.ins v).map NEdge.eid
  next := top + g.next

/-- prepare.hpp 148-160 `_compress`, `_finish_import` and library/include/io/helper/graph_helper.hpp 109-127: vertices with their nodes,
edges with name and line. -/
def compressed {N : Type} (node : Nat → N) (top : Nat) (g : Net.Net P) : Outcome (Csr.Csr N (Nat × List P)) :=
  Csr.fromAdjList .bidirectional (graphOf node top g) Csr.Csr.empty

/-- prepare.hpp 219-234 `_import_network` for OpenStreetMap files with filters `f`. -/
def prepare [Inhabited P] (f : Osm.Filters) (s : Steps) (es : List (Osm.Element P)) : Outcome (Csr.Csr (Nat × P) (Nat × List P)) :=
  (Osm.run f Osm.St.empty es).bind fun st =>
    (processed s (fun v => (nodeOf st v).2) (imported st)).bind (compressed (nodeOf st) st.verts.length)

/-- The network as matching reads it (library/include/geometry/network/network_base.hpp 79-85, 95-101): edges are known by their
positions. -/
def opened {N : Type} (c : Csr.Csr N (Nat × List P)) : Pipe.Net Nat P := ⟨c.edges.map fun r => ⟨r.src, r.tgt, r.data.2⟩⟩

/-- The node of a vertex of the network (library/include/geometry/network/network_base.hpp 87-93). -/
def nodeAt {N : Type} [Inhabited N] (c : Csr.Csr N (Nat × List P)) (v : Nat) : N := ((c.verts[v]?).map Prod.snd).getD default

end MM.Prepare
