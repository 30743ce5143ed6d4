import Verif.Model.Tags

/-!
# Tags of nodes and roads on their way from the files into the prepared network

Nodes read from a file leave their tags with the handler (osm_handler_helper.hpp 110-134); when a node becomes a vertex of the graph,
its tags are cloned into the tags of the graph (graph_helper.hpp 270-294); an edge brings the tags of its way along
(graph_helper.hpp 395-426); merging two edges merges the tags of their identifiers (network_import.hpp 272-297); the compressed
graph gets clones once more and its tags are finalized (graph_helper.hpp 110-160); readers decode them (node.hpp 95-110,
edge.hpp 101-116, osm_exporter.hpp 146-153, 193-206).  Paths relative to /repo/src/library/include/.

Simplifications: no allocation fails here (that is `Tags`, C36 and C57), except where `full` says so; which edges meet is not
modelled, any two edges can be merged (which ones are, is `NetImport`).  An exception ends the program.
-/

set_option autoImplicit false

namespace MM.TagFlow

/-- Key and value (tag_helper.hpp 84, 207). -/
abbrev Pair := String × String

/-- tag_helper.hpp 238-240 `MAP_TAGS`. -/
inductive Which where
  | nodes
  | edges
deriving DecidableEq

/-- tag_storage.hpp 333-342: one storage of tags. -/
structure Box where
  st : Tags.State := {}
  nodes : List (Nat × List Nat) := []
  edges : List (Nat × List Nat) := []
deriving DecidableEq

/-- tag_helper.hpp 250-264 `get_map`. -/
def Box.map (b : Box) : Which → List (Nat × List Nat)
  | .nodes => b.nodes
  | .edges => b.edges

/-- A map is changed (tag_helper.hpp 333-334, 360-361, 380-381). -/
def Box.put (b : Box) (w : Which) (m : List (Nat × List Nat)) : Box :=
  match w with
  | .nodes => { b with nodes := m }
  | .edges => { b with edges := m }

/-- tag_helper.hpp 84-157 `id` without failing allocations; it throws if the storage is finalized. -/
def identify (st : Tags.State) (t : Pair) : Outcome (Tags.State × Nat) :=
  match (Tags.id st t.1 t.2 false []).2 with
  | some n => .ok ((Tags.id st t.1 t.2 false []).1, n)
  | none => .throws

/-- tag_helper.hpp 266-286 `tags`: the tags of an element of a file get identifiers in turn. -/
def identifyAll : Tags.State → List Pair → Outcome (Tags.State × List Nat)
  | st, [] => .ok (st, [])
  | st, t :: ts =>
    (identify st t).bind fun r => (identifyAll r.1 ts).map fun r' => (r'.1, r.2 :: r'.2)

/-- tag_helper.hpp 331-354 `set_map_tags` of the tags of an element of a file. -/
def Box.set (b : Box) (w : Which) (i : Nat) (ts : List Pair) : Outcome Box :=
  if ts = [] then .ok b
  else (identifyAll b.st ts).map fun r => { b with st := r.1 }.put w (Tags.setMapTags (b.map w) i r.2)

/-- tag_helper.hpp 309-317: the tags of another storage are decoded there and get identifiers here. -/
def cloneAll (other : Tags.State) : Tags.State → List Nat → Outcome (Tags.State × List Nat)
  | st, [] => .ok (st, [])
  | st, n :: ns =>
    (Tags.tag other n).bind fun t =>
      (identify st t).bind fun r => (cloneAll other r.1 ns).map fun r' => (r'.1, r.2 :: r'.2)

/-- tag_helper.hpp 376-394 `clone_map_tags`. -/
def Box.clone (b other : Box) (w : Which) (i : Nat) : Outcome Box :=
  if Tags.mapTags (other.map w) i = [] then .ok b
  else (cloneAll other.st b.st (Tags.mapTags (other.map w) i)).map fun r =>
    { b with st := r.1 }.put w (Tags.emplace (b.map w) i r.2)

/-- tag_helper.hpp 396-438 `merge_map_tags` of edges (195-197). -/
def Box.merge (b : Box) (i j : Nat) : Box := { b with edges := Tags.mergeMapTags b.edges i j }

/-- tag_helper.hpp 223-225, tag_storage.hpp 302-307, 672-677 `finalize`. -/
def Box.finish (b : Box) : Box := { b with st := Tags.finalize b.st }

/-- tag_storage.hpp 541-550 `grow`: the file is opened again and every map is looked up (738-749); those that `finalize` destroyed
(672-677) are missing, which is an error (751-782). -/
def Box.grow (b : Box) : Outcome Box := if b.st.finalized then .throws else .ok b

/-- tag_helper.hpp 356-374 `copy_map_tags` of tags outside of the storage; `full`: the storage has to grow first. -/
def Box.copy (b : Box) (w : Which) (i : Nat) (ids : List Nat) (full : Bool) : Outcome Box :=
  if ids = [] then .ok b
  else (if full then b.grow else .ok b).map fun b => b.put w (Tags.emplace (b.map w) i ids)

/-- Identifiers are decoded (osm_exporter.hpp 149-152, 194-195). -/
def decode (st : Tags.State) : List Nat → Outcome (List Pair)
  | [] => .ok []
  | n :: ns => (Tags.tag st n).bind fun t => (decode st ns).map fun ts => t :: ts

/-- The tags of an element as they are exported (osm_exporter.hpp 146-153, 193-206, tag_helper.hpp 199-217, 440-447). -/
def Box.read (b : Box) (w : Which) (i : Nat) : Outcome (List Pair) := decode b.st (Tags.mapTags (b.map w) i)

/-- An edge of the graph (edge.hpp 31-83): its identifier.  `parts` is not part of the program: the ways it consists of. -/
structure Road where
  id : Nat
  parts : List Nat
deriving DecidableEq

/-- The tags of the handler (osm_handler_helper.hpp 82-92) and of the graph (graph_helper.hpp 86-92), and the edges of the graph. -/
structure World where
  handler : Box := {}
  graph : Box := {}
  roads : List Road := []
deriving DecidableEq

/-- What happens to tags while a network is read and simplified (osm_handler_helper.hpp 110-214, network_import.hpp 272-297, 416-443). -/
inductive Op where
  /-- osm_handler_helper.hpp 110-134 `add_node` -/
  | node (i : Nat) (ts : List Pair)
  /-- osm_handler_helper.hpp 159-165 `add_vertex`, graph_helper.hpp 270-294 -/
  | vertex (i : Nat)
  /-- osm_handler_helper.hpp 167-214 `add_edge`, graph_helper.hpp 395-426 -/
  | edge (i : Nat) (ts : List Pair)
  /-- network_import.hpp 416-443 `_populate_merges`, 272-297 `_merge`: the edges at two positions -/
  | merge (complete : Bool) (a b : Nat)

/-- network_import.hpp 421-425: two edges are merged if everything is or if they have the same identifier and the same tags. -/
def joins (g : Box) (complete : Bool) (r s : Road) : Bool :=
  complete || (decide (r.id = s.id) && decide (Tags.mapTags g.edges r.id = Tags.mapTags g.edges s.id))

/-- network_import.hpp 282-293: the tags are merged, the merged edge with the identifier of the first (edge.hpp 72-79) replaces
the two. -/
def World.mergeAt (w : World) (complete : Bool) (a b : Nat) : World :=
  match w.roads[a]?, w.roads[b]? with
  | some r, some s =>
    if a ≠ b ∧ joins w.graph complete r s = true then
      { w with graph := w.graph.merge r.id s.id,
               roads := ((w.roads.eraseIdx (max a b)).eraseIdx (min a b)) ++ [⟨r.id, r.parts ++ s.parts⟩] }
    else w
  | _, _ => w

/-- One step (osm_handler_helper.hpp 110-214, network_import.hpp 272-297). -/
def World.step (w : World) : Op → Outcome World
  | .node i ts => (w.handler.set .nodes i ts).map fun h => { w with handler := h }
  | .vertex i => (w.graph.clone w.handler .nodes i).map fun g => { w with graph := g }
  | .edge i ts => (w.graph.set .edges i ts).map fun g => { w with graph := g, roads := w.roads ++ [⟨i, [i]⟩] }
  | .merge complete a b => .ok (w.mergeAt complete a b)

/-- A whole reading and simplification (osm_handler_helper.hpp 110-214, network_import.hpp 272-297). -/
def World.run (w : World) : List Op → Outcome World
  | [] => .ok w
  | op :: ops => (w.step op).bind fun w' => w'.run ops

/-- graph_helper.hpp 114-124: the converters are called for vertices and edges, after a failed attempt (145-150) once more. -/
def convert (g : Box) : Box → List (Which × Nat) → Outcome Box
  | b, [] => .ok b
  | b, c :: cs => (b.clone g c.1 c.2).bind fun b' => convert g b' cs

/-- graph_helper.hpp 110-160 `from_adjacency_list`: the tags of the compressed graph. -/
def compress (g : Box) (calls : List (Which × Nat)) : Outcome Box := (convert g {} calls).map Box.finish

end MM.TagFlow
