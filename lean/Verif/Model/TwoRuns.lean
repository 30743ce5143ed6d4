import Verif.Model.IndexBuild
import Verif.Model.NetDisk
import Verif.Model.Prepare
import Verif.Model.Seek

/-!
# One run prepares a network, a later one matches with it

How the parts modelled elsewhere work together: the network is prepared from OpenStreetMap files (`Model/Prepare.lean`), its
indices are built (`Model/IndexBuild.lean`), all is written to files (`Model/NetDisk.lean`); a later run opens the files and looks for
candidates (`Model/Seek.lean`) with what it has read.  Paths are relative to /repo/src/.  Tags are given (C36).
-/

set_option autoImplicit false

namespace MM.TwoRuns

open MM.IndexBuild MM.NetDisk

variable {T P : Type} [DecidableEq P]

/-- library/include/graph/compressed_sparse_row.hpp 497-498 with nodes and edges (library/include/geometry/network/types.hpp). -/
abbrev Graph (P : Type) := Csr.Csr (Nat × P) (Nat × List P)

/-- The files with graphs and indices as their contents (app/include/app/network.hpp 474-532). -/
abbrev Files (T P : Type) := Disk T (List (PointEntry P)) (List (SegEntry P)) (Graph P)

/-- What a network holds when it is open (app/src/app/network.cpp 95-115). -/
abbrev Held (T P : Type) := Opened T (List (PointEntry P)) (List (SegEntry P)) (Graph P)

/-- What the first run depends on besides its input and the directory: the options (app/include/app/prepare.hpp 219-234), the program, the
tags, and the room for what is stored (`Work`, `Build`, `Index`). -/
structure First (T P : Type) where
  me : Info
  file : Part → Nat
  mapped : Options.PrepareMapped
  cs : Cs
  filters : Osm.Filters
  steps : Prepare.Steps
  noTags : T
  tags : T
  tagsOnTheWay : List T
  failed : List (List (Graph P))
  onTheWay : List (Graph P)
  indexFailed : List Bool
  available : Nat
  buildSize : Nat
  indexSize : Nat
  buildFailures : List Bool
  indexFailures : List Bool
  writable : Nat → Bool

/-- The points of the vertices (library/include/geometry/network/network.hpp 110-113). -/
def places (c : Graph P) : List P := c.verts.map fun v => v.2.2

/-- The lines of the edges (library/include/geometry/network/network.hpp 125-133). -/
def lines (c : Graph P) : List (List P) := c.edges.map fun r => r.data.2

/-- app/include/app/prepare.hpp 161-166 `_build_spatial_indices` for the graph prepared. -/
def First.index (o : First T P) (c : Graph P) : Outcome (Index P × Option Unit) :=
  buildSpatial o.mapped.final.indices o.mapped.indexBuild o.available (places c) (lines c) (Build.new o.buildSize o.buildFailures)
    (Index.new o.indexSize o.indexFailures)

/-- What is written (app/include/app/prepare.hpp 147-175). -/
def First.work (o : First T P) (c : Graph P) (ps : List (PointEntry P)) (ss : List (SegEntry P)) :
    Work T (List (PointEntry P)) (List (SegEntry P)) (Graph P) :=
  ⟨true, o.cs, o.noTags, Csr.Csr.empty, o.tagsOnTheWay, o.failed, o.onTheWay, o.indexFailed, o.tags, ps, ss, c⟩

/-- The operations on files of a run that comes to its end (app/include/app/prepare.hpp 211-235). -/
def First.ops [Inhabited P] (o : First T P) (es : List (Osm.Element P)) :
    Outcome (List (Op T (List (PointEntry P)) (List (SegEntry P)) (Graph P))) :=
  (Prepare.prepare o.filters o.steps es).bind fun c => (o.index c).bind fun x =>
    match x.2, x.1.points, x.1.segments with
    | some (), some ps, some ss => .ok (prepare o.file o.mapped (o.work c ps ss) o.writable)
    | _, _, _ => .throws

/-- app/src/app/prepare.cpp 36-56: the directory after the first run. -/
def First.run [Inhabited P] (o : First T P) (es : List (Osm.Element P)) (d : Files T P) : Outcome (Files T P) :=
  (o.ops es).map fun ops => NetDisk.run o.me d ops

/-- The graph that is open (library/include/geometry/network/network_base.hpp 79-81): one without vertices if none was read. -/
def heldGraph (h : Held T P) : Graph P :=
  match h.graph with
  | .graph c :: _ => c
  | _ => Csr.Csr.empty

/-- The index of segments that is open (library/include/geometry/network/network.hpp 98-100): an empty one if none was read. -/
def heldSegments (h : Held T P) : List (SegEntry P) :=
  match h.index with
  | [_, .segments ss] => ss
  | _ => []

/-- How the index is asked (library/include/geometry/network/network.hpp 356-376): the segments that meet the box around a point, and
those nearest to a point, as the R-tree returns them. -/
structure Asks (P R : Type) where
  box : P → R → List (SegEntry P) → List (SegEntry P)
  near : P → List (SegEntry P) → List (SegEntry P)

variable {R A : Type}

/-- What the second run looks for candidates with (library/include/matching/algorithm/candidate_search.hpp 93-94, 122-123): graph and
index are those that were read; `h` has the rest. -/
def hunting (q : Asks P R) (x : Held T P) (h : Pipe.Hunt Nat P R A) : Pipe.Hunt Nat P R A :=
  { h with
    net := Prepare.opened (heldGraph x)
    box := fun p r => unique (q.box p r (heldSegments x))
    near := fun p => unique (q.near p (heldSegments x)) }

/-- The second run (app/include/app/match.hpp 64-71): the directory is opened by program `you` with options `cs` and `m`. -/
def second (you : Info) (cs : Cs) (m : Options.Mapped) (file : Part → Nat) (q : Asks P R) (h : Pipe.Hunt Nat P R A) (d : Files T P) :
    Outcome (Pipe.Hunt Nat P R A) :=
  (openNetwork you cs m d file).map fun x => hunting q x h

/-- library/include/matching/algorithm/candidate_search.hpp 126-128: the edges found are looked up in the graph, which has no edge at
a position beyond its last one. -/
def lookUp (h : Pipe.Hunt Nat P R A) : List Nat → Outcome Unit
  | [] => .ok ()
  | e :: es => if e < h.net.edges.length then lookUp h es else .ub

end MM.TwoRuns
