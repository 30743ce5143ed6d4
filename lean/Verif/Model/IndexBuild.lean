import Verif.Model.GraphHelper
import Verif.Model.RichLine

/-!
# Building and asking the spatial indices of a network

Models geometry/network/network.hpp 106-185, 343-401, io/helper/index_build_helper.hpp, io/helper/index_helper.hpp 122-167,
io/memory_mapped/storage/index_build_storage.hpp and index_storage.hpp (paths relative to /repo/src/library/include/).

Vertices and edges are known by their numbers (the graph is compressed when the indices are built, src/app/include/app/prepare.hpp 212-213, after the compression).
Which allocations fail is told by a list of flags, one for each allocation.  What an R-tree answers to a query is an
argument; the theorems say what is asked of it.
-/

set_option autoImplicit false

namespace MM.IndexBuild

open MM.Line MM.GHelper

variable {P : Type}

/-- index_build_storage.hpp 46-54: a point with its vertex. -/
abbrev PointEntry (P : Type) := P × Nat

/-- index_build_storage.hpp 46-54: a segment with its edge and its number in the line of the edge. -/
abbrev SegEntry (P : Type) := (P × P) × (Nat × Nat)

/-! ### Collecting points and segments -/

/-- index_build_storage.hpp 119-126, 340-350: both vectors with their capacities, the size of the storage.  `failures` is not
part of the program, it tells which of the next allocations fail. -/
structure Build (P : Type) where
  points : List (PointEntry P)
  segments : List (SegEntry P)
  pointRoom : Nat
  segRoom : Nat
  size : Nat
  failures : List Bool
deriving DecidableEq, Repr

/-- index_build_storage.hpp 148-151, 376-383: a new storage. -/
def Build.new (size : Nat) (failures : List Bool) : Build P := ⟨[], [], 0, 0, size, failures⟩

/-- The next allocation has been tried (io/memory_mapped/utils.hpp 76). -/
def Build.tried (b : Build P) : Build P := { b with failures := b.failures.tail }

/-- Whether the next allocation fails (utils.hpp 78). -/
def Build.fails (b : Build P) : Bool := b.failures.headD false

/-- index_build_helper.hpp 171-183 `handle_bad_alloc` with index_build_storage.hpp 261-283: the size is doubled, the contents
are kept, so that the comparison of their sizes (176-179) never fails. -/
def growBuild (b : Build P) : Build P := { b with size := growTo b.size (2 * b.size) }

/-- index_build_helper.hpp 111, 116: one attempt; `none`: `bad_alloc`. -/
def reservePoints (n : Nat) (b : Build P) : Outcome (Build P × Option Unit) :=
  if n ≤ b.pointRoom then .ok (b, some ())
  else if b.fails then .ok (b.tried, none)
  else .ok ({ b.tried with pointRoom := n }, some ())

/-- index_build_helper.hpp 125, 130: one attempt. -/
def reserveSegments (n : Nat) (b : Build P) : Outcome (Build P × Option Unit) :=
  if n ≤ b.segRoom then .ok (b, some ())
  else if b.fails then .ok (b.tried, none)
  else .ok ({ b.tried with segRoom := n }, some ())

/-- index_build_helper.hpp 139, 144: one attempt; the vector allocates if it is full, before the value is moved from.
Simplification: it then grows by one place only. -/
def addPoint (p : PointEntry P) (b : Build P) : Outcome (Build P × Option Unit) :=
  if b.points.length < b.pointRoom then .ok ({ b with points := b.points ++ [p] }, some ())
  else if b.fails then .ok (b.tried, none)
  else .ok ({ b.tried with points := b.points ++ [p], pointRoom := b.points.length + 1 }, some ())

/-- index_build_helper.hpp 153, 158: one attempt. -/
def addSegment (x : SegEntry P) (b : Build P) : Outcome (Build P × Option Unit) :=
  if b.segments.length < b.segRoom then .ok ({ b with segments := b.segments ++ [x] }, some ())
  else if b.fails then .ok (b.tried, none)
  else .ok ({ b.tried with segments := b.segments ++ [x], segRoom := b.segments.length + 1 }, some ())

/-- index_build_helper.hpp 108-134: a reservation, tried as often as the free space on disk allows if the storage is memory
mapped. -/
def reserve (mapped : Bool) (available : Nat) (attempt : Build P → Outcome (Build P × Option Unit)) (b : Build P) :
    Outcome (Build P × Option Unit) :=
  if mapped then (maxRetries available b.size).bind fun r => retry attempt growBuild r b else attempt b

/-- index_build_helper.hpp 136-162: one value, with one retry if the storage is memory mapped. -/
def add (mapped : Bool) (attempt : Build P → Outcome (Build P × Option Unit)) (b : Build P) :
    Outcome (Build P × Option Unit) :=
  if mapped then retry attempt growBuild 1 b else attempt b

/-- Statements in sequence; `bad_alloc` leaves (network.hpp 106-135, no handler). -/
def andThen {S : Type} (o : Outcome (S × Option Unit)) (f : S → Outcome (S × Option Unit)) : Outcome (S × Option Unit) :=
  o.bind fun t => match t.2 with
    | some () => f t.1
    | none => .ok (t.1, none)

/-- network.hpp 110-113, 125-131: all values in order. -/
def addAll {X : Type} (mapped : Bool) (attempt : X → Build P → Outcome (Build P × Option Unit)) :
    List X → Build P → Outcome (Build P × Option Unit)
  | [], b => .ok (b, some ())
  | x :: xs, b => andThen (add mapped (attempt x) b) (addAll mapped attempt xs)

/-- network.hpp 110-113: points of vertices, from number `i` on. -/
def pointsFrom : Nat → List P → List (PointEntry P)
  | _, [] => []
  | i, p :: ps => (p, i) :: pointsFrom (i + 1) ps

/-- network.hpp 127-131: the segments of an edge, from number `i` on; a line of less than two points has none. -/
def segmentsFrom (e : Nat) : Nat → List (P × P) → List (SegEntry P)
  | _, [] => []
  | i, s :: ss => (s, (e, i)) :: segmentsFrom e (i + 1) ss

/-- network.hpp 125-133: the segments of all edges, from number `e` on. -/
def edgesFrom : Nat → List (List P) → List (SegEntry P)
  | _, [] => []
  | e, l :: ls => segmentsFrom e 0 (segs l) ++ edgesFrom (e + 1) ls

/-- network.hpp 116-122: the number of segments. -/
def countSegments (edges : List (List P)) : Nat := edges.foldl (fun n l => if 1 ≤ l.length then n + (l.length - 1) else n) 0

/-- network.hpp 108-132: both vectors are filled. -/
def gather (mapped : Bool) (available : Nat) (verts : List P) (edges : List (List P)) (b : Build P) :
    Outcome (Build P × Option Unit) :=
  andThen (reserve mapped available (reservePoints verts.length) b) fun b1 =>
    andThen (addAll mapped addPoint (pointsFrom 0 verts) b1) fun b2 =>
      andThen (reserve mapped available (reserveSegments (countSegments edges)) b2) fun b3 =>
        addAll mapped addSegment (edgesFrom 0 edges) b3

/-! ### The indices themselves -/

/-- index_storage.hpp 60-67, 361-371: both indices, if they have been built, the size of the storage; `failures` as above. -/
structure Index (P : Type) where
  points : Option (List (PointEntry P))
  segments : Option (List (SegEntry P))
  size : Nat
  failures : List Bool
deriving DecidableEq, Repr

/-- index_storage.hpp 66-73, 203-220: a new storage, without indices (389). -/
def Index.new (size : Nat) (failures : List Bool) : Index P := ⟨none, none, size, failures⟩

/-- index_storage.hpp 90-93, 315-320: the index of points; an object that is already in a mapped storage is not constructed
again, an exception other than `bad_alloc` leaves. -/
def buildPoints (mapped : Bool) (ps : List (PointEntry P)) (x : Index P) : Outcome (Index P × Option Unit) :=
  if mapped && x.points.isSome then .throws
  else if x.failures.headD false then .ok ({ x with failures := x.failures.tail }, none)
  else .ok ({ x with points := some ps, failures := x.failures.tail }, some ())

/-- index_storage.hpp 95-98, 322-327: the index of segments. -/
def buildSegments (mapped : Bool) (ss : List (SegEntry P)) (x : Index P) : Outcome (Index P × Option Unit) :=
  if mapped && x.segments.isSome then .throws
  else if x.failures.headD false then .ok ({ x with failures := x.failures.tail }, none)
  else .ok ({ x with segments := some ss, failures := x.failures.tail }, some ())

/-- index_helper.hpp 133-134, 139-140: both, in one attempt. -/
def buildBoth (mapped : Bool) (b : Build P) (x : Index P) : Outcome (Index P × Option Unit) :=
  andThen (buildPoints mapped b.points x) (buildSegments mapped b.segments)

/-- index_helper.hpp 158-165 with index_storage.hpp 297-309: the storage is made anew with twice the size. -/
def dropGrow (x : Index P) : Index P := { x with points := none, segments := none, size := growTo x.size (2 * x.size) }

/-- index_helper.hpp 122-144 `build_indices`; in a mapped storage after growing it to a size guessed from that of the collected
values.  The pointers found in between (index_storage.hpp 391-396) are those to no objects and not used. -/
def buildIndices (mapped mappedBuild : Bool) (available : Nat) (b : Build P) (x : Index P) : Outcome (Index P × Option Unit) :=
  if mapped then
    (maxRetries available (growTo x.size (if mappedBuild then 2 * b.size else 2 * (2 * b.size)))).bind fun r =>
      retry (buildBoth true b) dropGrow r
        { x with size := growTo x.size (if mappedBuild then 2 * b.size else 2 * (2 * b.size)) }
  else buildBoth false b x

/-- network.hpp 106-135 `build_spatial_indices`: the indices, and whether no `bad_alloc` has left. -/
def buildSpatial (mapped mappedBuild : Bool) (available : Nat) (verts : List P) (edges : List (List P)) (b : Build P)
    (x : Index P) : Outcome (Index P × Option Unit) :=
  (gather mappedBuild available verts edges b).bind fun t => match t.2 with
    | some () => buildIndices mapped mappedBuild available t.1 x
    | none => .ok (x, none)

/-! ### Queries -/

/-- network.hpp 137-147 `find_node`, 149-159 `find_edge`: loop over the identifiers from number `i` on. -/
def findId (id : Nat) : Nat → List Nat → List Nat
  | _, [] => []
  | i, x :: xs => if x = id then i :: findId id (i + 1) xs else findId id (i + 1) xs

variable [DecidableEq P]

/-- network.hpp 161-171 `point_in_nodes`, given the nearest point of the index. -/
def pointInNodes (nearest : List (PointEntry P)) (p : P) : Bool × Nat :=
  match nearest with
  | x :: _ => (decide (x.1 = p), x.2)
  | [] => (false, 0)

/-- network.hpp 173-185 `point_in_edges`, given the nearest segment of the index. -/
def pointInEdges (nearest : List (SegEntry P)) (p : P) : Bool × (Nat × Nat) :=
  match nearest with
  | x :: _ => (decide (x.1.1 = p) || decide (x.1.2 = p), x.2)
  | [] => (false, (0, 0))

/-- boost::container::set::emplace, for network.hpp 397: ordered, without repetitions. -/
def insert (e : Nat) : List Nat → List Nat
  | [] => [e]
  | x :: xs => if e < x then e :: x :: xs else if e = x then x :: xs else x :: insert e xs

/-- network.hpp 393-400 `_process_segments_unique_result`. -/
def unique (res : List (SegEntry P)) : List Nat := res.foldl (fun acc r => insert r.2.1 acc) []

/-- network.hpp 380-391 `_process_segments_points_result`. -/
def bothEnds (res : List (SegEntry P)) : List P := res.flatMap fun r => [r.1.1, r.1.2]

end MM.IndexBuild
