import Verif.Model.Outcome
import Verif.Model.Options

/-!
# The files of a network

Model of the files written by `--prepare` and read by `--match`: `app/prepare.hpp` 39-57, 147-235, `app/prepare.cpp`
36-56, `app/network.hpp` 41-367, 474-532, the storages (`io/memory_mapped/storage/base_storage.hpp` 119-245, 436-507;
`graph_storage.hpp` 205-223, 259-312, 382-396; `index_storage.hpp` 203-220, 255-327, 389-396; `tag_storage.hpp`
443-461, 523-531, 715-749), `io/serialization/serializer.hpp` 34-42 and `deserializer.hpp` 35-49.

The program is the list of its operations on files, so that a crash is a prefix of the list.  What is written is computed
elsewhere (the readers, C23-C25, C10, C54): here it is given, together with the values on the way to it.

Simplified: growing and shrinking a storage keep its contents and are left out, so are exports of the network.  The change
of tags and the change of the graph alternate in the program (graph_helper.hpp 114-124), here the tags come first; the two
are in different files, but a crash between them is only modelled with all or none of the graph.  `index_storage::grow` is
called before there is an index (index_helper.hpp 127) and takes the address of a member of a null pointer
(index_storage.hpp 286, 391-396), undefined by the letter of the standard and without effect in practice: left out.  Storages
that were moved from have an empty path, their destructors do nothing.  A storage file is one in the format of
Boost.Interprocess, an archive one of Boost.Serialization; each library refuses files of the other one (assumption).
-/

set_option autoImplicit false

namespace MM.NetDisk

open MM

/-- The files of the options (app/options.hpp 141, 148). -/
inductive Part where
  | tags | index | graph | osmTags | osmVertices | importTags | importGraph | indexBuild
  deriving DecidableEq, Repr

/-- geometry/srs.hpp: the coordinate system a network is compiled for. -/
inductive Cs where
  | geographic | spherical | cartesian
  deriving DecidableEq, Repr

/-- util/compiler.hpp, util/version.hpp: what a storage tells about the program that made it (base_storage.hpp 64-98). -/
structure Info where
  compiler : Nat
  version : Nat
  deriving DecidableEq, Repr

/-- The names of objects in a storage.  Graph and indices have the name of their type (`unique_instance`), which contains
the coordinate system; tags have names of their own (tag_storage.hpp 431-440), taken together here. -/
inductive Key where
  | tags
  | points (c : Cs)
  | segments (c : Cs)
  | graph (c : Cs)
  | vertexMap (c : Cs)
  deriving DecidableEq, Repr

/-- Contents of objects, abstract (graph_storage.hpp 382-389, index_storage.hpp 315-327, tag_storage.hpp 715-736). -/
inductive Val (T X Y G : Type) where
  | tags (t : T)
  | points (x : X)
  | segments (y : Y)
  | graph (g : G)
  | nothing
  deriving DecidableEq, Repr

variable {T X Y G : Type}

/-- A file: a storage with information and objects, an archive, an archive that is not complete, a file that may not be
read, or anything else (base_storage.hpp 119-146, serializer.hpp 34-42, deserializer.hpp 43-45). -/
inductive File (T X Y G : Type) where
  | storage (info : Option Info) (objs : List (Key × Val T X Y G))
  | archive (vals : List (Val T X Y G))
  | torn
  | locked
  | foreign
  deriving DecidableEq, Repr

/-- The directory of the network (app/options.hpp 141-148). -/
abbrev Disk (T X Y G : Type) := Nat → Option (File T X Y G)

/-- Operations on files (base_storage.hpp 119-178, 461-464). -/
inductive Op (T X Y G : Type) where
  /-- base_storage.hpp 461-464 `destroy` -/
  | remove (n : Nat)
  /-- base_storage.hpp 119-129 `create_only` -/
  | create (n : Nat)
  /-- base_storage.hpp 127, 167-178, 230-231 `write_info` -/
  | info (n : Nat)
  /-- graph_storage.hpp 382-389, index_storage.hpp 315-327, tag_storage.hpp 715-736: an object is made -/
  | construct (n : Nat) (k : Key) (v : Val T X Y G)
  /-- an object in a storage is changed, which is at once visible in the file (graph_helper.hpp 145-147) -/
  | assign (n : Nat) (k : Key) (v : Val T X Y G)
  /-- serializer.hpp 36: the file is opened and made empty -/
  | truncate (n : Nat)
  /-- serializer.hpp 39-40: the archive is complete -/
  | write (n : Nat) (vals : List (Val T X Y G))

/-- The file an operation is about (base_storage.hpp 436-464, serializer.hpp 36). -/
def Op.file : Op T X Y G → Nat
  | .remove n => n
  | .create n => n
  | .info n => n
  | .construct n _ _ => n
  | .assign n _ _ => n
  | .truncate n => n
  | .write n _ => n

/-- Objects of a storage (Boost.Interprocess `find`) (graph_storage.hpp 391-396, tag_storage.hpp 738-749). -/
def find (objs : List (Key × Val T X Y G)) (k : Key) : Option (Val T X Y G) :=
  (objs.find? (fun o => decide (o.1 = k))).map (fun o => o.2)

/-- Objects of a storage (Boost.Interprocess `construct`: nothing happens if the name is in use) (graph_storage.hpp 382-389, tag_storage.hpp 715-736). -/
def constructIn (objs : List (Key × Val T X Y G)) (k : Key) (v : Val T X Y G) : List (Key × Val T X Y G) :=
  if (find objs k).isSome then objs else objs ++ [(k, v)]

/-- An object in place (graph_helper.hpp 145-147). -/
def assignIn (objs : List (Key × Val T X Y G)) (k : Key) (v : Val T X Y G) : List (Key × Val T X Y G) :=
  objs.map (fun o => if o.1 = k then (k, v) else o)

/-- The effect of an operation on its file; `me` is the running program (base_storage.hpp 119-129, 158-178, 456-464).
Operations on a storage that does not exist cannot occur, they follow its creation. -/
def Op.effect (me : Info) : Op T X Y G → Option (File T X Y G) → Option (File T X Y G)
  | .remove _, _ => none
  | .create _, none => some (.storage none [])
  | .create _, some f => some f
  | .info _, some (.storage _ objs) => some (.storage (some me) objs)
  | .info _, f => f
  | .construct _ k v, some (.storage i objs) => some (.storage i (constructIn objs k v))
  | .construct _ _ _, f => f
  | .assign _ k v, some (.storage i objs) => some (.storage i (assignIn objs k v))
  | .assign _ _ _, f => f
  | .truncate _, _ => some .torn
  | .write _ vals, _ => some (.archive vals)

/-- One operation on the directory (prepare.hpp 219-235). -/
def step (me : Info) (d : Disk T X Y G) (o : Op T X Y G) : Disk T X Y G :=
  fun n => if n = o.file then o.effect me (d n) else d n

/-- Several operations (prepare.hpp 219-235). -/
def run (me : Info) (d : Disk T X Y G) (ops : List (Op T X Y G)) : Disk T X Y G := ops.foldl (step me) d

/-! ### The preparation -/

/-- base_storage.hpp 456-459 `destroy_and_create`. -/
def fresh (n : Nat) : List (Op T X Y G) := [.remove n, .create n, .info n]

/-- Operations made under a condition (`if constexpr` in network.hpp 41-367). -/
def only (b : Bool) (ops : List (Op T X Y G)) : List (Op T X Y G) := if b then ops else []

/-- What the preparation computes.  `compress`: the attempts to convert the graph that ran out of space (their values on the
way), then the values on the way of the last one (graph_helper.hpp 110-160); `indexFailed`: how many attempts to build the
indices ran out of space before (false) or after (true) the index of points was built (index_helper.hpp 122-137). -/
structure Work (T X Y G : Type) where
  osm : Bool
  cs : Cs
  noTags : T
  noGraph : G
  tagsOnTheWay : List T
  failed : List (List G)
  onTheWay : List G
  indexFailed : List Bool
  tags : T
  points : X
  segments : Y
  graph : G

variable (file : Part → Nat) (m : Options.PrepareMapped) (w : Work T X Y G)

/-- app/network.hpp 64-85, 217-250 `_create_network_import`: the temporary files of tags and graph. -/
def importBegin : List (Op T X Y G) :=
  only m.tagsImport (fresh (file .importTags)) ++ only m.graphImport (fresh (file .importGraph))

/-- app/prepare.hpp 39-57 `_import_osm`: the temporary files of the reader of OSM files exist while it reads
(app/network.hpp 41-62, 331-367). -/
def osmImport : List (Op T X Y G) :=
  only w.osm
    (only m.osmTags (fresh (file .osmTags)) ++ only m.osmVertices (fresh (file .osmVertices)) ++
      only m.osmTags [.remove (file .osmTags)] ++ only m.osmVertices [.remove (file .osmVertices)])

/-- graph_storage.hpp 212-219, 382-389: a new storage for the graph. -/
def graphStorage : List (Op T X Y G) :=
  fresh (file .graph) ++
    [.construct (file .graph) (.graph w.cs) (.graph w.noGraph), .construct (file .graph) (.vertexMap w.cs) .nothing]

/-- app/network.hpp 88-109, 133-187, 253-291 `_create_network`. -/
def networkBegin : List (Op T X Y G) :=
  only m.final.tags (fresh (file .tags) ++ [.construct (file .tags) .tags (.tags w.noTags)]) ++
  only m.indexBuild (fresh (file .indexBuild)) ++
  only m.final.indices (fresh (file .index)) ++
  only m.final.graph (graphStorage file w)

/-- graph_helper.hpp 145-147: values of the graph while it is filled. -/
def fill (gs : List G) : List (Op T X Y G) :=
  gs.map (fun g => .assign (file .graph) (.graph w.cs) (.graph g))

/-- app/prepare.hpp 147-152 `_compress` (graph_helper.hpp 110-160): tags are cloned on the way; after a failed attempt the
storage of the graph is made anew (graph_storage.hpp 297-312). -/
def compress : List (Op T X Y G) :=
  only m.final.tags ((w.tagsOnTheWay ++ [w.tags]).map (fun t => .assign (file .tags) .tags (.tags t))) ++
  only m.final.graph ((w.failed.map (fun gs => fill file w gs ++ graphStorage file w)).flatten ++
    fill file w (w.onTheWay ++ [w.graph]))

/-- app/prepare.hpp 158 `network_import.reset()`: temporary files are removed (app/network.hpp 76, 234). -/
def importEnd : List (Op T X Y G) :=
  only m.tagsImport [.remove (file .importTags)] ++ only m.graphImport [.remove (file .importGraph)]

/-- index_storage.hpp 315-320: the index of points. -/
def indexPoints : List (Op T X Y G) := [.construct (file .index) (.points w.cs) (.points w.points)]

/-- index_storage.hpp 322-327: the index of segments. -/
def indexSegments : List (Op T X Y G) := [.construct (file .index) (.segments w.cs) (.segments w.segments)]

/-- app/prepare.hpp 161-166 `_build_spatial_indices` (index_helper.hpp 122-144, index_storage.hpp 297-309). -/
def buildIndices : List (Op T X Y G) :=
  only m.final.indices ((w.indexFailed.map (fun b => only b (indexPoints file w) ++ fresh (file .index))).flatten ++
    indexPoints file w ++ indexSegments file w)

/-- serializer.hpp 34-42 `write`: nothing happens if the file cannot be opened. -/
def serializeTo (ok : Bool) (n : Nat) (vals : List (Val T X Y G)) : List (Op T X Y G) :=
  only ok [.truncate n, .write n vals]

/-- app/prepare.hpp 168-175 `_serialize` with app/network.hpp 474-502 `save_network`; `ok`: which files can be opened. -/
def serialize (ok : Nat → Bool) : List (Op T X Y G) :=
  only (!m.final.tags) (serializeTo (ok (file .tags)) (file .tags) [.tags w.tags]) ++
  only (!m.final.indices) (serializeTo (ok (file .index)) (file .index) [.points w.points, .segments w.segments]) ++
  only (!m.final.graph) (serializeTo (ok (file .graph)) (file .graph) [.graph w.graph])

/-- app/prepare.hpp 216 `network.reset()`: the network is closed (kept), the temporary file of the index removed
(app/network.hpp 132-147). -/
def networkEnd : List (Op T X Y G) := only m.indexBuild [.remove (file .indexBuild)]

/-- app/prepare.cpp 36-56 `_prepare`, prepare.hpp 211-235 `_import_network`: all operations on files, in order. -/
def prepare (ok : Nat → Bool) : List (Op T X Y G) :=
  importBegin file m ++ osmImport file m w ++ networkBegin file m w ++ compress file m w ++ importEnd file m ++
    buildIndices file m w ++ serialize file m w ok ++ networkEnd file m

/-- The temporary files of an operation list that were made and not removed (destructors of the storages with
`DESTROY_ON_CLOSE`, graph_storage.hpp 259-267, app/network.hpp 41-147, 217-250, 331-367). -/
def open? (temp : Nat → Bool) (ops : List (Op T X Y G)) : List Nat :=
  ops.foldl (fun acc o =>
    match o with
    | .create n => if temp n then acc ++ [n] else acc
    | .remove n => acc.filter (fun k => decide (k ≠ n))
    | _ => acc) []

/-- Which file is temporary (app/network.hpp 53, 76, 144, 234, 350: `DESTROY_ON_CLOSE`). -/
def Part.temporary : Part → Bool
  | .tags | .index | .graph => false
  | _ => true

/-- An exception after the operations `ops`: the stack is unwound, storages of temporary files are destroyed
(graph_storage.hpp 259-267). -/
def unwind (temp : Nat → Bool) (ops : List (Op T X Y G)) : List (Op T X Y G) :=
  ops ++ (open? temp ops).map .remove

/-! ### Opening -/

/-- base_storage.hpp 185-226: the information of a storage must be there and be that of the running program. -/
def infoOk (me : Info) (i : Option Info) : Bool :=
  match i with
  | none => false
  | some i => decide (i.compiler = me.compiler) && decide (i.version = me.version)

/-- base_storage.hpp 143-146 `open_read_only`. -/
def openStorage (me : Info) (d : Disk T X Y G) (n : Nat) : Outcome (List (Key × Val T X Y G)) :=
  match d n with
  | some (.storage i objs) => if infoOk me i then .ok objs else .throws
  | _ => .throws

/-- graph_storage.hpp 391-396, index_storage.hpp 391-396, tag_storage.hpp 738-749: an object that is not there is a null
pointer, dereferenced at once or at the first use. -/
def need (objs : List (Key × Val T X Y G)) (k : Key) : Outcome (Val T X Y G) :=
  match find objs k with
  | some v => .ok v
  | none => .ub

/-- Several objects (graph_storage.hpp 391-396). -/
def needAll (objs : List (Key × Val T X Y G)) : List Key → Outcome (List (Val T X Y G))
  | [] => .ok []
  | k :: ks => (need objs k).bind fun v => (needAll objs ks).map fun vs => v :: vs

/-- deserializer.hpp 35-49 `read`: an archive has no information about the program or the type of its contents, so that the
contents are read as they are.  A file that exists but cannot be read leaves the part as it was made, empty. -/
def openArchive (d : Disk T X Y G) (n : Nat) : Outcome (List (Val T X Y G)) :=
  match d n with
  | some (.archive vals) => .ok vals
  | some .locked => .ok []
  | _ => .throws

/-- A part in a storage (app/network.hpp 111-130, 189-215, 293-329). -/
def openMapped (me : Info) (mapped : Bool) (d : Disk T X Y G) (n : Nat) (ks : List Key) : Outcome (List (Val T X Y G)) :=
  if mapped then (openStorage me d n).bind (fun objs => needAll objs ks) else .ok []

/-- A part in an archive (app/network.hpp 504-532 `load_network`). -/
def loadPart (mapped : Bool) (d : Disk T X Y G) (n : Nat) (vs : List (Val T X Y G)) : Outcome (List (Val T X Y G)) :=
  if mapped then .ok vs else openArchive d n

/-- A network as it is used: the values of its parts and the coordinate system the numbers are taken for (app/network.cpp 95-115). -/
structure Opened (T X Y G : Type) where
  cs : Cs
  tags : List (Val T X Y G)
  index : List (Val T X Y G)
  graph : List (Val T X Y G)
  deriving DecidableEq, Repr

/-- app/network.cpp 95-115 `open_network` (storages first), app/match.hpp 64-71 `_open_network` (then archives); the map of
vertices of a mapped graph is not used when matching and left out of the result. -/
def openNetwork (me : Info) (cs : Cs) (m : Options.Mapped) (d : Disk T X Y G) (file : Part → Nat) : Outcome (Opened T X Y G) :=
  (openMapped me m.tags d (file .tags) [.tags]).bind fun t =>
    (openMapped me m.indices d (file .index) [.points cs, .segments cs]).bind fun i =>
      (openMapped me m.graph d (file .graph) [.graph cs, .vertexMap cs]).bind fun g =>
        (loadPart m.tags d (file .tags) t).bind fun t =>
          (loadPart m.indices d (file .index) i).bind fun i =>
            (loadPart m.graph d (file .graph) g).map fun g =>
              ⟨cs, t, i, g.take 1⟩

end MM.NetDisk
