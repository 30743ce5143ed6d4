import Verif.Model.Outcome
import Mathlib.Logic.Function.Basic

/-!
# Who owns a storage

Model of the storages as objects: io/memory_mapped/storage/base_storage.hpp (containers) and graph_storage.hpp, index_storage.hpp,
index_build_storage.hpp, osm_handler_storage.hpp, tag_storage.hpp (paths relative to /repo/src/library/include/), which all have the
same life: made or opened, moved into helpers and networks, grown, shrunk, closed.  Line numbers without a name are those of
index_build_storage.hpp; the same code is in graph_storage.hpp 205-314, index_storage.hpp 203-313, osm_handler_storage.hpp 216-325 and
tag_storage.hpp 442-570.

A file is named by a number, as are the places on the disk (inodes), mappings and variables.  What is in a storage is one value of
type `C`.  A file that is removed while it is mapped keeps its place on the disk until the mapping ends.  The disk has room enough
and the program that opens a storage is the one that made it (else C81, C87).  A `std::filesystem::path` or `std::string` that was
moved from is empty, as it is in all implementations.
-/

set_option autoImplicit false

namespace MM.Storage

/-- A file: what is in it and its size (base_storage.hpp 278-283). -/
structure File (C : Type) where
  value : C
  size : Nat
deriving DecidableEq

/-- A mapping of a file (base_storage.hpp 286): its place on the disk; may it be written?  (base_storage.hpp 119-156) -/
structure Mapping where
  node : Nat
  writable : Bool
deriving DecidableEq

/-- 348-357 and base_storage.hpp 286, 510: the path of the container, its mapping `_storage`, the mapping that the pointers `_points`,
`_segments` lead to and the one that `_allocator` belongs to; 350, 351.  `none` is a null pointer or the empty path. -/
structure Obj where
  path : Option Nat
  mapping : Option Nat
  roots : Option Nat
  alloc : Option Nat
  destroy : Bool
  shrink : Bool
deriving DecidableEq

/-- The directory, the disk, the mappings that exist, and the variables of the program (base_storage.hpp 286, 348-357). -/
structure World (C : Type) where
  files : Nat → Option Nat
  nodes : Nat → Option (File C)
  maps : Nat → Option Mapping
  objs : Nat → Option Obj
  nextNode : Nat
  nextMap : Nat

variable {C : Type}

/-- base_storage.hpp 119-129 before anything: no variables, nothing mapped; the files `old` are there. -/
def World.start (old : List (File C)) : World C :=
  ⟨fun p => if p < old.length then some p else none, fun n => old[n]?, fun _ => none, fun _ => none, old.length, 0⟩

/-! ### Containers -/

/-- base_storage.hpp 268-276 `close`, 115-117. -/
def close (w : World C) (o : Obj) : World C × Obj :=
  match o.mapping with
  | none => (w, o)
  | some m => ({ w with maps := Function.update w.maps m none }, { o with mapping := none })

/-- base_storage.hpp 463 `file_mapping::remove`; without effect if there is no such file. -/
def remove (w : World C) (path : Option Nat) : World C :=
  match path with
  | none => w
  | some p => { w with files := Function.update w.files p none }

/-- base_storage.hpp 461-464 `destroy`. -/
def destroyFile (w : World C) (o : Obj) : World C × Obj := (remove (close w o).1 (close w o).2.path, (close w o).2)

/-- base_storage.hpp 436-438, 119-129 `create_only`: a new file; an exception if there is one.  `c` is what a new storage of this
kind holds. -/
def createOnly (w : World C) (o : Obj) (c : C) (size : Nat) : Outcome (World C × Obj) :=
  match o.path with
  | none => .throws
  | some p =>
    match w.files p with
    | some _ => .throws
    | none =>
      .ok ({ w with files := Function.update w.files p (some w.nextNode)
                    nodes := Function.update w.nodes w.nextNode (some ⟨c, size⟩)
                    maps := Function.update w.maps w.nextMap (some ⟨w.nextNode, true⟩)
                    nextNode := w.nextNode + 1, nextMap := w.nextMap + 1 },
           { o with mapping := some w.nextMap })

/-- base_storage.hpp 444-450, 143-151 `open_read_only` and `open`: an exception if there is no such file. -/
def openFile (w : World C) (o : Obj) (writable : Bool) : Outcome (World C × Obj) :=
  match o.path with
  | none => .throws
  | some p =>
    match w.files p with
    | none => .throws
    | some n =>
      .ok ({ w with maps := Function.update w.maps w.nextMap (some ⟨n, writable⟩), nextMap := w.nextMap + 1 },
           { o with mapping := some w.nextMap })

/-- The file that is mapped (base_storage.hpp 251-257). -/
def fileOf (w : World C) (mapping : Option Nat) : Option (File C) :=
  mapping.bind fun m => (w.maps m).bind fun p => w.nodes p.node

/-- base_storage.hpp 278-283 `size`. -/
def sizeOf (w : World C) (o : Obj) : Nat :=
  match fileOf w o.mapping with
  | none => 0
  | some f => f.size

/-- The file at a path gets another size, the content stays (boost: `grow` and `shrink_to_fit` of a managed file, base_storage.hpp 483,
503); without effect if there is no such file. -/
def resize (w : World C) (path : Option Nat) (size : C → Nat) : World C :=
  match path with
  | none => w
  | some p =>
    match w.files p with
    | none => w
    | some n => { w with nodes := Function.update w.nodes n ((w.nodes n).map fun f => ⟨f.value, size f.value⟩) }

/-- base_storage.hpp 475-487 `grow`. -/
def growFile (w : World C) (o : Obj) (size : Nat) : Outcome (World C × Obj) :=
  if size > sizeOf w o then openFile (resize (close w o).1 (close w o).2.path fun _ => size) (close w o).2 true else .ok (w, o)

/-- base_storage.hpp 493-499 `drop_grow`. -/
def dropGrowFile (w : World C) (o : Obj) (c : C) (size : Nat) : Outcome (World C × Obj) :=
  if size > sizeOf w o then createOnly (destroyFile w o).1 (destroyFile w o).2 c size else .ok (w, o)

/-- base_storage.hpp 501-507 `shrink_to_fit`; `need` says how much a content needs. -/
def shrinkFile (need : C → Nat) (w : World C) (o : Obj) (reopen : Bool) : Outcome (World C × Obj) :=
  if reopen then openFile (resize (close w o).1 (close w o).2.path fun c => need c + 1) (close w o).2 true
  else .ok (resize (close w o).1 (close w o).2.path fun c => need c + 1, (close w o).2)

/-! ### Storages -/

/-- The variable `s` becomes `o` (index_build_storage.hpp 348-357). -/
def put (w : World C) (s : Nat) (o : Obj) : World C := { w with objs := Function.update w.objs s (some o) }

/-- index_build_storage.hpp 359-373 `_prepare_allocator`: only if there is none. -/
def prepareAllocator (o : Obj) : Obj := if o.alloc = none then { o with alloc := o.mapping } else o

/-- index_build_storage.hpp 375-389 `_create`, `_open`: the pointers lead into the mapping. -/
def findRoots (o : Obj) : Obj := { o with roots := o.mapping }

/-- 200-218 with `DESTROY_AND_CREATE` (base_storage.hpp 456-459). -/
def construct (w : World C) (s p : Nat) (c : C) (size : Nat) (destroy shrink : Bool) : Outcome (World C) :=
  (createOnly (destroyFile w ⟨some p, none, none, none, destroy, shrink⟩).1
      (destroyFile w ⟨some p, none, none, none, destroy, shrink⟩).2 c size).map
    fun x => put x.1 s (findRoots (prepareAllocator x.2))

/-- index_build_storage.hpp 200-218 with `OPEN_READ_ONLY`. -/
def openStorage (w : World C) (s p : Nat) (destroy shrink : Bool) : Outcome (World C) :=
  (openFile w ⟨some p, none, none, none, destroy, shrink⟩ false).map fun x => put x.1 s (findRoots (prepareAllocator x.2))

/-- index_build_storage.hpp 327-341 `points`, `segments`: what is seen through the pointers. -/
def see (w : World C) (s : Nat) : Outcome C :=
  match w.objs s with
  | none => .ub
  | some o =>
    match fileOf w o.roots with
    | none => .ub
    | some f => .ok f.value

/-- Writing through the pointers, with memory from the allocator (index_build_helper.hpp 75-130): both have to lead into an existing
mapping that can be written. -/
def write (w : World C) (s : Nat) (f : C → C) : Outcome (World C) :=
  match w.objs s with
  | none => .ub
  | some o =>
    if o.alloc ≠ o.roots then .ub
    else match o.roots.bind w.maps with
      | none => .ub
      | some m =>
        if m.writable then
          match w.nodes m.node with
          | none => .ub
          | some x => .ok { w with nodes := Function.update w.nodes m.node (some { x with value := f x.value }) }
        else .ub

/-- 270-284 `grow(size)`; a container that was closed has no segment manager (base_storage.hpp 255-257). -/
def grow (w : World C) (s : Nat) (size : Nat) : Outcome (World C) :=
  match w.objs s with
  | none => .ub
  | some o =>
    (growFile w { o with alloc := none } size).bind fun x =>
      if x.2.mapping = none then .ub else .ok (put x.1 s (findRoots (prepareAllocator x.2)))

/-- index_build_storage.hpp 290-305 `drop_grow(size)`: if the size is not larger, the old objects are still there and cannot be constructed again. -/
def dropGrowTo (w : World C) (s : Nat) (c : C) (size : Nat) : Outcome (World C) :=
  match w.objs s with
  | none => .ub
  | some o =>
    if size > sizeOf w o then
      (dropGrowFile w { o with alloc := none } c size).map fun x => put x.1 s (findRoots (prepareAllocator x.2))
    else .throws

/-- index_build_storage.hpp 286-288 `drop_grow()`. -/
def dropGrow (w : World C) (s : Nat) (c : C) : Outcome (World C) :=
  match w.objs s with
  | none => .ub
  | some o => dropGrowTo w s c (2 * sizeOf w o)

/-- index_build_storage.hpp 307-309 `shrink_to_fit()`: the pointers and the allocator stay as they are. -/
def shrinkToFit (need : C → Nat) (w : World C) (s : Nat) : Outcome (World C) :=
  match w.objs s with
  | none => .ub
  | some o => (shrinkFile need w o true).map fun x => put x.1 s x.2

/-- What is left of an object that was moved from (222-231, base_storage.hpp 102-105, 426, graph_storage.hpp 225-238): no mapping, no
path, no pointers; the tags (350, 351) stay. -/
def emptied (o : Obj) : Obj := { o with path := none, mapping := none, roots := none, alloc := none }

/-- index_build_storage.hpp 222-231: `d` is constructed from `s`. -/
def moveConstruct (w : World C) (d s : Nat) : Outcome (World C) :=
  match w.objs s, w.objs d with
  | some o, none => .ok (put (put w s (emptied o)) d o)
  | _, _ => .ub

/-- 235-250, base_storage.hpp 107-113: `d` takes over what `s` has; what `d` had is forgotten. -/
def moveAssign (w : World C) (d s : Nat) : Outcome (World C) :=
  match w.objs s, w.objs d with
  | some o, some _ => if d = s then .ok w else .ok (put (put w s (emptied o)) d o)
  | _, _ => .ub

/-- 252-260: the destructor of the storage; the one of the container closes again, without effect (base_storage.hpp 115-117). -/
def finish (need : C → Nat) (w : World C) (o : Obj) : Outcome (World C) :=
  if o.shrink && !o.destroy then (shrinkFile need w o false).map Prod.fst
  else if o.destroy then .ok (destroyFile w o).1
  else .ok (close w o).1

/-- index_build_storage.hpp 252-260: the variable `s` ends. -/
def destruct (need : C → Nat) (w : World C) (s : Nat) : Outcome (World C) :=
  match w.objs s with
  | none => .ub
  | some o => (finish need w o).map fun w' => { w' with objs := Function.update w'.objs s none }

/-- What can be done with storages (index_build_storage.hpp 200-309). -/
inductive Op (C : Type) where
  | construct (s p : Nat) (c : C) (size : Nat) (destroy shrink : Bool)
  | openStorage (s p : Nat)
  | write (s : Nat) (f : C → C)
  | grow (s size : Nat)
  | dropGrow (s : Nat) (c : C)
  | shrinkToFit (s : Nat)
  | moveConstruct (d s : Nat)
  | moveAssign (d s : Nat)
  | destruct (s : Nat)

/-- One operation (200-309).  Storages that are opened are neither destroyed nor shrunk when closed (app/network.hpp 112-132, 190-214,
288-327). -/
def step (need : C → Nat) (w : World C) : Op C → Outcome (World C)
  | .construct s p c size d sh => if (w.objs s).isSome then .ub else construct w s p c size d sh
  | .openStorage s p => if (w.objs s).isSome then .ub else openStorage w s p false false
  | .write s f => write w s f
  | .grow s size => grow w s size
  | .dropGrow s c => dropGrow w s c
  | .shrinkToFit s => shrinkToFit need w s
  | .moveConstruct d s => moveConstruct w d s
  | .moveAssign d s => moveAssign w d s
  | .destruct s => destruct need w s

/-- Several operations (index_build_storage.hpp 200-309). -/
def run (need : C → Nat) : World C → List (Op C) → Outcome (World C)
  | w, [] => .ok w
  | w, op :: ops => (step need w op).bind fun w' => run need w' ops

/-- What a program that opens the file finds (base_storage.hpp 143-146). -/
def content (w : World C) (p : Nat) : Option C := (w.files p).bind fun n => (w.nodes n).map File.value

/-! ### Storages in memory

The same classes without a file (index_build_storage.hpp 32-153, graph_storage.hpp 31-166, index_storage.hpp 31-158, osm_handler_storage.hpp
84-191, tag_storage.hpp 119-397; lines of the first).  The members `_upstream` and `_memory` are null with the allocators in use (types.hpp
47-56). -/

/-- index_build_storage.hpp 119-126: the counter and the containers; these have an allocator that leads to their counter (148-151) and some blocks of memory. -/
structure MemObj where
  counter : Option Nat
  content : Option (Nat × Nat)
deriving DecidableEq

/-- The counters that exist and the variables (index_build_storage.hpp 119-126). -/
structure Heap where
  alive : Nat → Bool
  objs : Nat → Option MemObj
  next : Nat

/-- Nothing is there (index_build_storage.hpp 56-59). -/
def Heap.start : Heap := ⟨fun _ => false, fun _ => none, 0⟩

/-- The containers end: each block is given back and counted (counting_allocator.hpp 55-58). -/
def freeContent (h : Heap) (c : Option (Nat × Nat)) : Outcome Heap :=
  match c with
  | none => .ok h
  | some (k, n) => if n = 0 then .ok h else if h.alive k then .ok h else .ub

/-- The counter ends (index_build_storage.hpp 121). -/
def freeCounter (h : Heap) (c : Option Nat) : Heap :=
  match c with
  | none => h
  | some k => { h with alive := Function.update h.alive k false }

/-- What can be done with storages in memory (index_build_storage.hpp 56-86): made, used, moved, ended. -/
inductive MemOp where
  | construct (s : Nat)
  | allocate (s : Nat)
  | moveConstruct (d s : Nat)
  | moveAssign (d s : Nat)
  | destruct (s : Nat)

/-- index_build_storage.hpp 56-59, 128-151. -/
def memConstruct (h : Heap) (s : Nat) : Heap :=
  { alive := Function.update h.alive h.next true, objs := Function.update h.objs s (some ⟨some h.next, some (h.next, 0)⟩), next := h.next + 1 }

/-- index_build_storage.hpp 103-117: another block for the containers. -/
def memAllocate (h : Heap) (s : Nat) : Outcome Heap :=
  match h.objs s with
  | some ⟨c, some (k, n)⟩ =>
    if h.alive k then .ok { h with objs := Function.update h.objs s (some ⟨c, some (k, n + 1)⟩) } else .ub
  | _ => .ub

/-- index_build_storage.hpp 63-69: `d` is constructed from `s`, which is null afterwards. -/
def memMove (h : Heap) (d s : Nat) (o : MemObj) : Heap :=
  { h with objs := Function.update (Function.update h.objs s (some ⟨none, none⟩)) d (some o) }

/-- index_build_storage.hpp 73-85: the members are assigned in the order of their declaration, the old counter ends before the old containers. -/
def memAssign (h : Heap) (d s : Nat) : Outcome Heap :=
  match h.objs s, h.objs d with
  | some o, some old => if d = s then .ok h else (freeContent (freeCounter h old.counter) old.content).map fun h' => memMove h' d s o
  | _, _ => .ub

/-- index_build_storage.hpp 87: the members end in the opposite order. -/
def memDestruct (h : Heap) (s : Nat) : Outcome Heap :=
  match h.objs s with
  | none => .ub
  | some o => (freeContent h o.content).map fun h' => { freeCounter h' o.counter with objs := Function.update h'.objs s none }

/-- One operation (index_build_storage.hpp 56-117). -/
def memStep (h : Heap) : MemOp → Outcome Heap
  | .construct s => if (h.objs s).isSome then .ub else .ok (memConstruct h s)
  | .allocate s => memAllocate h s
  | .moveConstruct d s =>
    match h.objs s, h.objs d with
    | some o, none => .ok (memMove h d s o)
    | _, _ => .ub
  | .moveAssign d s => memAssign h d s
  | .destruct s => memDestruct h s

/-- Several operations (index_build_storage.hpp 56-117). -/
def memRun : Heap → List MemOp → Outcome Heap
  | h, [] => .ok h
  | h, op :: ops => (memStep h op).bind fun h' => memRun h' ops

end MM.Storage
