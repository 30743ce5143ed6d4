import Verif.Model.Outcome

/-!
# Tags of nodes and edges (io/helper/tag_helper.hpp) and retried allocations (io/memory_mapped/utils.hpp)

An allocation that may fail takes the next element of a list of verdicts; `true`: it fails.  An insertion into a map that
fails has no effect.
-/

set_option autoImplicit false

namespace MM.Tags

/-! ### Retries -/

section Retry

variable {S A : Type}

/-- utils.hpp 72-87 `retry_alloc`; `none`: `bad_alloc` was thrown. -/
def retryAlloc (attempt : S → S × Option A) (grow : S → S) : Nat → S → S × Option A
  | 0, s =>
    match attempt s with
    | (t, some a) => (t, some a)
    | (t, none) => (grow t, none)
  | r + 1, s =>
    match attempt s with
    | (t, some a) => (t, some a)
    | (t, none) => retryAlloc attempt grow r (grow t)

end Retry

/-! ### Maps -/

section Maps

variable {K V : Type} [DecidableEq K]

/-- `find` of a map (tag_helper.hpp 92, 107, 123, 208). -/
def find (m : List (K × V)) (k : K) : Option V := (m.find? (fun e => decide (e.1 = k))).map Prod.snd

/-- `emplace` of a map, without effect if the key exists (tag_helper.hpp 96, 97, 334). -/
def emplace (m : List (K × V)) (k : K) (v : V) : List (K × V) := if (find m k).isSome then m else m ++ [(k, v)]

/-- `erase` of a map (tag_helper.hpp 99, 100). -/
def erase (m : List (K × V)) (k : K) : List (K × V) := m.filter (fun e => decide (e.1 ≠ k))

/-- Verdict on the next allocation (tag_helper.hpp 92-136) and the remaining ones. -/
def verdict : List Bool → Bool × List Bool
  | [] => (false, [])
  | b :: bs => (b, bs)

/-- Result of `intern` (tag_helper.hpp 92-136). -/
structure Interned (K : Type) where
  fwd : List (K × Nat)
  bwd : List (Nat × K)
  id : Option Nat
  rest : List Bool

/-- tag_helper.hpp 92-105, also 107-120 and 122-136: find the id, or insert into both maps; undo both if one fails. -/
def intern (fwd : List (K × Nat)) (bwd : List (Nat × K)) (x : K) (fails : List Bool) : Interned K :=
  match find fwd x with
  | some i => ⟨fwd, bwd, some i, fails⟩
  | none =>
    if (verdict fails).1 then ⟨erase fwd x, erase bwd fwd.length, none, (verdict fails).2⟩
    else if (verdict (verdict fails).2).1 then
      ⟨erase (emplace fwd x fwd.length) x, erase bwd fwd.length, none, (verdict (verdict fails).2).2⟩
    else ⟨emplace fwd x fwd.length, emplace bwd fwd.length x, some fwd.length, (verdict (verdict fails).2).2⟩

end Maps

/-- The maps of tag_storage.hpp 333-342. -/
structure State where
  keyId : List (String × Nat) := []
  idKey : List (Nat × String) := []
  valueId : List (String × Nat) := []
  idValue : List (Nat × String) := []
  ids : List ((Nat × Nat) × Nat) := []
  tags : List (Nat × (Nat × Nat)) := []
  finalized : Bool := false
  deriving DecidableEq

/-- tag_helper.hpp 122-138. -/
def pairStep (st : State) (ki vi : Nat) (fails : List Bool) : (State × List Bool) × Option Nat :=
  let p := intern st.ids st.tags (ki, vi) fails
  (({ st with ids := p.fwd, tags := p.bwd }, p.rest), p.id)

/-- tag_helper.hpp 107-138. -/
def valueStep (st : State) (ki : Nat) (v : String) (fails : List Bool) : (State × List Bool) × Option Nat :=
  let p := intern st.valueId st.idValue v fails
  match p.id with
  | none => (({ st with valueId := p.fwd, idValue := p.bwd }, p.rest), none)
  | some vi => pairStep { st with valueId := p.fwd, idValue := p.bwd } ki vi p.rest

/-- tag_helper.hpp 89-139 `_id`. -/
def attempt (k v : String) (s : State × List Bool) : (State × List Bool) × Option Nat :=
  let p := intern s.1.keyId s.1.idKey k s.2
  match p.id with
  | none => (({ s.1 with keyId := p.fwd, idKey := p.bwd }, p.rest), none)
  | some ki => valueStep { s.1 with keyId := p.fwd, idKey := p.bwd } ki v p.rest

/-- tag_helper.hpp 84-157 `id`; `none`: an exception.  Growing (242-248) keeps the contents. -/
def id (st : State) (k v : String) (retry : Bool) (fails : List Bool) : State × Option Nat :=
  if st.finalized then (st, none)
  else if retry then
    ((retryAlloc (attempt k v) (fun s => s) 1 (st, fails)).1.1, (retryAlloc (attempt k v) (fun s => s) 1 (st, fails)).2)
  else ((attempt k v (st, fails)).1.1, (attempt k v (st, fails)).2)

/-- tag_helper.hpp 207-217 `tag`. -/
def tag (st : State) (n : Nat) : Outcome (String × String) :=
  match find st.tags n with
  | none => .throws
  | some p =>
    match find st.idKey p.1, find st.idValue p.2 with
    | some k, some v => .ok (k, v)
    | _, _ => .throws

/-- tag_storage.hpp 302-307 `finalize`. -/
def finalize (st : State) : State := { st with keyId := [], valueId := [], ids := [], finalized := true }

/-- A call of `id` (tag_helper.hpp 84) or of `finalize` (223-225). -/
inductive Call where
  | id (k v : String) (retry : Bool) (fails : List Bool)
  | finalize

/-- The state after one call (tag_helper.hpp 84, 223-225). -/
def call (st : State) : Call → State
  | .id k v retry fails => (id st k v retry fails).1
  | .finalize => finalize st

/-- The state after a history of calls (tag_helper.hpp 84, 223-225). -/
def run : State → List Call → State
  | st, [] => st
  | st, c :: cs => run (call st c) cs

/-! ### Tags of elements -/

/-- tag_helper.hpp 440-447 `map_tags`. -/
def mapTags (m : List (Nat × List Nat)) (i : Nat) : List Nat := (find m i).getD []

/-- tag_helper.hpp 331-348 `set_map_tags`, without allocation failures. -/
def setMapTags (m : List (Nat × List Nat)) (i : Nat) (tags : List Nat) : List (Nat × List Nat) :=
  if tags = [] then m else emplace m i tags

/-- Assignment to the vector of an existing key (tag_helper.hpp 410-420). -/
def update (m : List (Nat × List Nat)) (i : Nat) (tags : List Nat) : List (Nat × List Nat) :=
  m.map (fun e => if e.1 = i then (i, tags) else e)

/-- tag_helper.hpp 396-438 `merge_map_tags`, without allocation failures. -/
def mergeMapTags (m : List (Nat × List Nat)) (i j : Nat) : List (Nat × List Nat) :=
  if i = j then m
  else
    match find m j with
    | none => m
    | some other =>
      match find m i with
      | some own => update m i (own ++ other.filter (fun t => decide (t ∉ own)))
      | none => emplace m i other

/-! ### Tags of elements while the memory mapped storage grows

`grow` closes and opens the file again (base_storage.hpp 373-384, 471-490, tag_storage.hpp 537-550).  All references into it are
void then.  `gen` counts how often that happened; a reference remembers the count at its creation. -/

/-- The memory mapped storage (tag_helper.hpp 331-447): one of the maps of elements. -/
structure Mem where
  gen : Nat
  map : List (Nat × List Nat)
  fails : List Bool
  deriving DecidableEq

/-- tag_helper.hpp 242-248 `handle_bad_alloc`. -/
def grow (m : Mem) : Mem := { m with gen := m.gen + 1 }

/-- One allocation (tag_helper.hpp 334, 361, 381, 423). -/
def alloc (m : Mem) : Mem × Bool := ({ m with fails := (verdict m.fails).2 }, (verdict m.fails).1)

/-- `retry_alloc` (utils.hpp 72-87, one retry) for operations that can also be undefined. -/
def retryMem {A : Type} (attempt : Mem → Outcome (Mem × Option A)) (m : Mem) : Outcome (Mem × Option A) :=
  (attempt m).bind fun r =>
    match r.2 with
    | some a => .ok (r.1, some a)
    | none =>
      (attempt (grow r.1)).bind fun r' =>
        match r'.2 with
        | some a => .ok (r'.1, some a)
        | none => .ok (grow r'.1, none)

/-- Use of a reference (or of a vector whose elements are in the storage; tag_helper.hpp 331-438). -/
def deref (m : Mem) (g : Nat) : Outcome Unit := if m.gen = g then .ok () else .ub

/-- `map.emplace` through a reference to the map (tag_helper.hpp 334, 361, 381, 423); `g`: when the reference was made;
`h`: when the vector was made. -/
def emplaceMem (g h i : Nat) (tags : List Nat) (m : Mem) : Outcome (Mem × Option Unit) :=
  (deref m g).bind fun _ => (deref m h).bind fun _ =>
    if (alloc m).2 then .ok ((alloc m).1, none)
    else .ok ({ (alloc m).1 with map := emplace m.map i tags }, some ())

/-- tag_helper.hpp 331-348 `set_map_tags`: the vector `tags` was made in generation `h`; each attempt fetches the map anew. -/
def setMem (h i : Nat) (tags : List Nat) (m : Mem) : Outcome (Mem × Option Unit) :=
  if tags = [] then .ok (m, some ()) else retryMem (fun m => emplaceMem m.gen h i tags m) m

/-- tag_helper.hpp 288-305 `copy_tags` of a vector in the storage, referred to since generation `g`. -/
def copyMem (g : Nat) (tags : List Nat) : Mem → Outcome (Mem × Option (List Nat)) :=
  retryMem (fun m => (deref m g).bind fun _ =>
    if (alloc m).2 then .ok ((alloc m).1, none) else .ok ((alloc m).1, some tags))

/-- tag_helper.hpp 398-426 `_merge_map_tags`. -/
def mergeOnce (i j : Nat) (m : Mem) : Outcome (Mem × Option Unit) :=
  match find m.map j with
  | none => .ok (m, some ())
  | some other =>
    match find m.map i with
    | some own =>
      if (alloc m).2 then .ok ((alloc m).1, none)
      else .ok ({ (alloc m).1 with map := update m.map i (own ++ other.filter (fun t => decide (t ∉ own))) }, some ())
    | none =>
      (copyMem m.gen other m).bind fun r =>
        match r.2 with
        | none => .ok (r.1, none)
        | some tags => emplaceMem m.gen r.1.gen i tags r.1

/-- tag_helper.hpp 396-438 `merge_map_tags`. -/
def mergeMem (i j : Nat) (m : Mem) : Outcome (Mem × Option Unit) :=
  if i = j then .ok (m, some ()) else retryMem (mergeOnce i j) m

/-- tag_helper.hpp 308-329 `clone_tags`: the tags come from another storage; interning them takes allocations. -/
def cloneTags (tags : List Nat) : Mem → Outcome (Mem × Option (List Nat)) :=
  retryMem (fun m => if (alloc m).2 then .ok ((alloc m).1, none) else .ok ((alloc m).1, some tags))

/-- tag_helper.hpp 376-394 `clone_map_tags`. -/
def cloneMem (i : Nat) (tags : List Nat) : Mem → Outcome (Mem × Option Unit) :=
  retryMem (fun m =>
    if tags = [] then .ok (m, some ())
    else
      (cloneTags tags m).bind fun r =>
        match r.2 with
        | none => .ok (r.1, none)
        | some ts => emplaceMem m.gen r.1.gen i ts r.1)

end MM.Tags
