import Verif.Model.Ordering

/-!
# Nodes, edges, lines and segments as keys (geometry/network/node.hpp, edge.hpp, rich_type/rich_line.hpp, rich_segment.hpp, algorithm/equals.hpp)

Equality and hashes, and the hashed maps and sets they are used in (network_import.hpp 160, 242).  Coordinates are the numbers of
`Verif.Model.Ordering`; the hash of a number and `boost::hash_combine` are parameters.  A hashed container of the library is a number of
buckets; its probing and its growth are not modelled beyond the redistribution of the entries.
-/

set_option autoImplicit false

namespace MM.Keys

open MM.Ordering

variable {L : Type} [LinearOrder L]

/-- A point of two dimensions (point.hpp 48). -/
structure Pt (L : Type) where
  x : Num L
  y : Num L
deriving DecidableEq

/-- equals.hpp 31-46 `equals_points`, two dimensions (37-39). -/
def equalsPoints (a b : Pt L) : Bool := a.x.eq b.x && a.y.eq b.y

/-- point.hpp 46-50 `==`, two dimensions. -/
def Pt.eq (a b : Pt L) : Bool := pointEq [a.x, a.y] [b.x, b.y]

/-- How the library hashes (boost/container_hash, point.hpp 22, 33; node.hpp 152): hash of a number, of what is not a number, of an
integer, the combination, and the first seed. -/
structure Hashing (L W : Type) where
  num : L → W
  nan : W
  int : Nat → W
  mix : W → W → W
  zero : W

variable {W : Type}

/-- point.hpp 41-44 `hash_value`. -/
def Pt.hash (H : Hashing L W) (a : Pt L) : W := pointHash H.num H.nan H.mix H.zero [a.x, a.y]

/-- rich_segment.hpp 227: the two points. -/
structure Seg (L : Type) where
  first : Pt L
  second : Pt L
deriving DecidableEq

/-- rich_segment.hpp 198-201 `==`. -/
def Seg.eq (a b : Seg L) : Bool := equalsPoints a.first b.first && equalsPoints a.second b.second

/-- rich_segment.hpp 207-212 `hash_value`. -/
def Seg.hash (H : Hashing L W) (a : Seg L) : W := H.mix (H.mix H.zero (a.first.hash H)) (a.second.hash H)

/-- rich_line.hpp 523-527: the loop over the positions. -/
def linePoints (a b : List (Pt L)) : Bool :=
  (List.range a.length).all fun i =>
    match a[i]?, b[i]? with
    | some p, some q => equalsPoints p q
    | _, _ => false

/-- rich_line.hpp 516-531 `==`. -/
def lineEq (a b : List (Pt L)) : Bool := if a.length ≠ b.length then false else linePoints a b

/-- rich_line.hpp 541-547 `hash_value`. -/
def lineHash (H : Hashing L W) (a : List (Pt L)) : W := a.foldl (fun seed p => H.mix seed (p.hash H)) H.zero

/-- node.hpp 38-39: the data of a vertex. -/
structure Node (L : Type) where
  id : Nat
  point : Pt L
deriving DecidableEq

/-- node.hpp 138-140 `==`. -/
def Node.eq (a b : Node L) : Bool := decide (a.id = b.id) && equalsPoints a.point b.point

/-- node.hpp 150-155 `hash_value`. -/
def Node.hash (H : Hashing L W) (a : Node L) : W := H.mix (H.mix H.zero (H.int a.id)) (a.point.hash H)

/-- edge.hpp 34-35: the data of an edge. -/
structure Edge (L : Type) where
  id : Nat
  line : List (Pt L)
deriving DecidableEq

/-- edge.hpp 144-147 `==`. -/
def Edge.eq (a b : Edge L) : Bool := decide (a.id = b.id) && lineEq a.line b.line

/-- edge.hpp 157-162 `hash_value`. -/
def Edge.hash (H : Hashing L W) (a : Edge L) : W := H.mix (H.mix H.zero (H.int a.id)) (lineHash H a.line)

/-- A hashed map (network_import.hpp 160): its entries by bucket. -/
structure Table (K V : Type) where
  n : Nat
  buckets : Nat → List (K × V)

/-- An empty map (network_import.hpp 160). -/
def Table.empty {K V : Type} (n : Nat) : Table K V := ⟨n, fun _ => []⟩

variable {K V : Type}

/-- `find` (network_import.hpp 177), `contains` (255): only the bucket of the hash is searched. -/
def Table.find (eq : K → K → Bool) (hash : K → Nat) (t : Table K V) (k : K) : Option V :=
  ((t.buckets (hash k % t.n)).find? (fun e => eq e.1 k)).map Prod.snd

/-- Entries of one bucket replaced (network_import.hpp 229, 233). -/
def Table.set (t : Table K V) (b : Nat) (l : List (K × V)) : Table K V := ⟨t.n, fun c => if c = b then l else t.buckets c⟩

/-- `emplace` (network_import.hpp 233, 260): nothing happens if the key is there. -/
def Table.emplace (eq : K → K → Bool) (hash : K → Nat) (t : Table K V) (k : K) (v : V) : Table K V :=
  match t.find eq hash k with
  | some _ => t
  | none => t.set (hash k % t.n) (t.buckets (hash k % t.n) ++ [(k, v)])

/-- `erase` of what was found (network_import.hpp 229): the first entry in the bucket with this key. -/
def Table.erase (eq : K → K → Bool) (hash : K → Nat) (t : Table K V) (k : K) : Table K V :=
  t.set (hash k % t.n) ((t.buckets (hash k % t.n)).eraseP (fun e => eq e.1 k))

/-- All entries, bucket by bucket (library of network_import.hpp 160). -/
def Table.entries (t : Table K V) : List (K × V) := (List.range t.n).flatMap t.buckets

/-- Growth (library of network_import.hpp 160): the entries are distributed anew. -/
def Table.rehash (hash : K → Nat) (t : Table K V) (n : Nat) : Table K V :=
  ⟨n, fun b => t.entries.filter (fun e => decide (hash e.1 % n = b))⟩

/-- What is done to a map (network_import.hpp 177, 229, 233, 255, 260). -/
inductive Op (K V : Type) where
  | find (k : K)
  | emplace (k : K) (v : V)
  | erase (k : K)
  | grow (n : Nat)

/-- One operation; a search has an answer (network_import.hpp 177-233). -/
def Table.step (eq : K → K → Bool) (hash : K → Nat) (t : Table K V) : Op K V → Table K V × List (Option V)
  | .find k => (t, [t.find eq hash k])
  | .emplace k v => (t.emplace eq hash k v, [])
  | .erase k => (t.erase eq hash k, [])
  | .grow n => (t.rehash hash (n + 1), [])

/-- A sequence of operations and its answers (network_import.hpp 169-235, 250-261). -/
def Table.run (eq : K → K → Bool) (hash : K → Nat) : Table K V → List (Op K V) → List (Option V)
  | _, [] => []
  | t, o :: os => (t.step eq hash o).2 ++ Table.run eq hash (t.step eq hash o).1 os

end MM.Keys
