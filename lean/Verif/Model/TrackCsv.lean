import Mathlib.Data.List.Basic

/-!
# Tracks in csv files (io/track/csv_track_importer.hpp, src/io/csv_importer.cpp)

A row is given by the fields of its identifier, its time and its geometry.  Not modelled: missing columns and malformed numbers, times and
geometries (exceptions end the import), and which fields are read.
-/

set_option autoImplicit false

namespace MM.TrackCsv

variable {P : Type}

/-- Geometry of a row (csv_track_importer.hpp 127-188): a point (also from two fields, 189-212), a line, several lines, an empty collection,
or something else, which is skipped. -/
inductive Geom (P : Type)
  | point (p : P)
  | line (l : List P)
  | multi (ls : List (List P))
  | empty
  | other

/-- A row: the fields of the identifier, the time if it has one that is a number or can be parsed (csv_track_importer.hpp 94-125), the geometry. -/
structure Row (P : Type) where
  fields : List String
  time : Option Nat
  geom : Geom P

/-- csv_settings.hpp 25-36: the settings used. -/
structure Settings where
  noId : Bool
  wholeFile : Bool
  grouped : Bool
  aggregator : String

/-- csv_track_importer.hpp 80-89: fields are appended, with the aggregator between unless nothing stands before. -/
def joinFields (agg : String) (fields : List String) : String :=
  fields.foldl (fun id f => (if id.isEmpty then id else id ++ agg) ++ f) ""

/-- csv_track_importer.hpp 72-89: the identifier of a row. -/
def rowId (s : Settings) (file row : Nat) (r : Row P) : String :=
  if s.noId then (if s.wholeFile then toString file else toString row) else joinFields s.aggregator r.fields

/-- csv_track_importer.hpp 147-149, 156-158, 165-167: the identifier of a line. -/
def lineId (s : Settings) (file row : Nat) (r : Row P) : String := if s.noId then toString row else rowId s file row r

/-- A row as it is processed (csv_track_importer.hpp 68-214). -/
structure Item (P : Type) where
  id : String
  lineId : String
  time : Option Nat
  geom : Geom P

/-- src/io/csv_importer.cpp 33-51: the rows of all files, numbered in each file; skipped lines left out. -/
def items (s : Settings) (files : List (List (Row P))) : List (Item P) :=
  files.zipIdx.flatMap (fun f => f.1.zipIdx.map (fun r => ⟨rowId s f.2 r.2 r.1, lineId s f.2 r.2 r.1, r.1.time, r.1.geom⟩))

/-- A track that is passed on (csv_track_importer.hpp 153, 162, 170, 230): from points or from lines. -/
inductive Track (P : Type)
  | points (id : String) (l : List P)
  | lines (id : String) (ls : List (List P))

/-- csv_track_importer.hpp 241-243 and what was passed on. -/
structure St (P : Type) where
  current : Option String
  pending : List (String × List (Nat × P))
  out : List (Track P)

/-- What the code leaves open: `std::sort` for measurements with equal times (csv_track_importer.hpp 228), and the order of an unordered map (223). -/
structure Choice (P : Type) where
  sort : List (Nat × P) → List (Nat × P)
  order : List (String × List (Nat × P)) → List (String × List (Nat × P))

/-- csv_track_importer.hpp 216-238 `finish_import`; `sel` holds if there are no selectors or the identifier is one of them. -/
def finish (c : Choice P) (sel : String → Bool) (s : St P) : St P :=
  { s with
    pending := []
    out := s.out ++ ((c.order s.pending).filter (fun x => sel x.1)).map (fun x => .points x.1 ((c.sort x.2).map Prod.snd)) }

/-- csv_track_importer.hpp 91-93. -/
def flush (c : Choice P) (sel : String → Bool) (grouped : Bool) (id : String) (s : St P) : St P :=
  if s.current.isSome ∧ grouped ∧ s.current ≠ some id then finish c sel s else s

/-- csv_track_importer.hpp 133-143, 205-211: append a measurement. -/
def addTo (m : List (String × List (Nat × P))) (id : String) (x : Nat × P) : List (String × List (Nat × P)) :=
  match m with
  | [] => [(id, [x])]
  | (k, xs) :: m => if k = id then (k, xs ++ [x]) :: m else (k, xs) :: addTo m id x

/-- csv_track_importer.hpp 110-125: the time, or the number of measurements so far. -/
def stamp (m : List (String × List (Nat × P))) (i : Item P) : Nat := i.time.getD (((m.lookup i.id).map List.length).getD 0)

/-- csv_track_importer.hpp 127-188: what a row adds; `proj` is the reprojection of a point. -/
def apply (proj : P → P) (sel : String → Bool) (i : Item P) (s : St P) : St P :=
  match i.geom with
  | .point p => { s with pending := addTo s.pending i.id (stamp s.pending i, proj p), current := some i.id }
  | .line l => { s with out := if sel i.lineId then s.out ++ [.lines i.lineId [l.map proj]] else s.out, current := some i.lineId }
  | .multi ls => { s with out := if sel i.lineId then s.out ++ [.lines i.lineId (ls.map (List.map proj))] else s.out, current := some i.lineId }
  | .empty => { s with out := if sel i.lineId then s.out ++ [.lines i.lineId [[]]] else s.out, current := some i.lineId }
  | .other => { s with current := some i.id }

/-- csv_track_importer.hpp 68-214 `process_row`. -/
def step (proj : P → P) (c : Choice P) (sel : String → Bool) (grouped : Bool) (s : St P) (i : Item P) : St P :=
  apply proj sel i (flush c sel grouped i.id s)

/-- src/io/csv_importer.cpp 27-54 `read`. -/
def read (proj : P → P) (c : Choice P) (sel : String → Bool) (grouped : Bool) (is : List (Item P)) : List (Track P) :=
  (finish c sel (is.foldl (step proj c sel grouped) ⟨none, [], []⟩)).out

end MM.TrackCsv
