import Verif.Model.RichLine

/-!
# Routes given as lists of edge identifiers (io/track/edges_list_importer.hpp)

Not modelled: splitting rows into fields and parsing numbers (exceptions end the import).
-/

set_option autoImplicit false

namespace MM.EdgesList

open MM.Line

variable {P E : Type} [DecidableEq P]

/-- edges_list_importer.hpp 60-67: append an edge to the edges of its identifier. -/
def addEdge (m : List (Int × List E)) (x : Int × E) : List (Int × List E) :=
  match m with
  | [] => [(x.1, [x.2])]
  | (k, es) :: m => if k = x.1 then (k, es ++ [x.2]) :: m else (k, es) :: addEdge m x

/-- edges_list_importer.hpp 60-67: the edges of the network by identifier. -/
def edgeMap (edges : List (Int × E)) : List (Int × List E) := edges.foldl addEdge []

/-- edges_list_importer.hpp 89-99 `_is_connected`. -/
def isConnected (line : E → List P) : List E → Bool
  | a :: b :: es =>
    (match (line a).getLast?, (line b).head? with
      | some p, some q => decide (p = q)
      | _, _ => false) && isConnected line (b :: es)
  | _ => true

/-- edges_list_importer.hpp 128: the smallest identifier. -/
def minId : Int := -(2 ^ 63)

/-- edges_list_importer.hpp 154-171: state is the previous identifier and the candidates of the steps.  A map never holds an empty list, so the
branch that reports an unknown edge is never taken and `at` throws instead. -/
def stepOf (m : List (Int × List E)) (s : Int × List (List E) × Bool) (id : Int) : Outcome (Int × List (List E) × Bool) :=
  if id = s.1 then .ok s
  else match m.lookup id with
    | none => .throws
    | some [] => .ok (id, s.2.1, true)
    | some es => .ok (id, s.2.1 ++ [es], s.2.2)

/-- edges_list_importer.hpp 137-172: all rows. -/
def stepsLoop (m : List (Int × List E)) (s : Int × List (List E) × Bool) : List Int → Outcome (Int × List (List E) × Bool)
  | [] => .ok s
  | id :: ids => (stepOf m s id).bind (fun s' => stepsLoop m s' ids)

/-- edges_list_importer.hpp 214-222: the connected extensions of a path by a candidate of the step. -/
def expand (line : E → List P) (steps : List (List E)) (step : Nat) (cur : List E) : Outcome (List (Nat × List E)) :=
  if step < steps.length then
    match steps[step]? with
    | some es => .ok ((es.map (fun e => cur ++ [e])).filter (isConnected line) |>.map (fun p => (step + 1, p)))
    | none => .throws
  else .ok []

/-- edges_list_importer.hpp 202-205: the better of two paths. -/
def better (line : E → List P) (path cur : List E) : List E := if isConnected line cur ∧ cur.length > path.length then cur else path

/-- edges_list_importer.hpp 197-223: breadth first search from a step; the result tells whether the end was reached. -/
def search (line : E → List P) (steps : List (List E)) (count : Nat) : Nat → List E → List (Nat × List E) → Outcome (List E × Bool)
  | 0, _, _ => .ub
  | _ + 1, path, [] => .ok (path, false)
  | n + 1, path, (step, cur) :: q =>
    if isConnected line cur ∧ cur.length = count then .ok (better line path cur, true)
    else (expand line steps step cur).bind (fun more => search line steps count n (better line path cur) (q ++ more))

/-- edges_list_importer.hpp 207-210, 230: the step after a search. -/
def nextStep (steps : List (List E)) (start : Nat) (r : List E × Bool) : Nat :=
  (if r.2 then steps.length else start) + (if r.1.isEmpty then 1 else r.1.length)

/-- edges_list_importer.hpp 186-231: all searches; the edges of the paths in order. -/
def pathLoop (line : E → List P) (steps : List (List E)) (inner : Nat) : Nat → Nat → List E → Outcome (List E)
  | 0, _, _ => .ub
  | n + 1, start, edges =>
    if start < steps.length then
      (search line steps (steps.length - start) inner [] [(start, [])]).bind (fun r =>
        pathLoop line steps inner n (nextStep steps start r) (edges ++ r.1))
    else .ok edges

/-- What becomes of a file (edges_list_importer.hpp 118-238): nothing, or a track. -/
def readFile (line : E → List P) (proj : P → P) (edges : List (Int × E)) (fuel i : Nat) (file : Option (List Int)) :
    Outcome (Option (String × List (List P))) :=
  match file with
  | none => .ok none
  | some ids =>
    (stepsLoop (edgeMap edges) (minId, [], false) ids).bind (fun s =>
      if s.2.1.isEmpty || s.2.2 then .ok none
      else (pathLoop line s.2.1 fuel fuel 0 []).bind (fun path =>
        (multiMerge [] (path.map line)).map (fun ls => some (toString i, ls.map (List.map proj)))))

/-- edges_list_importer.hpp 116-238: all files; the tracks passed on, and how the import ends. -/
def readFiles (line : E → List P) (proj : P → P) (edges : List (Int × E)) (fuel : Nat) :
    Nat → List (Option (List Int)) → List (String × List (List P)) → List (String × List (List P)) × Outcome Unit
  | _, [], out => (out, .ok ())
  | i, f :: fs, out =>
    match readFile line proj edges fuel i f with
    | .ok t => readFiles line proj edges fuel (i + 1) fs (out ++ t.toList)
    | .throws => (out, .throws)
    | .ub => (out, .ub)

end MM.EdgesList
