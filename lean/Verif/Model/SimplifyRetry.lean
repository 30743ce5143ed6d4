import Verif.Model.NetImport
import Verif.Model.GraphHelper

/-!
# Simplifying a network in storage that has to grow

Model of `io/helper/graph_helper.hpp` 161-187 `simplify`, which repeats `network_import::simplify`
(`geometry/network/network_import.hpp` 68-106) after a failed allocation, and of the resumption in the latter.

The graph is the one of `NetImport`.  The marked vertex is compared by its index in the program; indices are distinct
while the network is simplified (the reader adds vertices at the end and removes none, and `reindex` is called only at
the end), so that the model uses the vertex itself.
-/

set_option autoImplicit false

namespace MM.SimplifyRetry

open MM.Net

variable {P : Type} [DecidableEq P]

/-- Where merging two edges runs out of memory: not at all, when the line is extended (rich_line.hpp 496 `reserve`, before
anything is changed) or when the new edge is added (network_import.hpp 291). -/
inductive Halt where
  | none | reserve | add
  deriving DecidableEq, Repr

/-- network_import.hpp 269-270 with the graph; `pending` is not part of the program, it tells which allocations will fail. -/
structure Sim (P : Type) where
  net : Net P
  running : Bool := false
  mark : Option Nat := none
  pending : List Halt := []

/-- network_import.hpp 286-288: both edges are removed. -/
def removed (g : Net P) (p : NEdge P × NEdge P) : Net P :=
  { g with edges := g.edges.filter (fun e => decide (e.eid ≠ p.1.eid ∧ e.eid ≠ p.2.eid)) }

/-- network_import.hpp 272-297 `_merge`; false: it ran out of memory.  With an empty line nothing is reserved (edge.hpp
73-77). -/
def mergeTry (h : Halt) (g : Net P) (p : NEdge P × NEdge P) : Outcome (Net P × Bool) :=
  match h with
  | .none => (mergeOne g p).map (fun g' => (g', true))
  | .reserve =>
    if p.1.line = [] ∨ p.2.line = [] then (mergeOne g p).map (fun g' => (g', true)) else .ok (g, false)
  | .add => (mergeLines p.1.line p.2.line).map (fun _ => (removed g p, false))

/-- network_import.hpp 93-95: the merges of one vertex; the remaining failures and whether all merges were made. -/
def mergeAllTry : List (NEdge P × NEdge P) → Net P → List Halt → Outcome (Net P × List Halt × Bool)
  | [], g, hs => .ok (g, hs, true)
  | p :: ps, g, hs =>
    match mergeTry (hs.headD .none) g p with
    | .ok (g', true) => mergeAllTry ps g' hs.tail
    | .ok (g', false) => .ok (g', hs.tail, false)
    | .throws => .throws
    | .ub => .ub

/-- network_import.hpp 88-98: the vertex is marked, then merged. -/
def mergeMarked (v : Nat) (ps : List (NEdge P × NEdge P)) (s : Sim P) : Outcome (Sim P × Bool) :=
  if ps = [] then .ok (s, true)
  else (mergeAllTry ps s.net s.pending).map (fun r => ({ s with net := r.1, mark := some v, pending := r.2.1 }, r.2.2))

/-- network_import.hpp 86-99: one vertex. -/
def vertexTry (complete : Bool) (v : Nat) (s : Sim P) : Outcome (Sim P × Bool) :=
  if isMergeable s.net v then mergeMarked v (merges complete s.net v) s else .ok (s, true)

/-- network_import.hpp 77-100: the loop; `was` is `was_running`. -/
def loop (complete : Bool) : Bool → List Nat → Sim P → Outcome (Sim P × Bool)
  | _, [], s => .ok (s, true)
  | was, v :: vs, s =>
    if was && s.mark.isSome && decide (s.mark ≠ some v) then loop complete was vs s
    else
      match vertexTry complete v s with
      | .ok (t, true) => loop complete (was && !s.mark.isSome) vs t
      | .ok (t, false) => .ok (t, false)
      | .throws => .throws
      | .ub => .ub

/-- network_import.hpp 68-106 `simplify`, one attempt (`some`: it returned). -/
def attempt (complete : Bool) (s : Sim P) : Outcome (Sim P × Option Unit) :=
  match loop complete s.running s.net.verts { s with running := true } with
  | .ok (t, true) => .ok ({ t with running := false, mark := none }, some ())
  | .ok (t, false) => .ok (t, none)
  | .throws => .throws
  | .ub => .ub

/-- graph_helper.hpp 161-187 `simplify`: one retry, after the storage was doubled. -/
def simplifyMapped (complete : Bool) (s : Sim P) : Outcome (Sim P × Option Unit) :=
  GHelper.retry (attempt complete) (fun s => s) 1 s

end MM.SimplifyRetry
