import Mathlib.Data.List.Basic

/-!
# The router: routing cache and assembly of the final route

Model of `src/library/include/matching/algorithm/route.hpp`, together with how learners write policies
(`learning/algorithms/value_iteration.hpp` 226-232, the same in policy_iteration.hpp 258-264, q_learning.hpp 211-217).
-/

set_option autoImplicit false

namespace MM.Router

/-- A policy entry (value_iteration.hpp 107): position of the candidate and number of its edge. -/
abbrev Entry := Nat × Nat

/-- value_iteration.hpp 226-232: a chosen edge is appended, anything else repeats the last entry if there is one. -/
def record (policy : List Entry) : Option Entry → List Entry
  | some e => policy ++ [e]
  | none => match policy.getLast? with
    | some b => policy ++ [b]
    | none => policy

/-- The policy written by a learner (value_iteration.hpp 188-245) for a sequence of moves (`none`: skipped or without action). -/
def policyOf (moves : List (Option Entry)) : List Entry := moves.foldl record []

/-- Operations on routes used by the assembly (matching/algorithm/route.hpp 250-303); their geometry is not modelled here. -/
structure Ops (G : Type) where
  route : Entry → Entry → G
  invalid : G → Bool
  hasLength : G → Bool
  joinable : G → G → Bool
  join : G → G → G × G

variable {G : Type}

/-- route.hpp 278-294: joining with the previous route (`joinable` stands for the tests on both routes, 279-288). -/
def joined (o : Ops G) (joins skipped : Bool) (routes : List G) (r : G) : List G × G :=
  match routes.getLast? with
  | some prev =>
    if joins && !skipped && !o.invalid r && o.joinable prev r then
      (routes.dropLast ++ [(o.join prev r).1], (o.join prev r).2)
    else (routes, r)
  | none => (routes, r)

/-- route.hpp 275-299: handling of one pair of entries. -/
def leg (o : Ops G) (joins : Bool) (routes : List G) (skipped : Bool) (p q : Entry) : List G × Bool :=
  if !o.invalid (joined o joins skipped routes (o.route p q)).2 &&
      o.hasLength (joined o joins skipped routes (o.route p q)).2 then
    ((joined o joins skipped routes (o.route p q)).1 ++ [(joined o joins skipped routes (o.route p q)).2], false)
  else ((joined o joins skipped routes (o.route p q)).1, skipped)

/-- route.hpp 250-303 `candidates_route`: the routes that are merged in the end.  A repeated position advances by two
entries. -/
def assemble (o : Ops G) (joins : Bool) : List Entry → List G → Bool → List G
  | p :: q :: rest, routes, skipped =>
    if p.1 = q.1 then assemble o joins rest routes true
    else assemble o joins (q :: rest) (leg o joins routes skipped p q).1 (leg o joins routes skipped p q).2
  | _, routes, _ => routes
termination_by l => l.length

/-- route.hpp 250-303. -/
def candidatesRoute (o : Ops G) (joins : Bool) (policy : List Entry) : List G := assemble o joins policy [] false

/-! ### The cache -/

/-- A request for a route: the key (matching/algorithm/route.hpp 107), and what a search on its behalf finds: paths with their end vertices
(56-98, 118-124); the search depends on the goals and the distance bound of the request, not only on the key. -/
structure Req (K P : Type) where
  key : K
  search : List (K × P)

variable {K P : Type} [DecidableEq K]

/-- route.hpp 126-148: every found path is stored unless its key is present. -/
def storeAll (cache : List (K × Option P)) : List (K × P) → List (K × Option P)
  | [] => cache
  | (k, r) :: rest =>
    match cache.lookup k with
    | some _ => storeAll cache rest
    | none => storeAll (cache ++ [(k, some r)]) rest

/-- route.hpp 126-156: searching: the key counts as found if a path has it; otherwise `no_route` is stored. -/
def searched (cache : List (K × Option P)) (q : Req K P) : Option P × List (K × Option P) :=
  if q.key ∈ q.search.map Prod.fst then
    (((storeAll cache q.search).lookup q.key).join, storeAll cache q.search)
  else (none, storeAll cache q.search ++ [(q.key, none)])

/-- route.hpp 100-159 `route`; `none` is the invalid route. -/
def route (cache : List (K × Option P)) (q : Req K P) : Option P × List (K × Option P) :=
  match cache.lookup q.key with
  | some r => (r, cache)
  | none => searched cache q

/-- The cache after a sequence of requests (matching/algorithm/route.hpp 100-159). -/
def after (cache : List (K × Option P)) (qs : List (Req K P)) : List (K × Option P) :=
  qs.foldl (fun c q => (route c q).2) cache

end MM.Router
