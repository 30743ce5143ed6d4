import Verif.Model.Router
import Mathlib.Data.List.Induction
import Mathlib.Tactic.SplitIfs

/-!
# C19 and C22: route assembly and routing cache
-/

set_option autoImplicit false
set_option linter.unusedSectionVars false

namespace MM.Router

variable {G : Type}

/-! ### C19 -/

/-- Moves of a learner, written as entries with the number of moves without edge that follow each. -/
def expand (cs : List (Entry × Nat)) : List (Option Entry) :=
  cs.flatMap (fun c => some c.1 :: List.replicate c.2 none)

/-- What the final route should consist of: a route between consecutive entries unless something was skipped between. -/
def wanted : List (Entry × Nat) → List (Entry × Entry)
  | c :: d :: rest => if c.2 = 0 then (c.1, d.1) :: wanted (d :: rest) else wanted (d :: rest)
  | _ => []

/-- Consecutive entries are of different candidates (positions of the process only increase). -/
def Proper : List (Entry × Nat) → Prop
  | c :: d :: rest => c.1.1 ≠ d.1.1 ∧ Proper (d :: rest)
  | _ => True

/-- Policies repeat an entry once per move without edge. -/
theorem policy_repeats (cs : List (Entry × Nat)) :
    policyOf (expand cs) = cs.flatMap (fun c => List.replicate (c.2 + 1) c.1) := by
  have key : ∀ (cs : List (Entry × Nat)) (pol : List Entry),
      (expand cs).foldl record pol = pol ++ cs.flatMap (fun c => List.replicate (c.2 + 1) c.1) := by
    intro cs
    induction cs with
    | nil => intro pol; simp [expand]
    | cons c cs ih =>
      intro pol
      have hrep : ∀ m pol', (List.replicate m (none : Option Entry)).foldl record (pol' ++ [c.1]) =
          pol' ++ List.replicate (m + 1) c.1 := by
        intro m
        induction m with
        | zero => intro pol'; rfl
        | succ m ihm =>
          intro pol'
          rw [List.replicate_succ, List.foldl_cons]
          have : record (pol' ++ [c.1]) none = (pol' ++ [c.1]) ++ [c.1] := by simp [record]
          rw [this, ihm, List.replicate_succ (n := m + 1)]
          simp
      have he : expand (c :: cs) = some c.1 :: (List.replicate c.2 none ++ expand cs) := by simp [expand]
      rw [he, List.foldl_cons, List.foldl_append]
      rw [show record pol (some c.1) = pol ++ [c.1] from rfl, hrep, ih]
      simp
  simpa [policyOf] using key cs []

theorem assemble_cons2 (o : Ops G) (joins : Bool) (p q : Entry) (rest : List Entry) (routes : List G) (sk : Bool) :
    assemble o joins (p :: q :: rest) routes sk =
      if p.1 = q.1 then assemble o joins rest routes true
      else assemble o joins (q :: rest) (leg o joins routes sk p q).1 (leg o joins routes sk p q).2 := by
  rw [assemble]

theorem assemble_pair (o : Ops G) (joins : Bool) (x : Entry) (m : Nat) (rest : List Entry) (routes : List G) (sk : Bool) :
    assemble o joins (List.replicate (m + 2) x ++ rest) routes sk =
      assemble o joins (List.replicate m x ++ rest) routes true := by
  rw [List.replicate_succ, List.replicate_succ, List.cons_append, List.cons_append, assemble, if_pos rfl]

theorem assemble_odd (o : Ops G) (joins : Bool) (x : Entry) : ∀ (m : Nat), m % 2 = 1 → ∀ (rest : List Entry)
    (routes : List G) (sk : Bool), assemble o joins (List.replicate (m + 1) x ++ rest) routes sk =
      assemble o joins rest routes true := by
  intro m
  induction m using Nat.strongRecOn with
  | ind m ih =>
    intro hm rest routes sk
    match m with
    | 0 => cases hm
    | 1 => rw [assemble_pair]; rfl
    | m + 2 => rw [show m + 2 + 1 = (m + 1) + 2 from rfl, assemble_pair]; exact ih m (by omega) (by omega) _ _ _

/-- Handling of a list of pairs, in order (route.hpp 275-299). -/
def legs (o : Ops G) (joins : Bool) : List (Entry × Entry × Bool) → List G → Bool → List G
  | [], routes, _ => routes
  | (p, q, gap) :: rest, routes, sk =>
    legs o joins rest (leg o joins routes (sk || gap) p q).1 (leg o joins routes (sk || gap) p q).2

/-- The pairs that are wanted, each with whether something was skipped since the previous one. -/
def wantedGaps (gap : Bool) : List (Entry × Nat) → List (Entry × Entry × Bool)
  | c :: d :: rest => if c.2 = 0 then (c.1, d.1, gap) :: wantedGaps false (d :: rest) else wantedGaps true (d :: rest)
  | _ => []

theorem wantedGaps_map (cs : List (Entry × Nat)) : ∀ gap, (wantedGaps gap cs).map (fun t => (t.1, t.2.1)) = wanted cs := by
  induction cs with
  | nil => intro gap; rfl
  | cons c cs ih =>
    intro gap
    cases cs with
    | nil => rfl
    | cons d cs =>
      unfold wantedGaps wanted
      split_ifs
      · simp [ih]
      · exact ih true

theorem assemble_single (o : Ops G) (joins : Bool) (x : Entry) : ∀ (m : Nat) (routes : List G) (sk : Bool),
    assemble o joins (List.replicate m x) routes sk = routes := by
  intro m
  induction m using Nat.strongRecOn with
  | ind m ih =>
    intro routes sk
    match m with
    | 0 => simp [assemble]
    | 1 => simp [assemble]
    | m + 2 =>
      rw [List.replicate_succ, List.replicate_succ, assemble, if_pos rfl]
      exact ih m (by omega) _ _

theorem assemble_wanted (o : Ops G) (joins : Bool) : ∀ (cs : List (Entry × Nat)), Proper cs →
    (∀ c ∈ cs, c.2 = 0 ∨ c.2 % 2 = 1) → ∀ (gap : Bool) (routes : List G) (sk : Bool),
    assemble o joins (cs.flatMap (fun c => List.replicate (c.2 + 1) c.1)) routes (sk || gap) =
      legs o joins (wantedGaps gap cs) routes sk := by
  intro cs
  induction cs with
  | nil => intro _ _ gap routes sk; simp [assemble, wantedGaps, legs]
  | cons c cs ih =>
    intro hp hm gap routes sk
    cases cs with
    | nil =>
      simp only [List.flatMap_cons, List.flatMap_nil, List.append_nil]
      rw [assemble_single]
      simp [wantedGaps, legs]
    | cons d cs =>
      have hp' := hp.2
      have hm' : ∀ x ∈ d :: cs, x.2 = 0 ∨ x.2 % 2 = 1 := fun x hx => hm x (by simp [hx])
      unfold wantedGaps
      rcases hm c (by simp) with h0 | h1
      · rw [if_pos h0, legs]
        simp only [List.flatMap_cons, h0]
        rw [List.replicate_succ (n := d.2)]
        rw [List.replicate_succ, List.replicate_zero]
        simp only [List.cons_append, List.nil_append]
        rw [assemble_cons2, if_neg hp.1]
        have := ih hp' hm' false (leg o joins routes (sk || gap) c.1 d.1).1 (leg o joins routes (sk || gap) c.1 d.1).2
        simp only [Bool.or_false, List.flatMap_cons, List.replicate_succ (n := d.2), List.cons_append] at this
        exact this
      · rw [if_neg (by omega)]
        rw [List.flatMap_cons, assemble_odd _ _ _ _ h1]
        have := ih hp' hm' true routes sk
        simpa using this

/-- **C19.**  The assembled route consists of the routes between consecutive chosen candidates, in order, with a gap
exactly where something was skipped (and joined only where nothing was), provided that single moves, or an odd number
of moves, were skipped in a row.
Missing from the full property: an even number of skipped moves, for which it is false (`double_skip_fails`). -/
theorem route_follows_policy_partial (o : Ops G) (joins : Bool) (cs : List (Entry × Nat)) (hp : Proper cs)
    (hm : ∀ c ∈ cs, c.2 = 0 ∨ c.2 % 2 = 1) :
    candidatesRoute o joins (policyOf (expand cs)) = legs o joins (wantedGaps false cs) [] false := by
  rw [policy_repeats]
  exact assemble_wanted o joins cs hp hm false [] false

/-- Without joining, these are the wanted routes that exist and have a length. -/
theorem route_follows_policy_plain_partial (o : Ops G) (cs : List (Entry × Nat)) (hp : Proper cs)
    (hm : ∀ c ∈ cs, c.2 = 0 ∨ c.2 % 2 = 1) :
    candidatesRoute o false (policyOf (expand cs)) =
      ((wanted cs).map (fun t => o.route t.1 t.2)).filter (fun r => !o.invalid r && o.hasLength r) := by
  rw [route_follows_policy_partial o false cs hp hm, ← wantedGaps_map cs false]
  have hj : ∀ sk routes r, joined o false sk routes r = (routes, r) := by
    intro sk routes r; unfold joined; split <;> simp
  have key : ∀ (l : List (Entry × Entry × Bool)) (routes : List G) (sk : Bool), legs o false l routes sk =
      routes ++ ((l.map (fun t => (t.1, t.2.1))).map (fun t => o.route t.1 t.2)).filter
        (fun r => !o.invalid r && o.hasLength r) := by
    intro l
    induction l with
    | nil => intro routes sk; simp [legs]
    | cons t l ih =>
      obtain ⟨p, q, g⟩ := t
      intro routes sk
      rw [legs, ih]
      unfold leg
      simp only [hj]
      by_cases hc : (!o.invalid (o.route p q) && o.hasLength (o.route p q)) = true
      · simp only [hc, if_true, List.map_cons, List.filter_cons_of_pos, List.append_assoc, List.singleton_append]
      · simp only [hc, if_false, List.map_cons, Bool.false_eq_true]
        rw [List.filter_cons_of_neg (by simpa using hc)]
  rw [key]
  simp

/-- Joining never reaches across a gap: what follows a skip is assembled as if nothing came before it. -/
theorem gap_independent (o : Ops G) (joins : Bool) (policy : List Entry) (routes : List G) :
    assemble o joins policy routes true = routes ++ candidatesRoute o joins policy := by
  have lastApp : ∀ (A B : List G) (prev : G), B.getLast? = some prev → (A ++ B).getLast? = some prev := by
    intro A B prev h
    rw [List.getLast?_append, h]; rfl
  have hjn : ∀ (A B : List G) (sk : Bool) (r : G), B ≠ [] →
      joined o joins sk (A ++ B) r = (A ++ (joined o joins sk B r).1, (joined o joins sk B r).2) := by
    intro A B sk r hB
    obtain ⟨prev, hprev⟩ : ∃ prev, B.getLast? = some prev := by
      cases h : B.getLast? with
      | none => exact absurd (List.getLast?_eq_none_iff.1 h) hB
      | some x => exact ⟨x, rfl⟩
    unfold joined
    rw [lastApp A B prev hprev, hprev]
    simp only
    split_ifs
    · rw [List.dropLast_append_of_ne_nil hB]; simp
    · rfl
  have hne : ∀ (sk : Bool) (B : List G) (r : G), B ≠ [] → (joined o joins sk B r).1 ≠ [] := by
    intro sk B r hB
    unfold joined
    cases h : B.getLast? with
    | none => exact hB
    | some x => simp only; split_ifs <;> simp [hB]
  -- once a route was added after the gap, the earlier ones stay untouched
  have main : ∀ (n : Nat) (policy : List Entry) (A B : List G) (sk : Bool), policy.length ≤ n → B ≠ [] →
      assemble o joins policy (A ++ B) sk = A ++ assemble o joins policy B sk := by
    intro n
    induction n with
    | zero =>
      intro policy A B sk hl _
      have : policy = [] := List.length_eq_zero_iff.1 (by omega)
      subst this; simp [assemble]
    | succ n ih =>
      intro policy A B sk hl hB
      match policy with
      | [] => simp [assemble]
      | [p] => simp [assemble]
      | p :: q :: rest =>
        simp only [List.length_cons] at hl
        rw [assemble_cons2, assemble_cons2]
        by_cases hpq : p.1 = q.1
        · rw [if_pos hpq, if_pos hpq]; exact ih _ _ _ _ (by omega) hB
        · rw [if_neg hpq, if_neg hpq]
          have hleg : leg o joins (A ++ B) sk p q = (A ++ (leg o joins B sk p q).1, (leg o joins B sk p q).2) ∧
              (leg o joins B sk p q).1 ≠ [] := by
            unfold leg
            simp only [hjn A B sk _ hB]
            split_ifs
            · simp
            · exact ⟨rfl, hne _ _ _ hB⟩
          rw [hleg.1]
          exact ih _ _ _ _ (by simp; omega) hleg.2
  have start : ∀ (n : Nat) (policy : List Entry) (A : List G) (sk : Bool), policy.length ≤ n →
      assemble o joins policy A true = A ++ assemble o joins policy [] sk := by
    intro n
    induction n with
    | zero =>
      intro policy A sk hl
      have : policy = [] := List.length_eq_zero_iff.1 (by omega)
      subst this; simp [assemble]
    | succ n ih =>
      intro policy A sk hl
      match policy with
      | [] => simp [assemble]
      | [p] => simp [assemble]
      | p :: q :: rest =>
        simp only [List.length_cons] at hl
        rw [assemble_cons2, assemble_cons2]
        by_cases hpq : p.1 = q.1
        · rw [if_pos hpq, if_pos hpq]; exact ih _ _ _ (by omega)
        · rw [if_neg hpq, if_neg hpq]
          have hA : joined o joins true A (o.route p q) = (A, o.route p q) := by
            unfold joined; cases A.getLast? <;> simp
          have h0 : joined o joins sk [] (o.route p q) = ([], o.route p q) := by simp [joined]
          unfold leg
          rw [hA, h0]
          simp only
          split_ifs
          · exact main n _ A [o.route p q] false (by simp; omega) (by simp)
          · exact ih _ _ _ (by simp; omega)
  exact start _ policy routes false (Nat.le_refl _)

/-- Routes as their end points, all valid. -/
def plainOps : Ops (Entry × Entry) := ⟨fun p q => (p, q), fun _ => false, fun _ => true, fun _ _ => true, fun a b => (a, b)⟩

def demoMoves : List (Entry × Nat) := [((0, 4), 0), ((1, 2), 1), ((2, 0), 0), ((3, 1), 3), ((4, 5), 0), ((5, 5), 0)]

example : Proper demoMoves ∧ (∀ c ∈ demoMoves, c.2 = 0 ∨ c.2 % 2 = 1) := by
  constructor
  · simp [demoMoves, Proper]
  · decide

example : candidatesRoute plainOps false (policyOf (expand demoMoves)) =
    [((0, 4), (1, 2)), ((2, 0), (3, 1)), ((4, 5), (5, 5))] := by
  rw [route_follows_policy_plain_partial _ _ (by simp [demoMoves, Proper]) (by decide)]
  rfl

/-- **C19, joining.**  Where nothing was skipped between two routes that can be joined, both take the form that joining gives them, in
order. -/
theorem joined_in_order (o : Ops G) {p q r : Entry} (hpq : p.1 ≠ q.1) (hqr : q.1 ≠ r.1)
    (h1 : o.invalid (o.route p q) = false) (h2 : o.hasLength (o.route p q) = true) (h3 : o.invalid (o.route q r) = false)
    (hj : o.joinable (o.route p q) (o.route q r) = true)
    (h4 : o.invalid (o.join (o.route p q) (o.route q r)).2 = false) (h5 : o.hasLength (o.join (o.route p q) (o.route q r)).2 = true) :
    candidatesRoute o true [p, q, r] = [(o.join (o.route p q) (o.route q r)).1, (o.join (o.route p q) (o.route q r)).2] := by
  simp [candidatesRoute, assemble, leg, joined, hpq, hqr, h1, h2, h3, h4, h5, hj]

/-- Routes on a line; a turn of the second is cut off at the first. -/
example : candidatesRoute (⟨fun p q => [p.2, q.2], fun _ => false, fun _ => true, fun _ _ => true, fun a b => (a.dropLast, b.tail)⟩ : Ops (List Nat))
    true [(0, 4), (1, 7), (2, 5)] = [[4], [5]] :=
  joined_in_order _ (by decide) (by decide) rfl rfl rfl rfl rfl rfl

/-- **C19 fails** when two candidates in a row have no edges (or are skipped): the entry before is repeated twice, and
a route is computed from it across the gap, whereas one such candidate leaves a gap. -/
theorem double_skip_fails :
    policyOf [some (0, 4), none, none, some (3, 1)] = [(0, 4), (0, 4), (0, 4), (3, 1)] ∧
    candidatesRoute plainOps true (policyOf [some (0, 4), none, none, some (3, 1)]) = [((0, 4), (3, 1))] ∧
    candidatesRoute plainOps true (policyOf [some (0, 4), none, some (2, 1)]) = [] ∧
    wanted [((0, 4), 2), ((3, 1), 0)] = [] := by
  refine ⟨rfl, ?_, ?_, rfl⟩
  · show assemble _ _ [(0, 4), (0, 4), (0, 4), (3, 1)] _ _ = _
    simp [assemble, leg, joined, plainOps]
  · show assemble _ _ [(0, 4), (0, 4), (2, 1)] _ _ = _
    simp [assemble]

/-! ### C22 -/

variable {K P : Type} [DecidableEq K]

/-- Searches agree: there is one answer per pair of vertices, every path found is that answer, and a request whose
pair has an answer finds it. -/
structure Agree (val : K → Option P) (q : Req K P) : Prop where
  found : ∀ k r, (k, r) ∈ q.search → val k = some r
  complete : val q.key ≠ none → q.key ∈ q.search.map Prod.fst

/-- All cached answers are right. -/
def Right (val : K → Option P) (cache : List (K × Option P)) : Prop := ∀ k r, cache.lookup k = some r → r = val k

theorem lookup_append_one (cache : List (K × Option P)) (k k' : K) (r : Option P) :
    (cache ++ [(k, r)]).lookup k' = (cache.lookup k').or (if k' = k then some r else none) := by
  induction cache with
  | nil => simp only [List.nil_append, List.lookup_cons, List.lookup_nil, Option.none_or]
           by_cases h : k' = k
           · simp [h]
           · have : (k' == k) = false := by simpa using h
             simp [h, this]
  | cons c cache ih =>
    obtain ⟨a, b⟩ := c
    simp only [List.cons_append, List.lookup_cons]
    cases k' == a <;> simp [ih]

theorem right_snoc {val : K → Option P} {cache : List (K × Option P)} (h : Right val cache) {k : K} {r : Option P}
    (hr : r = val k) : Right val (cache ++ [(k, r)]) := by
  intro k' r' hl
  rw [lookup_append_one] at hl
  cases hc : cache.lookup k' with
  | some x => rw [hc] at hl; cases hl; exact h k' _ hc
  | none =>
    rw [hc] at hl
    by_cases hk : k' = k
    · subst hk
      simp only [if_true, Option.none_or, Option.some.injEq] at hl
      rw [← hl]; exact hr
    · simp [hk] at hl

theorem storeAll_right {val : K → Option P} : ∀ (l : List (K × P)) (cache : List (K × Option P)), Right val cache →
    (∀ k r, (k, r) ∈ l → val k = some r) →
    Right val (storeAll cache l) ∧ (∀ k r, cache.lookup k = some r → (storeAll cache l).lookup k = some r) ∧
      ∀ k ∈ l.map Prod.fst, ((storeAll cache l).lookup k).join = val k := by
  intro l
  induction l with
  | nil => intro cache h _; exact ⟨h, fun _ _ h => h, by simp⟩
  | cons x l ih =>
    obtain ⟨k, r⟩ := x
    intro cache h hl
    have hl' : ∀ k r, (k, r) ∈ l → val k = some r := fun k r hm => hl k r (by simp [hm])
    unfold storeAll
    cases hc : cache.lookup k with
    | some y =>
      simp only
      obtain ⟨h1, h2, h3⟩ := ih cache h hl'
      refine ⟨h1, h2, ?_⟩
      intro k' hk'
      simp only [List.map_cons, List.mem_cons] at hk'
      rcases hk' with rfl | hk'
      · rw [h2 _ _ hc]
        rw [h _ _ hc]; rfl
      · exact h3 k' hk'
    | none =>
      simp only
      obtain ⟨h1, h2, h3⟩ := ih (cache ++ [(k, some r)]) (right_snoc h (hl k r (by simp)).symm) hl'
      refine ⟨h1, ?_, ?_⟩
      · intro k' r' hk'
        apply h2
        rw [lookup_append_one, hk']; rfl
      · intro k' hk'
        simp only [List.map_cons, List.mem_cons] at hk'
        rcases hk' with rfl | hk'
        · have : (cache ++ [(k', some r)]).lookup k' = some (some r) := by
            rw [lookup_append_one, hc]; simp
          rw [h2 _ _ this]
          exact (hl k' r (by simp)).symm
        · exact h3 k' hk'

theorem route_right {val : K → Option P} {cache : List (K × Option P)} (h : Right val cache) {q : Req K P}
    (hq : Agree val q) : (route cache q).1 = val q.key ∧ Right val (route cache q).2 := by
  unfold route
  cases hc : cache.lookup q.key with
  | some r => exact ⟨h _ _ hc, h⟩
  | none =>
    simp only
    obtain ⟨h1, h2, h3⟩ := storeAll_right q.search cache h hq.found
    unfold searched
    split_ifs with hm
    · exact ⟨h3 _ hm, h1⟩
    · have hv : val q.key = none := by
        by_contra hv; exact hm (hq.complete hv)
      exact ⟨hv.symm, right_snoc h1 hv.symm⟩

/-- **C22.**  If all searches agree (for instance because no distance bound cuts any of them off) then the answer to a
request is the same whatever was routed before.
Missing from the full property: bounds that differ between requests, for which it is false (`bound_dependent_fails`). -/
theorem history_independent_partial (val : K → Option P) (qs : List (Req K P)) (q : Req K P)
    (h : ∀ x ∈ qs, Agree val x) (hq : Agree val q) :
    (route (after [] qs) q).1 = (route [] q).1 := by
  have hR : ∀ (qs : List (Req K P)) (cache : List (K × Option P)), (∀ x ∈ qs, Agree val x) → Right val cache →
      Right val (after cache qs) := by
    intro qs
    induction qs with
    | nil => intro cache _ hc; exact hc
    | cons x xs ih =>
      intro cache hx hc
      exact ih _ (fun y hy => hx y (by simp [hy])) (route_right hc (hx x (by simp))).2
  have h0 : Right val ([] : List (K × Option P)) := by intro k r h; cases h
  rw [(route_right (hR qs [] h h0) hq).1, (route_right h0 hq).1]

/-- Requests in a small network: vertex 0 is 30 from vertex 1 and 70 from vertex 2 by road; the search of a request
covers its goals within its bound. -/
def demoDist (v : Nat) : Nat := if v = 1 then 30 else 70

def demoReq (goal : Nat) (goals : List Nat) (bound : Nat) : Req (Nat × Nat) Nat :=
  ⟨(0, goal), (goals.filter (fun v => demoDist v ≤ bound)).map (fun v => ((0, v), demoDist v))⟩

example : (route (after [] [demoReq 2 [1, 2] 100, demoReq 1 [1] 50]) (demoReq 2 [2] 90)).1 = some 70 := by decide

example : Agree (fun k : Nat × Nat => if k = (0, 1) then some 30 else if k = (0, 2) then some 70 else none)
    (demoReq 2 [1, 2] 100) := by
  constructor
  · intro k r h
    simp [demoReq, demoDist] at h
    rcases h with ⟨rfl, rfl⟩ | ⟨rfl, rfl⟩ <;> rfl
  · intro _; decide

/-- **C22 fails**: the cache key ignores the distance bound, which depends on all nodes of the goal candidates.  A
request with a small bound that found nothing makes later requests with a sufficient bound fail. -/
theorem bound_dependent_fails :
    (route [] (demoReq 2 [2] 100)).1 = some 70 ∧
    (route (after [] [demoReq 2 [2] 50]) (demoReq 2 [2] 100)).1 = none := by decide

end MM.Router
