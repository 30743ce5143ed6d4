import Verif.Model.BufferBox
import Verif.Model.Compare
import Verif.Model.MedianMerge
import Verif.Props.IndexBuild
import Verif.Props.Candidates
import Mathlib.Algebra.Order.Field.Basic
import Mathlib.Data.Real.Sqrt
import Mathlib.Tactic.FieldSimp
import Mathlib.Tactic.Linarith
import Mathlib.Tactic.LinearCombination
import Mathlib.Tactic.Ring
import Mathlib.Tactic.Positivity

/-!
# C85: nothing within the radius is missed by asking for a box
-/

set_option autoImplicit false
set_option linter.unusedSectionVars false

namespace MM.BufferBox

open MM.IndexBuild MM.Line

variable {K : Type} [Field K] [LinearOrder K] [IsStrictOrderedRing K]

/-- Square of the distance of two points of the plane. -/
def sq (p q : Pt K) : K := (p.1 - q.1) * (p.1 - q.1) + (p.2 - q.2) * (p.2 - q.2)

/-- A point of the segment: a mixture of its ends. -/
def On (s : Pt K × Pt K) (q : Pt K) : Prop :=
  ∃ t : K, 0 ≤ t ∧ t ≤ 1 ∧ q = ((1 - t) * s.1.1 + t * s.2.1, (1 - t) * s.1.2 + t * s.2.2)

/-- Some point of the segment is not farther than `r`. -/
def Within (p : Pt K) (r : K) (s : Pt K × Pt K) : Prop := ∃ q, On s q ∧ sq p q ≤ r * r

/-! ### The box of a point -/

theorem has_iff (b : Box K) (q : Pt K) : b.has q = true ↔ b.minX ≤ q.1 ∧ q.1 ≤ b.maxX ∧ b.minY ≤ q.2 ∧ q.2 ≤ b.maxY := by
  simp [Box.has, and_assoc]

/-- The box around a point is the square with sides at distance `r`; there is none for radii that are not positive. -/
theorem box_exact (p : Pt K) (r : K) :
    (r ≤ 0 → bufferBox p r = .throws) ∧
    (0 < r → ∃ b, bufferBox p r = .ok b ∧
      ∀ q : Pt K, b.has q = true ↔ |p.1 - q.1| ≤ r ∧ |p.2 - q.2| ≤ r) := by
  refine ⟨fun h => by rw [bufferBox, if_pos h], fun h => ?_⟩
  refine ⟨_, by rw [bufferBox, if_neg (not_le.2 h)]; rfl, fun q => ?_⟩
  have e1 : min (min (min (p.1 + r) p.1) (p.1 - r)) p.1 = p.1 - r := by
    rw [min_eq_right (by linarith : p.1 ≤ p.1 + r), min_eq_right (by linarith : p.1 - r ≤ p.1)]
    exact min_eq_left (by linarith)
  have e2 : max (max (max (p.1 + r) p.1) (p.1 - r)) p.1 = p.1 + r := by
    rw [max_eq_left (by linarith : p.1 ≤ p.1 + r), max_eq_left (by linarith : p.1 - r ≤ p.1 + r)]
    exact max_eq_left (by linarith)
  have e3 : min (min (min p.2 (p.2 - r)) p.2) (p.2 + r) = p.2 - r := by
    rw [min_eq_right (by linarith : p.2 - r ≤ p.2), min_eq_left (by linarith : p.2 - r ≤ p.2)]
    exact min_eq_left (by linarith)
  have e4 : max (max (max p.2 (p.2 - r)) p.2) (p.2 + r) = p.2 + r := by
    rw [max_eq_left (by linarith : p.2 - r ≤ p.2), max_self]
    exact max_eq_right (by linarith)
  rw [has_iff]
  simp only [Box.add, List.foldl]
  rw [e1, e2, e3, e4, abs_le, abs_le]
  constructor
  · rintro ⟨h1, h2, h3, h4⟩; exact ⟨⟨by linarith, by linarith⟩, by linarith, by linarith⟩
  · rintro ⟨⟨h1, h2⟩, h3, h4⟩; exact ⟨by linarith, by linarith, by linarith, by linarith⟩

theorem abs_le_of_mul {a r : K} (hr : 0 ≤ r) (h : a * a ≤ r * r) : |a| ≤ r := abs_le_of_sq_le_sq (by simpa [pow_two] using h) hr

theorem mul_le_of_abs {a r : K} (h : |a| ≤ r) : a * a ≤ r * r := by
  have h0 := abs_nonneg a
  rw [← abs_mul_abs_self a]
  exact mul_le_mul h h h0 (h0.trans h)

/-- **C85.**  Every point within the radius is in the box, and what is in the box is not farther than the diagonal. -/
theorem box_covers {p : Pt K} {r : K} {b : Box K} (h : bufferBox p r = .ok b) (q : Pt K) :
    (sq p q ≤ r * r → b.has q = true) ∧ (b.has q = true → sq p q ≤ 2 * (r * r)) := by
  by_cases hr : 0 < r
  · obtain ⟨b', hb, hq⟩ := (box_exact p r).2 hr
    rw [h] at hb
    injection hb with hb
    subst hb
    rw [hq]
    constructor
    · intro hs
      unfold sq at hs
      have h1 := mul_self_nonneg (p.1 - q.1)
      have h2 := mul_self_nonneg (p.2 - q.2)
      exact ⟨abs_le_of_mul hr.le (by linarith), abs_le_of_mul hr.le (by linarith)⟩
    · rintro ⟨h1, h2⟩
      have h3 := mul_le_of_abs h1
      have h4 := mul_le_of_abs h2
      unfold sq
      linarith
  · rw [(box_exact p r).1 (not_lt.1 hr)] at h
    cases h

example : bufferBox ((2, 3) : Pt Rat) 5 = .ok ⟨-3, -2, 7, 8⟩ ∧ sq ((2, 3) : Pt Rat) (5, 7) ≤ 5 * 5 ∧
    (⟨-3, -2, 7, 8⟩ : Box Rat).has (5, 7) = true ∧ (⟨-3, -2, 7, 8⟩ : Box Rat).has (6, 7) = true ∧
    ¬sq ((2, 3) : Pt Rat) (6, 7) ≤ 5 * 5 := by decide +kernel

/-! ### The box of a segment -/

/-- **C85.**  The box around a segment holds everything within the radius of any of its points. -/
theorem segment_box_covers (s : Pt K × Pt K) {r : K} (hr : 0 < r) :
    ∃ b, segmentBufferBox s r = .ok b ∧ ∀ c q : Pt K, On s c → sq c q ≤ r * r → b.has q = true := by
  obtain ⟨b1, h1, hb1⟩ := (box_exact s.1 r).2 hr
  obtain ⟨b2, h2, hb2⟩ := (box_exact s.2 r).2 hr
  have key : ∀ (a : Pt K) (b : Box K), (∀ q : Pt K, b.has q = true ↔ |a.1 - q.1| ≤ r ∧ |a.2 - q.2| ≤ r) →
      b.minX ≤ a.1 - r ∧ a.1 + r ≤ b.maxX ∧ b.minY ≤ a.2 - r ∧ a.2 + r ≤ b.maxY := by
    intro a b hb
    have x1 := (has_iff b _).1 ((hb (a.1 - r, a.2)).2 ⟨by simp [abs_of_pos hr], by simp [hr.le]⟩)
    have x2 := (has_iff b _).1 ((hb (a.1 + r, a.2)).2 ⟨by simp [abs_of_pos hr], by simp [hr.le]⟩)
    have x3 := (has_iff b _).1 ((hb (a.1, a.2 - r)).2 ⟨by simp [hr.le], by simp [abs_of_pos hr]⟩)
    have x4 := (has_iff b _).1 ((hb (a.1, a.2 + r)).2 ⟨by simp [hr.le], by simp [abs_of_pos hr]⟩)
    exact ⟨x1.1, x2.2.1, x3.2.2.1, x4.2.2.2⟩
  refine ⟨_, by rw [segmentBufferBox, h1, Outcome.bind_ok, h2, Outcome.bind_ok], ?_⟩
  rintro c q ⟨t, t0, t1, rfl⟩ hs
  obtain ⟨k1, k2, k3, k4⟩ := key _ _ hb1
  obtain ⟨l1, l2, l3, l4⟩ := key _ _ hb2
  unfold sq at hs
  have m1 := mul_self_nonneg ((1 - t) * s.1.1 + t * s.2.1 - q.1)
  have m2 := mul_self_nonneg ((1 - t) * s.1.2 + t * s.2.2 - q.2)
  have n1 := abs_le.1 (abs_le_of_mul hr.le (by linarith : ((1 - t) * s.1.1 + t * s.2.1 - q.1) * ((1 - t) * s.1.1 + t * s.2.1 - q.1) ≤ r * r))
  have n2 := abs_le.1 (abs_le_of_mul hr.le (by linarith : ((1 - t) * s.1.2 + t * s.2.2 - q.2) * ((1 - t) * s.1.2 + t * s.2.2 - q.2) ≤ r * r))
  rw [has_iff]
  simp only
  have u0 : 0 ≤ 1 - t := by linarith
  have mixlo : ∀ a b m : K, m ≤ a - r → m ≤ b - r → m ≤ (1 - t) * a + t * b - r := by
    intro a b m ha hb
    nlinarith [mul_le_mul_of_nonneg_left ha u0, mul_le_mul_of_nonneg_left hb t0]
  have mixhi : ∀ a b m : K, a + r ≤ m → b + r ≤ m → (1 - t) * a + t * b + r ≤ m := by
    intro a b m ha hb
    nlinarith [mul_le_mul_of_nonneg_left ha u0, mul_le_mul_of_nonneg_left hb t0]
  refine ⟨?_, ?_, ?_, ?_⟩
  · have := mixlo s.1.1 s.2.1 _ ((min_le_left b1.minX b2.minX).trans k1) ((min_le_right _ _).trans l1); linarith
  · have := mixhi s.1.1 s.2.1 _ (k2.trans (le_max_left b1.maxX b2.maxX)) (l2.trans (le_max_right _ _)); linarith
  · have := mixlo s.1.2 s.2.2 _ ((min_le_left b1.minY b2.minY).trans k3) ((min_le_right _ _).trans l3); linarith
  · have := mixhi s.1.2 s.2.2 _ (k4.trans (le_max_left b1.maxY b2.maxY)) (l4.trans (le_max_right _ _)); linarith

example : segmentBufferBox (((0, 0), (4, 10)) : Pt Rat × Pt Rat) 2 = .ok ⟨-2, -2, 6, 12⟩ ∧
    sq ((2, 5) : Pt Rat) (1, 6) ≤ 2 * 2 := by decide +kernel

/-! ### Edges -/

section Edges

variable [DecidableEq (Pt K)]

/-- An answer of the index: exactly the segments with a point in the box. -/
def Answers (ss : List (SegEntry (Pt K))) (ask : Box K → List (SegEntry (Pt K))) : Prop :=
  ∃ inside : Box K → Pt K × Pt K → Bool, (∀ b s, inside b s = true ↔ ∃ q, On s q ∧ b.has q = true) ∧
    ∀ b, (ask b).Perm (ss.filter fun e => inside b e.1)

/-- Some segment of the line has a point not farther than `r`. -/
def LineWithin (p : Pt K) (r : K) (l : List (Pt K)) : Prop :=
  ∃ (i : Nat) (a c : Pt K), l[i]? = some a ∧ l[i + 1]? = some c ∧ Within p r (a, c)

theorem lineWithin_iff (p : Pt K) (r : K) (l : List (Pt K)) : LineWithin p r l ↔ ∃ s ∈ segs l, Within p r s := by
  constructor
  · rintro ⟨i, a, c, h1, h2, h3⟩
    exact ⟨(a, c), List.mem_of_getElem? ((segs_getElem? l i a c).2 ⟨h1, h2⟩), h3⟩
  · rintro ⟨⟨a, c⟩, h1, h2⟩
    obtain ⟨i, hi⟩ := List.getElem?_of_mem h1
    obtain ⟨h3, h4⟩ := (segs_getElem? l i a c).1 hi
    exact ⟨i, a, c, h3, h4, h2⟩

/-- **C85.**  The query for the box around a point finds every edge within the radius, each once, and none farther than the
diagonal of the box. -/
theorem edges_within {verts : List (Pt K)} {edges : List (List (Pt K))} {x : Index (Pt K)} (hx : Complete verts edges x)
    {ss : List (SegEntry (Pt K))} (hss : x.segments = some ss) {ask : Box K → List (SegEntry (Pt K))} (ha : Answers ss ask)
    (p : Pt K) {r : K} (hr : 0 < r) :
    ∃ es, edgesIn ask p r = .ok es ∧ es.Pairwise (· < ·) ∧
      (∀ e l, edges[e]? = some l → LineWithin p r l → e ∈ es) ∧
      ∀ e ∈ es, ∃ l, edges[e]? = some l ∧ ∃ (i : Nat) (a c q : Pt K), l[i]? = some a ∧ l[i + 1]? = some c ∧ On (a, c) q ∧
        sq p q ≤ 2 * (r * r) := by
  obtain ⟨inside, hi, hask⟩ := ha
  obtain ⟨b, hb, -⟩ := (box_exact p r).2 hr
  obtain ⟨h1, h2⟩ := edges_found hx (inside b) hss (hask b)
  refine ⟨_, by rw [edgesIn, hb, Outcome.bind_ok], h2, ?_, ?_⟩
  · intro e l hl hw
    obtain ⟨s, hs, q, hq1, hq2⟩ := (lineWithin_iff p r l).1 hw
    exact (h1 e).2 ⟨l, hl, s, hs, (hi b s).2 ⟨q, hq1, (box_covers hb q).1 hq2⟩⟩
  · intro e he
    obtain ⟨l, hl, ⟨a, c⟩, hs, hin⟩ := (h1 e).1 he
    obtain ⟨q, hq1, hq2⟩ := (hi b _).1 hin
    obtain ⟨i, hi'⟩ := List.getElem?_of_mem hs
    obtain ⟨h3, h4⟩ := (segs_getElem? l i a c).1 hi'
    exact ⟨l, hl, i, a, c, q, h3, h4, hq1, (box_covers hb q).2 hq2⟩

/-- **C85, C20.**  The candidate search in mode CIRCLE on a network in the plane: it ends with exactly the edges within the radius
finally used, which is at most the upper limit, and finds something if anything is within that limit. -/
theorem circle_search [Archimedean K] {verts : List (Pt K)} {edges : List (List (Pt K))} {x : Index (Pt K)}
    (hx : Complete verts edges x) {ss : List (SegEntry (Pt K))} (hss : x.segments = some ss)
    {ask : Box K → List (SegEntry (Pt K))} (ha : Answers ss ask) (p : Pt K) (s : Cand.Search K Nat) (hc : s.circle = true)
    (hbox : ∀ r es, edgesIn ask p r = .ok es → s.box r = es)
    (hd : ∀ e l, edges[e]? = some l → 2 ≤ l.length → ∀ r, 0 < r → (s.dist e ≤ r ↔ LineWithin p r l))
    (adaptive : Bool) (hpos : 0 < Cand.clamp s adaptive s.radius) :
    ∃ fuel r es, Cand.radiusSearch s adaptive fuel = some (.ok (r, es)) ∧ 0 < r ∧ r ≤ s.upper ∧
      (∀ e, e ∈ es ↔ ∃ l, edges[e]? = some l ∧ LineWithin p r l) ∧
      ((∃ (e : Nat) (l : List (Pt K)), edges[e]? = some l ∧ LineWithin p s.upper l) → es ≠ []) := by
  have hlen : ∀ r l, LineWithin p r l → 2 ≤ l.length := by
    rintro r l ⟨i, a, c, -, h, -⟩
    obtain ⟨h, -⟩ := List.getElem?_eq_some_iff.1 h
    omega
  have hmem : ∀ e, e ∈ (List.range edges.length).filter (fun e => decide (2 ≤ (edges[e]?.getD []).length)) ↔
      ∃ l, edges[e]? = some l ∧ 2 ≤ l.length := by
    intro e
    rw [List.mem_filter, List.mem_range, decide_eq_true_eq]
    constructor
    · rintro ⟨h1, h2⟩
      rw [List.getElem?_eq_getElem h1] at h2 ⊢
      exact ⟨_, rfl, h2⟩
    · rintro ⟨l, h1, h2⟩
      rw [h1]
      exact ⟨(List.getElem?_eq_some_iff.1 h1).1, h2⟩
  have hcomp : Cand.Complete s ((List.range edges.length).filter fun e => decide (2 ≤ (edges[e]?.getD []).length)) := by
    constructor
    · intro r hr e he hde
      obtain ⟨l, hl, h2l⟩ := (hmem e).1 he
      obtain ⟨es, h1, -, h2, -⟩ := edges_within hx hss ha p hr
      rw [hbox r es h1]
      exact h2 e l hl ((hd e l hl h2l r hr).1 hde)
    · intro r hr e he
      obtain ⟨es, h1, -, -, h2⟩ := edges_within hx hss ha p hr
      rw [hbox r es h1] at he
      obtain ⟨l, hl, i, a, c, q, -, h3, -⟩ := h2 e he
      obtain ⟨h3, -⟩ := List.getElem?_eq_some_iff.1 h3
      exact (hmem e).2 ⟨l, hl, by omega⟩
  obtain ⟨fuel, r, es, h1, h2, h3, h4⟩ := Cand.circle_search_partial s _ hc hcomp adaptive hpos
  have hr : 0 < r := Cand.search_pos s hc fuel _ _ _ _ _ h1
  refine ⟨fuel, r, es, h1, hr, h2, ?_, ?_⟩
  · intro e
    rw [h3, hmem]
    constructor
    · rintro ⟨⟨l, hl, h2l⟩, hde⟩
      exact ⟨l, hl, (hd e l hl h2l r hr).1 hde⟩
    · rintro ⟨l, hl, hw⟩
      exact ⟨⟨l, hl, hlen r l hw⟩, (hd e l hl (hlen r l hw) r hr).2 hw⟩
  · rintro ⟨e, l, hl, hw⟩
    exact h4 ⟨e, (hmem e).2 ⟨l, hl, hlen _ l hw⟩, (hd e l hl (hlen _ l hw) _ (lt_of_lt_of_le hr h2)).2 hw⟩

end Edges

/-! Two edges of ten by the points (3, 4): one four below, one sixteen above. -/

theorem level_within (y r : Rat) (hr : 0 < r) : LineWithin ((3, 4) : Pt Rat) r [(0, y), (10, y)] ↔ |4 - y| ≤ r := by
  constructor
  · rintro ⟨i, a, c, h1, h2, q, ⟨t, -, -, rfl⟩, h⟩
    have hi : i = 0 := by
      have := (List.getElem?_eq_some_iff.1 h2).1
      simp at this
      omega
    subst hi
    simp only [List.getElem?_cons_zero, List.getElem?_cons_succ, Option.some.injEq] at h1 h2
    subst h1
    subst h2
    unfold sq at h
    simp only at h
    have e : (1 - t) * y + t * y = y := by ring
    rw [e] at h
    exact abs_le_of_mul hr.le (by linarith [mul_self_nonneg (3 - ((1 - t) * 0 + t * 10))])
  · intro h
    refine ⟨0, _, _, rfl, rfl, (3, y), ⟨3 / 10, by norm_num, by norm_num, ?_⟩, ?_⟩
    · simp only [Prod.mk.injEq]
      constructor <;> ring
    · have := mul_le_of_abs h
      unfold sq
      simp only
      linarith

/-- The search of the example; distances 4 and 16. -/
def demoSearch (ask : Box Rat → List (SegEntry (Pt Rat))) : Cand.Search Rat Nat where
  circle := true
  radius := 3
  lower := 2
  upper := 100
  prevLen := some 50
  nextLen := none
  dist e := if e = 0 then 4 else 16
  box r := match edgesIn ask (3, 4) r with
    | .ok es => es
    | _ => []
  nearest := []

example : ∃ (x : Index (Pt Rat)) (ss : List (SegEntry (Pt Rat))) (ask : Box Rat → List (SegEntry (Pt Rat))),
    Complete [(0, 0), (10, 0)] [[(0, 0), (10, 0)], [(0, 20), (10, 20)]] x ∧ x.segments = some ss ∧ Answers ss ask ∧
    (∀ r es, edgesIn ask (3, 4) r = .ok es → (demoSearch ask).box r = es) ∧
    (∀ e l, [[(0, 0), (10, 0)], [(0, 20), (10, 20)]][e]? = some l → 2 ≤ l.length → ∀ r, 0 < r →
      ((demoSearch ask).dist e ≤ r ↔ LineWithin (3, 4) r l)) ∧
    0 < Cand.clamp (demoSearch ask) true (demoSearch ask).radius := by
  classical
  obtain ⟨x, -, hx⟩ := index_built (mapped := false) (mappedBuild := false) (available := 4) (buildSize := 1) (indexSize := 1)
    (fb := []) (fi := []) [((0, 0) : Pt Rat), (10, 0)] [[(0, 0), (10, 0)], [(0, 20), (10, 20)]] (by decide) (by decide) (by decide)
    (by decide) (by decide)
  obtain ⟨ss, hss, -⟩ := hx.segments
  refine ⟨x, ss, fun b => ss.filter fun e => decide (∃ q, On e.1 q ∧ b.has q = true), hx, hss,
    ⟨fun b s => decide (∃ q, On s q ∧ b.has q = true), fun b s => by simp, fun b => List.Perm.refl _⟩, ?_, ?_, ?_⟩
  · intro r es h
    simp only [demoSearch, h]
  · intro e l hl _ r hr
    match e, hl with
    | 0, hl =>
      simp only [List.getElem?_cons_zero, Option.some.injEq] at hl
      subst hl
      rw [level_within 0 r hr]
      simp only [demoSearch, if_true]
      norm_num
    | 1, hl =>
      simp only [List.getElem?_cons_succ, List.getElem?_cons_zero, Option.some.injEq] at hl
      subst hl
      rw [level_within 20 r hr]
      simp only [demoSearch]
      norm_num
  · norm_num [Cand.clamp, Cand.minOpt, demoSearch]

/-! ### Adoption, merging of points, comparison -/

/-- **C85.**  Asking for the box first changes nothing: what is adopted is what is within the distance. -/
theorem adopt_within {V : Type} {vals : List V} {seg : V → Pt K × Pt K} {dist : V → K} {p : Pt K} {r : K} (hr : 0 < r)
    (hd : ∀ v ∈ vals, dist v ≤ r ↔ Within p r (seg v)) {inside : Box K → Pt K × Pt K → Bool}
    (hi : ∀ b s, inside b s = true ↔ ∃ q, On s q ∧ b.has q = true) {ask : Box K → List V}
    (ha : ∀ b, (ask b).Perm (vals.filter fun v => inside b (seg v))) :
    ∃ res, adoptable ask dist p r = .ok res ∧ res.Perm (vals.filter fun v => decide (dist v ≤ r)) := by
  obtain ⟨b, hb, -⟩ := (box_exact p r).2 hr
  refine ⟨_, by rw [adoptable, hb, Outcome.bind_ok], ?_⟩
  refine ((ha b).filter _).trans (List.Perm.of_eq ?_)
  rw [List.filter_filter]
  refine List.filter_congr fun v hv => ?_
  by_cases h : dist v ≤ r
  · obtain ⟨q, hq1, hq2⟩ := (hd v hv).1 h
    simp [h, (hi b (seg v)).2 ⟨q, hq1, (box_covers hb q).1 hq2⟩]
  · simp [h]

/-- **C85.**  Merging of points: the points taken together with a point are those within the tolerance. -/
theorem merge_within (dist : Pt K → Pt K → K) (hd : ∀ p q r, 0 < r → (dist p q ≤ r ↔ sq p q ≤ r * r))
    (box : Pt K → K → Pt K → Bool) (hbox : ∀ p r b, bufferBox p r = .ok b → box p r = b.has)
    (tol : K) (ht : 0 < tol) (p : Pt K) (index : List (Nat × Pt K)) :
    Median.results box dist tol p index = index.filter fun e => decide (dist p e.2 ≤ tol) := by
  obtain ⟨b, hb, -⟩ := (box_exact p tol).2 ht
  rw [Median.results, List.filter_filter]
  refine List.filter_congr fun e _ => ?_
  rw [hbox p tol b hb]
  by_cases h : dist p e.2 ≤ tol
  · simp [h, (box_covers hb e.2).1 ((hd p e.2 tol ht).1 h)]
  · simp [h, not_le.1 h]

/-- The distance of the plane. -/
noncomputable def euclid (p q : Pt Real) : Real := Real.sqrt (sq p q)

theorem euclid_le (p q : Pt Real) {r : Real} (hr : 0 ≤ r) : euclid p q ≤ r ↔ sq p q ≤ r * r := by
  rw [euclid, Real.sqrt_le_left hr, pow_two]

example : ∃ (dist : Pt Real → Pt Real → Real) (box : Pt Real → Real → Pt Real → Bool),
    (∀ p q r, 0 < r → (dist p q ≤ r ↔ sq p q ≤ r * r)) ∧ ∀ p r b, bufferBox p r = .ok b → box p r = b.has :=
  ⟨euclid, fun p r q => match bufferBox p r with
    | .ok b => b.has q
    | _ => false, fun p q r hr => euclid_le p q hr.le, fun p r b h => by funext q; simp only [h]⟩

example : ∃ inside : Box Rat → Pt Rat × Pt Rat → Bool, (∀ b s, inside b s = true ↔ ∃ q, On s q ∧ b.has q = true) ∧
    (4 ≤ (5 : Rat) ↔ Within ((3, 4) : Pt Rat) 5 ((0, 0), (10, 0))) := by
  classical
  refine ⟨fun b s => decide (∃ q, On s q ∧ b.has q = true), fun b s => by simp, ?_⟩
  refine ⟨fun _ => ⟨(3, 0), ⟨3 / 10, by norm_num, by norm_num, by norm_num⟩, by norm_num [sq]⟩, fun _ => by norm_num⟩

section Compare

variable {P : Type} [LinearOrder P]

theorem nearestOf_spec (T : Compare.Tools P K) (p : P) : ∀ (qs : List P) (best : Option P),
    (∀ z, best = some z → z ≠ p ∧ T.dist p z < T.tolerance) →
    (∀ z, Compare.nearestOf T p qs best = some z → (z ∈ qs ∨ best = some z) ∧ z ≠ p ∧ T.dist p z < T.tolerance ∧
      (∀ y, best = some y → T.dist p z ≤ T.dist p y) ∧
      ∀ q ∈ qs, q ≠ p → T.dist p z ≤ T.dist p q) ∧
    (Compare.nearestOf T p qs best = none → best = none ∧ ∀ q ∈ qs, q ≠ p → T.tolerance ≤ T.dist p q) := by
  intro qs
  induction qs with
  | nil =>
    intro best hb
    simp only [Compare.nearestOf]
    refine ⟨fun z hz => ⟨.inr hz, (hb z hz).1, (hb z hz).2, ?_, by simp⟩, fun h => ⟨h, by simp⟩⟩
    intro y hy
    rw [hz] at hy
    injection hy with hy
    rw [hy]
  | cons q qs ih =>
    intro best hb
    unfold Compare.nearestOf
    by_cases hc : p ≠ q ∧ T.dist p q < T.tolerance ∧ ∀ r, best = some r → T.dist p q < T.dist p r
    · rw [if_pos hc]
      obtain ⟨h1, h2⟩ := ih (some q) (fun z hz => by injection hz with hz; subst hz; exact ⟨hc.1.symm, hc.2.1⟩)
      constructor
      · intro z hz
        obtain ⟨a1, a2, a3, a4, a5⟩ := h1 z hz
        have hzq := a4 q rfl
        refine ⟨.inl ?_, a2, a3, fun y hy => hzq.trans (hc.2.2 y hy).le, fun y hy hp => ?_⟩
        · rcases a1 with a1 | a1
          · exact List.mem_cons_of_mem _ a1
          · injection a1 with a1; subst a1; exact List.mem_cons_self
        · rcases List.mem_cons.1 hy with rfl | hy
          · exact hzq
          · exact a5 y hy hp
      · intro hn
        exact absurd (h2 hn).1 (by simp)
    · rw [if_neg hc]
      obtain ⟨h1, h2⟩ := ih best hb
      have hq : ∀ z, z ≠ p → T.dist p z < T.tolerance → (∀ y, best = some y → T.dist p z ≤ T.dist p y) → q ≠ p →
          (best.isSome → T.dist p z ≤ T.dist p q) ∧ (best = none → T.tolerance ≤ T.dist p q) := by
        intro z h1 h2 h3 h4
        constructor
        · intro hbs
          obtain ⟨y, hy⟩ := Option.isSome_iff_exists.1 hbs
          by_contra hlt
          refine hc ⟨h4.symm, (not_le.1 hlt).trans h2, fun r hr => ?_⟩
          exact (not_le.1 hlt).trans_le (h3 r hr)
        · intro hbn
          by_contra hlt
          exact hc ⟨h4.symm, not_le.1 hlt, fun r hr => by rw [hbn] at hr; cases hr⟩
      constructor
      · intro z hz
        obtain ⟨a1, a2, a3, a4, a5⟩ := h1 z hz
        refine ⟨?_, a2, a3, a4, fun y hy hp => ?_⟩
        · rcases a1 with a1 | a1
          · exact .inl (List.mem_cons_of_mem _ a1)
          · exact .inr a1
        · rcases List.mem_cons.1 hy with rfl | hy
          · cases hbs : best with
            | some w => exact (hq z a2 a3 a4 hp).1 (by rw [hbs]; rfl)
            | none => exact a3.le.trans ((hq z a2 a3 a4 hp).2 hbs)
          · exact a5 y hy hp
      · intro hn
        obtain ⟨b1, b2⟩ := h2 hn
        refine ⟨b1, fun y hy hp => ?_⟩
        rcases List.mem_cons.1 hy with rfl | hy
        · by_contra hlt
          exact hc ⟨hp.symm, not_le.1 hlt, fun r hr => by rw [b1] at hr; cases hr⟩
        · exact b2 y hy hp

/-- **C85.**  Comparison: a point is replaced by a nearest other point of the other line within the tolerance, and is left only
if there is none. -/
theorem compare_within (T : Compare.Tools P K) (xy : P → Pt K) {milli : K} (hm : 0 < milli) (ht : 0 ≤ T.tolerance)
    (hd : ∀ p q r, 0 ≤ r → (T.dist p q ≤ r ↔ sq (xy p) (xy q) ≤ r * r))
    (hq : ∀ S p b, bufferBox (xy p) (compareRadius milli T.tolerance) = .ok b →
      (T.query S p).Perm (S.filter fun q => b.has (xy q)))
    (S : List P) (p : P) :
    (∀ z, Compare.adopt T S p = some z → z ∈ S ∧ z ≠ p ∧ T.dist p z < T.tolerance ∧
      ∀ q ∈ S, q ≠ p → T.dist p z ≤ T.dist p q) ∧
    (Compare.adopt T S p = none → ∀ q ∈ S, q ≠ p → T.tolerance ≤ T.dist p q) := by
  have hrad : 0 < compareRadius milli T.tolerance := lt_of_lt_of_le hm (le_max_left _ _)
  have htol : T.tolerance ≤ compareRadius milli T.tolerance :=
    le_trans (by linarith) (le_max_right milli (2 * T.tolerance))
  obtain ⟨b, hb, -⟩ := (box_exact (xy p) (compareRadius milli T.tolerance)).2 hrad
  have hperm := hq S p b hb
  have hfound : ∀ q ∈ S, T.dist p q ≤ T.tolerance → q ∈ T.query S p := by
    intro q hqS hle
    refine hperm.mem_iff.2 (List.mem_filter.2 ⟨hqS, (box_covers hb (xy q)).1 ?_⟩)
    exact (hd p q _ hrad.le).1 (hle.trans htol)
  obtain ⟨h1, h2⟩ := nearestOf_spec T p (T.query S p) none (by simp)
  constructor
  · intro z hz
    obtain ⟨a1, a2, a3, -, a5⟩ := h1 z hz
    refine ⟨?_, a2, a3, fun q hqS hp => ?_⟩
    · rcases a1 with a1 | a1
      · exact (List.mem_filter.1 (hperm.mem_iff.1 a1)).1
      · cases a1
    · by_cases hle : T.dist p q ≤ T.tolerance
      · exact a5 q (hfound q hqS hle) hp
      · exact a3.le.trans (not_le.1 hle).le
  · intro hn q hqS hp
    obtain ⟨-, b2⟩ := h2 hn
    by_contra hlt
    exact hlt (b2 q (hfound q hqS (not_le.1 hlt).le) hp)

/-- Points of a line by their numbers; tolerance two. -/
example : ∃ (T : Compare.Tools Real Real) (xy : Real → Pt Real), 0 < (1 / 1000 : Real) ∧ 0 ≤ T.tolerance ∧
    (∀ p q r, 0 ≤ r → (T.dist p q ≤ r ↔ sq (xy p) (xy q) ≤ r * r)) ∧
    ∀ S p b, bufferBox (xy p) (compareRadius (1 / 1000) T.tolerance) = .ok b →
      (T.query S p).Perm (S.filter fun q => b.has (xy q)) := by
  refine ⟨⟨fun p q => |p - q|, 2, fun S p => S.filter fun q => (match bufferBox ((p, 0) : Pt Real) (compareRadius (1 / 1000) 2) with
    | .ok b => b.has (q, 0)
    | _ => false), fun _ _ => false, fun s => some |s.1 - s.2|, fun l => l⟩, fun p => (p, 0), by norm_num, by norm_num, ?_, ?_⟩
  · intro p q r hr
    simp only [sq, sub_self, mul_zero, add_zero]
    exact ⟨mul_le_of_abs, abs_le_of_mul hr⟩
  · intro S p b h
    simp only at h
    simp only [h]
    exact List.Perm.refl _

end Compare

/-! ### On the globe -/

/-- A point of the globe. -/
def OnGlobe (q : Vec K) : Prop := q.x * q.x + q.y * q.y + q.z * q.z = 1

/-- **C85 on the globe.**  The four points are points of the globe at the distance with cosine `c` from the point; two of them on its
meridian, at the heights given by the addition of angles. -/
theorem compass_at_distance {k z c s : K} (hkz : k * k + z * z = 1) (hcs : c * c + s * s = 1) :
    (∀ q ∈ compass k z c s, OnGlobe q ∧ (⟨k, 0, z⟩ : Vec K).dot q = c) ∧
    (compass k z c s).map (fun q => q.y) = [0, s, 0, -s] ∧ (compass k z c s).map (fun q => q.z) = [z * c + k * s, z * c, z * c - k * s, z * c] := by
  refine ⟨?_, rfl, rfl⟩
  intro q hq
  simp only [compass, List.mem_cons, List.not_mem_nil, or_false] at hq
  rcases hq with rfl | rfl | rfl | rfl <;> simp only [OnGlobe, Vec.dot] <;> constructor
  · linear_combination (c * c + s * s) * hkz + hcs
  · linear_combination c * hkz
  · linear_combination (c * c) * hkz + hcs
  · linear_combination c * hkz
  · linear_combination (c * c + s * s) * hkz + hcs
  · linear_combination c * hkz
  · linear_combination (c * c) * hkz + hcs
  · linear_combination c * hkz

example : (4 / 5 : Rat) * (4 / 5) + 3 / 5 * (3 / 5) = 1 ∧ (12 / 13 : Rat) * (12 / 13) + 5 / 13 * (5 / 13) = 1 := by norm_num

/-- Points in the envelope of the four points: longitudes between those of the points west and east, latitudes between
those of the points south and north. -/
theorem inEnvelope_iff {k z c s : K} (hk : 0 < k) (hc : 0 < c) (hs : 0 < s) (hpole : z * s < k * c) (hpole' : -(z * s) < k * c)
    (q : Vec K) : inEnvelope (compass k z c s) q = true ↔
      0 < q.x ∧ k * c * q.y ≤ s * q.x ∧ -(s * q.x) ≤ k * c * q.y ∧ z * c - k * s ≤ q.z ∧ q.z ≤ z * c + k * s := by
  have hks : 0 < k * s := mul_pos hk hs
  simp only [inEnvelope, compass, notEastOf, List.any_cons, List.any_nil, Bool.and_eq_true, Bool.or_eq_true, decide_eq_true_eq,
    Bool.or_false, zero_mul, or_assoc]
  constructor
  · rintro ⟨⟨⟨⟨h0, h1⟩, h2⟩, h3⟩, h4⟩
    have hsx : 0 < s * q.x := mul_pos hs h0
    have hkc : 0 < k * c := mul_pos hk hc
    have neg : ∀ m : K, 0 < m → q.y * m ≤ 0 → k * c * q.y ≤ s * q.x := by
      intro m hm h
      have hy : q.y ≤ 0 := by
        by_contra hy
        have := mul_pos (not_le.1 hy) hm
        linarith
      have := mul_nonneg hkc.le (neg_nonneg.2 hy)
      linarith
    have pos : ∀ m : K, 0 < m → 0 ≤ q.y * m → -(s * q.x) ≤ k * c * q.y := by
      intro m hm h
      have hy : 0 ≤ q.y := by
        by_contra hy
        have := mul_pos (neg_pos.2 (not_le.1 hy)) hm
        linarith
      have := mul_nonneg hkc.le hy
      linarith
    refine ⟨h0, ?_, ?_, ?_, ?_⟩
    · rcases h1 with h | h | h | h
      · exact neg _ (by linarith) h
      · linarith
      · exact neg _ (by linarith) h
      · linarith
    · rcases h2 with h | h | h | h
      · exact pos _ (by linarith) h
      · linarith
      · exact pos _ (by linarith) h
      · linarith
    · rcases h4 with h | h | h | h <;> linarith
    · rcases h3 with h | h | h | h <;> linarith
  · rintro ⟨h0, h1, h2, h3, h4⟩
    refine ⟨⟨⟨⟨h0, ?_⟩, ?_⟩, ?_⟩, ?_⟩
    · right; left; linarith
    · right; right; right; linarith
    · left; exact h4
    · right; right; left; exact h3

/-- Moving by less than the radius, the latitude changes by less than the radius. -/
theorem lat_le {k c s C : K} (hcs : c * c + s * s = 1) (hk : 0 < k) (hc : 0 < c) (hs : 0 < s) (hcC : c ≤ C) {z S : K}
    (hp : z * s < k * c) (hS : S * S ≤ 1 - C * C) : z * C + k * S ≤ z * c + k * s := by
  have hC0 : 0 < C := lt_of_lt_of_le hc hcC
  have hcc : c * c ≤ C * C := mul_self_le_mul_self hc.le hcC
  have hSs : S * S ≤ s * s := by linarith
  have hSle : S ≤ s := (abs_le.1 (abs_le_of_mul hs.le hSs)).2
  have hks : 0 < k * s := mul_pos hk hs
  rcases le_or_gt z 0 with hz | hz
  · have h1 := mul_nonneg (neg_nonneg.2 hz) (sub_nonneg.2 hcC)
    have h2 := mul_nonneg hk.le (sub_nonneg.2 hSle)
    linarith
  · rcases le_or_gt S 0 with hS0 | hS0
    · have hC1 : C ≤ 1 := by
        by_contra h
        have := mul_self_lt_mul_self zero_le_one (not_le.1 h)
        linarith [mul_self_nonneg S]
      have h3 : z ≤ z * c + k * s := by
        have h4 : z * s * s ≤ k * c * s := mul_le_mul_of_nonneg_right hp.le hs.le
        have h7 : 0 < 1 + c := by linarith
        have h8 : z * (1 - c) * (1 + c) ≤ k * s * (1 + c) := by
          have e1 : z * (1 - c) * (1 + c) = z * s * s := by linear_combination (-z) * hcs
          rw [e1]
          linarith
        have h6 := le_of_mul_le_mul_right h8 h7
        linarith
      have h1 : z * C ≤ z * 1 := mul_le_mul_of_nonneg_left hC1 hz.le
      have h2 := mul_nonneg hk.le (neg_nonneg.2 hS0)
      linarith
    · have h1 : (C - c) * (C + c) ≤ (s - S) * (s + S) := by
        have e1 : (C - c) * (C + c) = C * C - c * c := by ring
        have e2 : (s - S) * (s + S) = s * s - S * S := by ring
        rw [e1, e2]
        linarith
      have h3 : z * (s + S) ≤ k * (C + c) := by
        have h4 : z * S ≤ z * s := mul_le_mul_of_nonneg_left hSle hz.le
        have h5 : k * c ≤ k * C := mul_le_mul_of_nonneg_left hcC hk.le
        linarith
      have hsS : 0 < s + S := by linarith
      have h4 : z * (C - c) * (s + S) ≤ k * (s - S) * (s + S) := by
        calc z * (C - c) * (s + S) = (C - c) * (z * (s + S)) := by ring
          _ ≤ (C - c) * (k * (C + c)) := mul_le_mul_of_nonneg_left h3 (sub_nonneg.2 hcC)
          _ = k * ((C - c) * (C + c)) := by ring
          _ ≤ k * ((s - S) * (s + S)) := mul_le_mul_of_nonneg_left h1 hk.le
          _ = k * (s - S) * (s + S) := by ring
      have h5 := le_of_mul_le_mul_right h4 hsS
      linarith

/-- The distance of two points is at least that from the meridian of the second. -/
theorem meridian_le {k z a b w C : K} (hkz : k * k + z * z = 1) (hq : a * a + b * b + w * w = 1) (hC : k * a + z * w = C) :
    k * k * (b * b) ≤ (1 - C * C) * (a * a + b * b) := by
  have hid : (1 - C * C) * (a * a + b * b) - k * k * (b * b) =
      (z * (a * a + b * b) - k * a * w) * (z * (a * a + b * b) - k * a * w) := by
    have hww : w * w = 1 - a * a - b * b := by linarith
    have hzz : z * z = 1 - k * k := by linarith
    have h1 : (z * (a * a + b * b) - k * a * w) * (z * (a * a + b * b) - k * a * w) =
        (z * z) * ((a * a + b * b) * (a * a + b * b)) - 2 * (z * w) * (k * a) * (a * a + b * b) + k * a * (k * a) * (w * w) := by ring
    have h2 : C * C = k * a * (k * a) + 2 * (z * w) * (k * a) + (z * z) * (w * w) := by rw [← hC]; ring
    rw [h1, h2, hww, hzz]
    ring
  have := mul_self_nonneg (z * (a * a + b * b) - k * a * w)
  linarith

/-- **C85 on the globe, what holds.**  `k` is the cosine of the latitude, `s` the sine of the radius: everything within the
distance with sine `k * s / √(s * s + c * c * k * k)`, which is a little less than the radius, is in the box, if the circle does not
reach a pole.  Missing: the rest of the circle (`globe_fails`). -/
theorem globe_covers_partial {k z c s : K} (hkz : k * k + z * z = 1) (hcs : c * c + s * s = 1) (hk : 0 < k) (hc : 0 < c)
    (hs : 0 < s) (hpole : z * s < k * c) (hpole' : -(z * s) < k * c) (q : Vec K) (hq : OnGlobe q)
    (h0 : 0 < (⟨k, 0, z⟩ : Vec K).dot q)
    (hd : (1 - (⟨k, 0, z⟩ : Vec K).dot q * (⟨k, 0, z⟩ : Vec K).dot q) * (s * s + c * c * (k * k)) ≤ k * k * (s * s)) :
    inEnvelope (compass k z c s) q = true := by
  obtain ⟨a, b, w⟩ := q
  simp only [Vec.dot, OnGlobe, zero_mul, add_zero] at *
  rw [inEnvelope_iff hk hc hs hpole hpole']
  simp only
  generalize hC : k * a + z * w = C at *
  have hss : 0 < s * s := mul_pos hs hs
  have hckk : 0 < c * c * (k * k) := mul_pos (mul_pos hc hc) (mul_pos hk hk)
  have hden : 0 < s * s + c * c * (k * k) := by linarith
  have hkk : k * k ≤ 1 := by linarith [mul_self_nonneg z]
  have hlt : 1 - C * C < k * k := by
    by_contra hge
    have h1 : k * k * (s * s + c * c * (k * k)) ≤ (1 - C * C) * (s * s + c * c * (k * k)) :=
      mul_le_mul_of_nonneg_right (not_lt.1 hge) hden.le
    have h2 := mul_pos (mul_pos hk hk) hckk
    linarith
  have hCc : c * c ≤ C * C := by
    by_contra hlt'
    have h1 : s * s < 1 - C * C := by linarith [not_le.1 hlt']
    have h2 : s * s * (s * s + c * c * (k * k)) < (1 - C * C) * (s * s + c * c * (k * k)) := mul_lt_mul_of_pos_right h1 hden
    have h4 : k * k ≤ s * s + c * c * (k * k) := by
      have h5 : k * k - c * c * (k * k) = s * s * (k * k) := by linear_combination (-(k * k)) * hcs
      have h6 : s * s * (k * k) ≤ s * s * 1 := mul_le_mul_of_nonneg_left hkk hss.le
      linarith
    have h3 := mul_le_mul_of_nonneg_left h4 hss.le
    linarith
  have hcC : c ≤ C := by
    by_contra hlt'
    have := mul_self_lt_mul_self h0.le (not_le.1 hlt')
    linarith
  have ha : 0 < a := by
    by_contra hna
    have h1 : C ≤ z * w := by
      have := mul_nonneg hk.le (neg_nonneg.2 (not_lt.1 hna))
      linarith
    have h2 : C * C ≤ (z * w) * (z * w) := mul_self_le_mul_self h0.le h1
    have hw : w * w ≤ 1 := by linarith [mul_self_nonneg a, mul_self_nonneg b]
    have h3 := mul_le_mul_of_nonneg_left hw (mul_self_nonneg z)
    have h4 : (z * w) * (z * w) = z * z * (w * w) := by ring
    linarith
  have hlon : (k * c * b) * (k * c * b) ≤ (s * a) * (s * a) := by
    have hab : 0 < a * a + b * b := by linarith [mul_pos ha ha, mul_self_nonneg b]
    have h1 : k * k * (b * b) * (s * s + c * c * (k * k)) ≤ k * k * (s * s) * (a * a + b * b) := by
      calc k * k * (b * b) * (s * s + c * c * (k * k))
          ≤ (1 - C * C) * (a * a + b * b) * (s * s + c * c * (k * k)) :=
            mul_le_mul_of_nonneg_right (meridian_le hkz hq hC) hden.le
        _ = (1 - C * C) * (s * s + c * c * (k * k)) * (a * a + b * b) := by ring
        _ ≤ k * k * (s * s) * (a * a + b * b) := mul_le_mul_of_nonneg_right hd hab.le
    have h2 : k * k * ((k * c * b) * (k * c * b)) ≤ k * k * ((s * a) * (s * a)) := by linarith
    exact le_of_mul_le_mul_left h2 (mul_pos hk hk)
  have habs := abs_le.1 (abs_le_of_mul (mul_pos hs ha).le hlon)
  obtain ⟨S, hS⟩ : ∃ S, S = k * w - z * a := ⟨_, rfl⟩
  have hw : w = z * C + k * S := by
    rw [hS, ← hC]
    linear_combination (-w) * hkz
  have hSS : S * S ≤ 1 - C * C := by
    have h1 : S * S + C * C = a * a + w * w := by
      rw [hS, ← hC]
      linear_combination (a * a + w * w) * hkz
    linarith [mul_self_nonneg b]
  refine ⟨ha, by linarith, by linarith, ?_, ?_⟩
  · have := lat_le hcs hk hc hs hcC (z := -z) (S := -S) (by linarith) (by rw [neg_mul_neg]; exact hSS)
    rw [hw]
    linarith
  · have := lat_le hcs hk hc hs hcC (z := z) (S := S) hpole hSS
    rw [hw]
    linarith

/-- **C85 fails on the globe**: wherever the point is, except on the equator, and whatever the radius (the circle must not reach
a pole), there is a point at exactly that distance outside the box, as the points west and east are not those of extreme
longitude. -/
theorem globe_fails {k z c s : K} (hkz : k * k + z * z = 1) (hcs : c * c + s * s = 1) (hk : 0 < k) (hz : z ≠ 0) (hc : 0 < c)
    (hs : 0 < s) (hpole : z * s < k * c) (hpole' : -(z * s) < k * c) :
    ∃ q : Vec K, OnGlobe q ∧ (⟨k, 0, z⟩ : Vec K).dot q = c ∧ inEnvelope (compass k z c s) q = false := by
  have hkc : 0 < k * c := mul_pos hk hc
  obtain ⟨u, hu⟩ : ∃ u : K, u * (2 * (k * c)) = z * s := ⟨z * s / (2 * (k * c)), by field_simp⟩
  have hd : 0 < 1 + u * u := by nlinarith [mul_self_nonneg u]
  obtain ⟨x, y, hx, hy⟩ : ∃ x y : K, x * (1 + u * u) = 2 * u ∧ y * (1 + u * u) = 1 - u * u :=
    ⟨2 * u / (1 + u * u), (1 - u * u) / (1 + u * u), by field_simp, by field_simp⟩
  have hxy : x * x + y * y = 1 := by
    have h1 : (x * x + y * y) * ((1 + u * u) * (1 + u * u)) = 1 * ((1 + u * u) * (1 + u * u)) := by
      calc (x * x + y * y) * ((1 + u * u) * (1 + u * u)) =
          (x * (1 + u * u)) * (x * (1 + u * u)) + (y * (1 + u * u)) * (y * (1 + u * u)) := by ring
        _ = 1 * ((1 + u * u) * (1 + u * u)) := by rw [hx, hy]; ring
    exact mul_right_cancel₀ (mul_pos hd hd).ne' h1
  refine ⟨⟨k * c - z * s * x, s * y, z * c + k * s * x⟩, ?_, ?_, ?_⟩
  · unfold OnGlobe
    simp only
    linear_combination (c * c + s * s * x * x) * hkz + (s * s) * hxy + hcs
  · unfold Vec.dot
    simp only
    linear_combination c * hkz
  · rw [Bool.eq_false_iff]
    intro h
    have h1 := ((inEnvelope_iff hk hc hs hpole hpole' _).1 h).2.1
    simp only at h1
    -- k * c * (s * y) - s * (k * c - z * s * x) is positive
    have h2 : (k * c * (s * y) - s * (k * c - z * s * x)) * (1 + u * u) = s * (2 * u * (z * s) - 2 * (u * u) * (k * c)) := by
      calc (k * c * (s * y) - s * (k * c - z * s * x)) * (1 + u * u) =
          s * (k * c * (y * (1 + u * u)) - k * c * (1 + u * u) + z * s * (x * (1 + u * u))) := by ring
        _ = s * (2 * u * (z * s) - 2 * (u * u) * (k * c)) := by rw [hx, hy]; ring
    have h3 : 2 * u * (z * s) - 2 * (u * u) * (k * c) = u * u * (2 * (k * c)) := by rw [← hu]; ring
    have hu0 : u ≠ 0 := by
      rintro rfl
      rw [zero_mul] at hu
      exact mul_ne_zero hz hs.ne' hu.symm
    have h4 : 0 < u * u := mul_self_pos.2 hu0
    rw [h3] at h2
    have h5 : 0 < s * (u * u * (2 * (k * c))) := by positivity
    rw [← h2] at h5
    have h6 := pos_of_mul_pos_left h5 hd.le
    linarith

/-- At 36.87 degrees north and a radius of 22.6 degrees: the nearer part is covered, a point at the distance itself is not. -/
example : (4 / 5 * (4 / 5) + 3 / 5 * (3 / 5) = (1 : Rat)) ∧ (12 / 13 * (12 / 13) + 5 / 13 * (5 / 13) = (1 : Rat)) ∧
    (3 / 5 * (5 / 13) < (4 / 5 * (12 / 13) : Rat)) ∧
    inEnvelope (compass (4 / 5) (3 / 5) (12 / 13) (5 / 13)) (⟨825 / 1241, 440 / 1241, 816 / 1241⟩ : Vec Rat) = false ∧
    12 / 13 ≤ (⟨4 / 5, 0, 3 / 5⟩ : Vec Rat).dot ⟨825 / 1241, 440 / 1241, 816 / 1241⟩ ∧
    OnGlobe (⟨825 / 1241, 440 / 1241, 816 / 1241⟩ : Vec Rat) := by
  unfold OnGlobe
  decide +kernel

example : OnGlobe (⟨48 / 65, 5 / 13, 36 / 65⟩ : Vec Rat) ∧
    inEnvelope (compass (4 / 5) (3 / 5) (12 / 13) (5 / 13)) (⟨48 / 65, 4 / 13, 3 / 5⟩ : Vec Rat) = true := by
  unfold OnGlobe
  decide +kernel

example : ∃ q : Vec Rat, OnGlobe q ∧ 0 < (⟨4 / 5, 0, 3 / 5⟩ : Vec Rat).dot q ∧ q.y ≠ 0 ∧
    (1 - (⟨4 / 5, 0, 3 / 5⟩ : Vec Rat).dot q * (⟨4 / 5, 0, 3 / 5⟩ : Vec Rat).dot q) *
      (5 / 13 * (5 / 13) + 12 / 13 * (12 / 13) * (4 / 5 * (4 / 5))) ≤ 4 / 5 * (4 / 5) * (5 / 13 * (5 / 13)) :=
  ⟨⟨4 / 5 * (40 / 41), 9 / 41, 3 / 5 * (40 / 41)⟩, by unfold OnGlobe; decide +kernel⟩

/-- **C85 fails for spherical coordinates**: on the equator the box holds just the points within 6371000/6378137 of the radius,
as it is computed with a larger earth than the distance; so at every place and for every radius points nearer than the radius are
missed. -/
theorem spherical_fails (a : K) {r : K} (hr : 0 < r) :
    (∀ b : K, ((equatorBox a r).1 ≤ b ∧ b ≤ (equatorBox a r).2) ↔ sphericalDistance a b ≤ 6371000 / 6378137 * r) ∧
    ∃ b : K, sphericalDistance a b < r ∧ ¬((equatorBox a r).1 ≤ b ∧ b ≤ (equatorBox a r).2) := by
  have key : ∀ b : K, ((equatorBox a r).1 ≤ b ∧ b ≤ (equatorBox a r).2) ↔ sphericalDistance a b ≤ 6371000 / 6378137 * r := by
    intro b
    have e : (6371000 / 6378137 : K) * r = 6371000 * (r / 6378137) := by ring
    rw [sphericalDistance, e, mul_le_mul_iff_right₀ (by norm_num), max_le_iff, equatorBox]
    constructor
    · rintro ⟨h1, h2⟩; simp only at h1 h2; constructor <;> linarith
    · rintro ⟨h1, h2⟩; simp only; constructor <;> linarith
  refine ⟨key, a + r / 6377000, ?_, ?_⟩
  · have h1 : 0 < r / 6377000 := by positivity
    unfold sphericalDistance
    rw [max_eq_right (by linarith)]
    have e : 6371000 * (a + r / 6377000 - a) = 6371000 / 6377000 * r := by ring
    rw [e]
    have : (6371000 / 6377000 : K) < 1 := by norm_num
    nlinarith
  · rintro ⟨-, h⟩
    simp only [equatorBox] at h
    have h3 : r / 6378137 < r / 6377000 := div_lt_div_of_pos_left hr (by norm_num) (by norm_num)
    linarith

example : equatorBox (0 : Rat) 6378137 = (-1, 1) ∧ sphericalDistance (0 : Rat) (1001 / 1000) ≤ 6378137 := by decide +kernel

/-! ### The points in the box of a comparison -/

/-- **C85.**  The points that a comparison looks at are exactly those of the list in the square around the point; all points of the list
within the tolerance are among them. -/
theorem points_in (milli tol : K) (hm : 0 < milli) (ht : 0 ≤ tol) (pts : List (Pt K)) (p : Pt K) :
    ∃ l, pointsIn milli tol pts p = .ok l ∧
      (∀ q, q ∈ l ↔ q ∈ pts ∧ |p.1 - q.1| ≤ max milli (2 * tol) ∧ |p.2 - q.2| ≤ max milli (2 * tol)) ∧
      ∀ q ∈ pts, sq p q ≤ tol * tol → q ∈ l := by
  have hrad : 0 < compareRadius milli tol := lt_of_lt_of_le hm (le_max_left _ _)
  obtain ⟨b, hb, hin⟩ := (box_exact p (compareRadius milli tol)).2 hrad
  have hmem : ∀ q, q ∈ pts.filter b.has ↔ q ∈ pts ∧ |p.1 - q.1| ≤ max milli (2 * tol) ∧ |p.2 - q.2| ≤ max milli (2 * tol) := by
    intro q
    rw [List.mem_filter, hin q]
    rfl
  refine ⟨pts.filter b.has, by simp [pointsIn, hb], hmem, fun q hq hs => ?_⟩
  rw [List.mem_filter]
  refine ⟨hq, (box_covers hb q).1 ?_⟩
  have hle : tol ≤ compareRadius milli tol := le_trans (by linarith) (le_max_right milli (2 * tol))
  exact hs.trans (mul_le_mul hle hle ht hrad.le)

example : pointsIn (1 / 1000 : Rat) 2 [(9, 9), (1, 3), (4, 1), (-5, 0), (0, 2)] (0, 0) = .ok [(1, 3), (4, 1), (0, 2)] := by decide +kernel

end MM.BufferBox
