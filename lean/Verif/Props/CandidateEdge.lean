import Verif.Model.CandidateEdge
import Verif.Props.Substring
import Mathlib.Algebra.Order.Group.Defs
import Mathlib.Algebra.Order.Ring.Nat
import Mathlib.Tactic.Abel

/-!
# C74: a candidate divides its edge
-/

set_option autoImplicit false
set_option linter.unusedSectionVars false

namespace MM.CandEdge

open MM.Line MM.Substring

variable {P R A : Type} [DecidableEq P]

/-! ### Specification -/

section Spec

variable [LinearOrder R] [AddCommMonoid R]

/-- Exact distances: sums are sums, distances of different points are positive and
the same in both directions. -/
structure Metric (G : Geo P R A) : Prop where
  zero : G.zeroR = 0
  add : ∀ a b, G.addR a b = a + b
  self : ∀ x, G.len x x = 0
  symm : ∀ x y, G.len x y = G.len y x
  pos : ∀ x y, x ≠ y → 0 < G.len x y

/-- The length of a line. -/
def total (G : Geo P R A) : List P → R
  | x :: y :: l => G.len x y + total G (y :: l)
  | _ => 0

/-- `q` is a point of the edge at exactly one place: a point `q` between `pre` and `r`, or a point within the segment from the
last point of `pre` to the first of `r`. -/
inductive Once (E : Env P R A) (q : P) : List P → List P → List P → Prop
  | vertex {pre r : List P} : q ∉ pre → q ∉ r → (∀ y, E.proj q (q, y) = q) → (∀ y, E.proj q (y, q) = q) → Once E q pre [q] r
  | inner {pre r : List P} {s t : P} : q ∉ pre ++ [s] → q ∉ t :: r → E.proj q (s, t) = q →
      E.G.len s q + E.G.len q t = E.G.len s t →
      (∀ e ∈ segs (pre ++ [s]), 0 < E.G.len q (E.proj q e)) → (∀ e ∈ segs (t :: r), 0 < E.G.len q (E.proj q e)) →
      Once E q (pre ++ [s]) [] (t :: r)

end Spec

/-! ### Lengths and marks -/

section Lemmas

variable [LinearOrder R] [AddCommGroup R] [IsOrderedAddMonoid R]

/-- The points of a line with their distances from the start, from distance `c` on. -/
def M (G : Geo P R A) : R → List P → List (P × R)
  | c, x :: y :: l => (x, c) :: M G (c + G.len x y) (y :: l)
  | c, [x] => [(x, c)]
  | _, [] => []

theorem marks_M {G : Geo P R A} (h : Metric G) (l : List P) : marks G l = M G 0 l := by
  have key : ∀ (l : List P) (c : R), l.zip (c :: dists G c (segs l)) = M G c l := by
    intro l
    induction l with
    | nil => intro c; rfl
    | cons x l ih =>
      intro c
      cases l with
      | nil => simp [segs, dists, M]
      | cons y l =>
        have e : segs (x :: y :: l) = (x, y) :: segs (y :: l) := by simp [segs]
        rw [e, dists, List.zip_cons_cons, M, h.add, ih]
  rw [marks, h.zero]
  exact key l 0

theorem M_fst (G : Geo P R A) : ∀ (l : List P) (c : R), (M G c l).map Prod.fst = l
  | [], _ => rfl
  | [x], _ => rfl
  | x :: y :: l, c => by rw [M, List.map_cons, M_fst G (y :: l)]

theorem total_append (G : Geo P R A) : ∀ (l : List P) (y : P) (r : List P), total G (l ++ y :: r) = total G (l ++ [y]) + total G (y :: r)
  | [], y, r => by simp [total]
  | [x], y, r => by simp [total]
  | x :: x' :: l, y, r => by
    have := total_append G (x' :: l) y r
    simp only [List.cons_append, total] at this ⊢
    rw [this, add_assoc]

theorem total_nonneg {G : Geo P R A} (h : Metric G) : ∀ l : List P, 0 ≤ total G l
  | [] => le_rfl
  | [_] => le_rfl
  | x :: y :: l => by
    rw [total]
    refine add_nonneg ?_ (total_nonneg h (y :: l))
    by_cases e : x = y
    · rw [e, h.self]
    · exact (h.pos x y e).le

theorem total_pos {G : Geo P R A} (h : Metric G) {x y : P} {l : List P} (hxy : x ≠ y) : 0 < total G (x :: y :: l) := by
  rw [total]
  exact add_pos_of_pos_of_nonneg (h.pos x y hxy) (total_nonneg h _)

theorem M_append (G : Geo P R A) : ∀ (l : List P) (y : P) (r : List P) (c : R),
    M G c (l ++ y :: r) = M G c l ++ M G (c + total G (l ++ [y])) (y :: r)
  | [], y, r, c => by simp [M, total]
  | [x], y, r, c => by simp [M, total]
  | x :: x' :: l, y, r, c => by
    have := M_append G (x' :: l) y r (c + G.len x x')
    simp only [List.cons_append, M, total] at this ⊢
    rw [this, add_assoc]

theorem M_range {G : Geo P R A} (h : Metric G) : ∀ (l : List P) (c : R), ∀ m ∈ M G c l, c ≤ m.2 ∧ m.2 ≤ c + total G l
  | [], c, m, hm => by simp [M] at hm
  | [x], c, m, hm => by
    simp only [M, List.mem_singleton] at hm
    subst hm
    simp [total]
  | x :: y :: l, c, m, hm => by
    have hn : 0 ≤ G.len x y := by
      by_cases e : x = y
      · rw [e, h.self]
      · exact (h.pos x y e).le
    rw [M, List.mem_cons] at hm
    rw [total]
    rcases hm with rfl | hm
    · exact ⟨le_rfl, by simpa using add_nonneg hn (total_nonneg h (y :: l))⟩
    · obtain ⟨h1, h2⟩ := M_range h (y :: l) _ m hm
      exact ⟨le_trans (by simpa using hn) h1, by rw [← add_assoc]; exact h2⟩

theorem M_sorted {G : Geo P R A} (h : Metric G) : ∀ (l : List P) (c : R), (M G c l).Pairwise (fun x y => x.2 ≤ y.2)
  | [], c => by simp [M]
  | [x], c => by simp [M]
  | x :: y :: l, c => by
    rw [M, List.pairwise_cons]
    refine ⟨?_, M_sorted h (y :: l) _⟩
    intro m hm
    have hn : 0 ≤ G.len x y := by
      by_cases e : x = y
      · rw [e, h.self]
      · exact (h.pos x y e).le
    exact le_trans (by simpa using hn) (M_range h (y :: l) _ m hm).1

theorem foldl_total {G : Geo P R A} (h : Metric G) : ∀ (l : List P) (c : R),
    ((segs l).filter (fun s => decide (s.1 ≠ s.2))).foldl (fun acc s => G.addR acc (G.len s.1 s.2)) c = c + total G l
  | [], c => by simp [segs, total]
  | [x], c => by simp [segs, total]
  | x :: y :: l, c => by
    have e : segs (x :: y :: l) = (x, y) :: segs (y :: l) := by simp [segs]
    rw [e, total, List.filter_cons]
    by_cases hxy : x = y
    · subst hxy
      simp only [ne_eq, not_true_eq_false, decide_false, Bool.false_eq_true, if_false, h.self, zero_add]
      exact foldl_total h (x :: l) c
    · simp only [ne_eq, hxy, not_false_eq_true, decide_true, if_true, List.foldl_cons]
      rw [h.add]
      have := foldl_total h (y :: l) (c + G.len x y)
      simp only [ne_eq] at this
      rw [this, add_assoc]

theorem plainLength_eq {G : Geo P R A} (h : Metric G) {x y : P} {l : List P} (hc : (x :: y :: l).IsChain (· ≠ ·)) :
    plainLength G (x :: y :: l) = some (total G (x :: y :: l)) := by
  obtain ⟨len, hl⟩ := plainLength_some G (line := x :: y :: l) (by simp) hc
  rw [hl]
  unfold plainLength at hl
  split_ifs at hl
  rw [foldl_total h, h.zero, zero_add] at hl
  exact hl.symm

theorem filter_all {α : Type} {p : α → Bool} {l : List α} (h : ∀ x ∈ l, p x = true) : l.filter p = l := List.filter_eq_self.2 h

theorem filter_none {α : Type} {p : α → Bool} {l : List α} (h : ∀ x ∈ l, p x = false) : l.filter p = [] := by
  rw [List.filter_eq_nil_iff]
  intro a ha
  simp [h a ha]

/-- Distances of the points of a line without repeated neighbours: the first is at the start, all others behind it. -/
theorem M_first {G : Geo P R A} (h : Metric G) {x : P} {l : List P} (hc : (x :: l).IsChain (· ≠ ·)) (c : R) :
    ∃ m, M G c (x :: l) = (x, c) :: m ∧ m.map Prod.fst = l ∧ ∀ y ∈ m, c < y.2 := by
  cases l with
  | nil => exact ⟨[], by simp [M], rfl, by simp⟩
  | cons y l =>
    rw [List.isChain_cons_cons] at hc
    refine ⟨M G (c + G.len x y) (y :: l), by rw [M], M_fst G _ _, ?_⟩
    intro m hm
    exact lt_of_lt_of_le (by simpa using h.pos x y hc.1) (M_range h _ _ m hm).1

/-- ... and the last is at the end, all others before it. -/
theorem M_last {G : Geo P R A} (h : Metric G) {z : P} {l : List P} (hc : (l ++ [z]).IsChain (· ≠ ·)) (c : R) :
    M G c (l ++ [z]) = M G c l ++ [(z, c + total G (l ++ [z]))] ∧ ∀ y ∈ M G c l, y.2 < c + total G (l ++ [z]) := by
  refine ⟨by rw [M_append]; simp [M], ?_⟩
  intro y hy
  refine lt_of_le_of_lt (M_range h l c y hy).2 ?_
  rcases List.eq_nil_or_concat l with rfl | ⟨k, w, rfl⟩
  · simp [M] at hy
  · rw [List.concat_eq_append] at hc hy ⊢
    have e : total G (k ++ [w] ++ [z]) = total G (k ++ [w]) + total G [w, z] := by
      rw [List.append_assoc, List.singleton_append, total_append]
    have hwz : w ≠ z := by
      rw [List.append_assoc, List.singleton_append, List.isChain_append] at hc
      exact (List.isChain_cons_cons.1 hc.2.1).1
    rw [e]
    simp [total, h.pos w z hwz]

/-- The point at a place and its distance. -/
theorem M_at (G : Geo P R A) (l : List P) (x : P) (r : List P) :
    (M G 0 (l ++ x :: r))[l.length]? = some (x, total G (l ++ [x])) := by
  have hl : (M G 0 l).length = l.length := by rw [← List.length_map (f := Prod.fst), M_fst]
  rw [M_append, List.getElem?_append_right (by omega), hl, Nat.sub_self, zero_add]
  cases r with
  | nil => rw [M]; rfl
  | cons y r => rw [M]; rfl

theorem segs_at (l : List P) (x y : P) (r : List P) : (segs (l ++ x :: y :: r))[l.length]? = some (x, y) := by
  unfold segs
  rw [List.getElem?_zip_eq_some]
  constructor
  · rw [List.getElem?_append_right le_rfl]; simp
  · rw [← List.drop_one, List.getElem?_drop]
    have e : 1 + l.length = (l ++ [x]).length := by simp; omega
    rw [e, show l ++ x :: y :: r = (l ++ [x]) ++ y :: r by simp, List.getElem?_append_right le_rfl]
    simp

theorem segs_split (l : List P) (x y : P) (r : List P) : segs (l ++ x :: y :: r) = segs (l ++ [x]) ++ (x, y) :: segs (y :: r) := by
  induction l with
  | nil => simp [segs]
  | cons z l ih =>
    cases l with
    | nil => simp [segs]
    | cons w l =>
      have e1 : segs (z :: w :: l ++ x :: y :: r) = (z, w) :: segs (w :: l ++ x :: y :: r) := by simp [segs]
      have e2 : segs (z :: w :: l ++ [x]) = (z, w) :: segs (w :: l ++ [x]) := by simp [segs]
      rw [e1, e2, ih]
      rfl

/-- Points between the start and a distance. -/
theorem interior_to {G : Geo P R A} (h : Metric G) {x : P} {pre r : List P} {y : P} (hc : (x :: pre ++ y :: r).IsChain (· ≠ ·)) {b : R}
    (h1 : total G (x :: pre) < b) (h2 : b ≤ total G (x :: pre ++ [y])) : interior G (x :: pre ++ y :: r) 0 b = pre := by
  unfold interior
  rw [marks_M h, M_append, zero_add, List.filter_append]
  have hp : (x :: pre).IsChain (· ≠ ·) := (List.isChain_append.1 hc).1
  obtain ⟨m, e, e1, e2⟩ := M_first h hp 0
  have hle := M_range h (x :: pre) 0
  rw [e] at hle ⊢
  rw [List.filter_cons_of_neg (by simp), filter_all, filter_none, List.append_nil]
  · exact e1
  · intro p hp
    have := (M_range h _ _ p hp).1
    simp [not_lt.2 (h2.trans this)]
  · intro p hp
    have := (hle p (List.mem_cons_of_mem _ hp)).2
    rw [zero_add] at this
    simp [e2 p hp, lt_of_le_of_lt this h1]

/-- Points between a distance and the end. -/
theorem interior_from {G : Geo P R A} (h : Metric G) {pre r : List P} {y : P} (hc : (pre ++ y :: r).IsChain (· ≠ ·)) {a : R}
    (h1 : total G pre ≤ a) (h2 : a < total G (pre ++ [y])) :
    interior G (pre ++ y :: r) a (total G (pre ++ y :: r)) = (y :: r).dropLast := by
  unfold interior
  rw [marks_M h, M_append, zero_add, List.filter_append]
  have hr : (y :: r).IsChain (· ≠ ·) := (List.isChain_append.1 hc).2.1
  have hne : y :: r ≠ [] := by simp
  have hsp : (y :: r) = (y :: r).dropLast ++ [(y :: r).getLast hne] := (List.dropLast_append_getLast hne).symm
  have hlast := M_last h (l := (y :: r).dropLast) (z := (y :: r).getLast hne) (by rw [← hsp]; exact hr) (total G (pre ++ [y]))
  rw [← hsp] at hlast
  obtain ⟨e, e2⟩ := hlast
  rw [← total_append] at e2
  rw [filter_none, List.nil_append, e, List.filter_append, filter_all, List.filter_cons_of_neg, List.filter_nil,
    List.append_nil, M_fst]
  · rw [← total_append]; simp
  · intro p hp
    have hmem : p ∈ M G (total G (pre ++ [y])) (y :: r) := by rw [e]; exact List.mem_append_left _ hp
    have := (M_range h _ _ p hmem).1
    simp [lt_of_lt_of_le h2 this, e2 p hp]
  · intro p hp
    have := (M_range h _ _ p hp).2
    rw [zero_add] at this
    simp [not_lt.2 (this.trans h1)]

theorem piece_to {x q : P} {pre : List P} (hc : (x :: pre).IsChain (· ≠ ·)) (hq : q ∉ x :: pre) : piece x pre q = x :: pre ++ [q] := by
  unfold piece
  cases pre with
  | nil => rfl
  | cons y pre =>
    rw [if_neg (by simp), if_neg, if_neg]
    · rfl
    · intro h
      exact hq (List.mem_cons_of_mem _ (List.mem_of_getLast? h))
    · intro h
      rw [List.isChain_cons_cons] at hc
      simp only [List.head?_cons, Option.some.injEq] at h
      exact hc.1 h.symm

theorem piece_from {y q : P} {r : List P} (hc : (y :: r).IsChain (· ≠ ·)) (hq : q ∉ y :: r) (hne : y :: r ≠ []) :
    piece q (y :: r).dropLast ((y :: r).getLast hne) = q :: y :: r := by
  unfold piece
  cases r with
  | nil => rfl
  | cons v r =>
    have e : (y :: v :: r).dropLast ≠ [] := by simp
    rw [if_neg e, if_neg, if_neg]
    · rw [List.append_assoc, List.dropLast_append_getLast]; rfl
    · intro h
      have hsp := List.dropLast_append_getLast hne
      obtain ⟨k, w, hk⟩ : ∃ k w, (y :: v :: r).dropLast = k ++ [w] := by
        rcases List.eq_nil_or_concat (y :: v :: r).dropLast with h0 | ⟨k, w, h0⟩
        · exact absurd h0 e
        · exact ⟨k, w, by rw [h0, List.concat_eq_append]⟩
      rw [hk] at h hsp
      simp only [List.getLast?_append, List.getLast?_singleton, Option.some_or, Option.some.injEq] at h
      rw [← hsp, ← h, List.append_assoc, List.singleton_append, List.isChain_append] at hc
      exact (List.isChain_cons_cons.1 hc.2.1).1 rfl
    · simp only [List.dropLast_cons₂, List.head?_cons, Option.some.injEq]
      intro h
      exact hq (by simp [h])

theorem chain_left {l r : List P} (h : (l ++ r).IsChain (· ≠ ·)) : l.IsChain (· ≠ ·) := (List.isChain_append.1 h).1

theorem chain_right {l r : List P} (h : (l ++ r).IsChain (· ≠ ·)) : r.IsChain (· ≠ ·) := (List.isChain_append.1 h).2.1

/-- The lengths of a line without repeated neighbours grow with every point. -/
theorem total_lt {G : Geo P R A} (h : Metric G) {l : List P} {s y : P} {r : List P} (hc : (l ++ s :: y :: r).IsChain (· ≠ ·)) :
    total G (l ++ [s]) < total G (l ++ s :: y :: r) := by
  rw [total_append G l s (y :: r)]
  have := total_pos h (l := r) (List.isChain_cons_cons.1 (chain_right hc)).1
  simpa using this

theorem cut_to (E : Env P R A) (h : Metric E.G) {x q y : P} {pre r : List P} (hc : (x :: pre ++ y :: r).IsChain (· ≠ ·)) {b : R}
    (hb : 0 < b) (h1 : total E.G (x :: pre) < b) (h2 : b ≤ total E.G (x :: pre ++ [y])) (hlt : b < total E.G (x :: pre ++ y :: r))
    (hq : q ∉ x :: pre) : substringTo E.G E.interp (x :: pre ++ y :: r) b (some q) = .ok (x :: pre ++ [q]) := by
  have hlen : plainLength E.G (x :: pre ++ y :: r) = some (total E.G (x :: pre ++ y :: r)) := by
    cases pre with
    | nil => exact plainLength_eq h hc
    | cons w pre => exact plainLength_eq h hc
  have hs : (marks E.G (x :: pre ++ y :: r)).Pairwise (fun x y => x.2 ≤ y.2) := by rw [marks_M h]; exact M_sorted h _ _
  rw [substring_to_partial E.G E.interp (by simp; omega) hc hs (by rw [h.zero]; exact hb) _ (x := x) rfl (some q)
    (fun e => hq (by simp [Option.some.inj e])) (by rw [hlen]; intro e; exact hlt.ne (Option.some.inj e).symm)]
  · rw [h.zero, interior_to h hc h1 h2]
    show Outcome.ok (piece x pre q) = _
    rw [piece_to (chain_left hc) hq]
  · refine ⟨(y, total E.G (x :: pre ++ [y])), ?_, ?_⟩
    · rw [marks_M h]; exact List.mem_of_getElem? (M_at E.G (x :: pre) y r)
    · rw [h.zero]; exact lt_of_lt_of_le hb h2

theorem cut_from (E : Env P R A) (h : Metric E.G) {q y : P} {pre r : List P} (hpre : pre ≠ []) (hc : (pre ++ y :: r).IsChain (· ≠ ·)) {a : R}
    (ha : 0 < a) (h1 : total E.G pre ≤ a) (h2 : a < total E.G (pre ++ [y])) (hq : q ∉ y :: r) :
    substringFrom E.G E.interp (pre ++ y :: r) a (some q) = .ok (q :: y :: r) := by
  have hlen : plainLength E.G (pre ++ y :: r) = some (total E.G (pre ++ y :: r)) := by
    cases pre with
    | nil => exact absurd rfl hpre
    | cons w pre =>
      cases pre with
      | nil => exact plainLength_eq h hc
      | cons w' pre => exact plainLength_eq h hc
  have hs : (marks E.G (pre ++ y :: r)).Pairwise (fun x y => x.2 ≤ y.2) := by rw [marks_M h]; exact M_sorted h _ _
  have hlt : a < total E.G (pre ++ y :: r) := by
    rw [total_append]
    exact lt_of_lt_of_le h2 (by simpa using total_nonneg h (y :: r))
  have hne : y :: r ≠ [] := by simp
  rw [substring_from_partial E.G E.interp (z := (y :: r).getLast hne) _ hc hs (by rw [h.zero]; exact ha) hlen hlt _ _ (some q) _]
  · rw [interior_from h hc h1 h2]
    show Outcome.ok (piece q _ _) = _
    rw [piece_from (chain_right hc) hq]
  · have := List.length_pos_iff.2 hpre
    simp; omega
  · refine ⟨(y, total E.G (pre ++ [y])), ?_, h2⟩
    rw [marks_M h]; exact List.mem_of_getElem? (M_at E.G pre y r)
  · rw [List.getLast?_append, List.getLast?_eq_getLast_of_ne_nil hne]; rfl
  · intro e
    exact hq (by rw [Option.some.inj e]; exact List.getLast_mem hne)

/-- Both cuts of an edge at a point that is on it once. -/
theorem cuts (E : Env P R A) (h : Metric E.G) {q : P} {pre w r : List P} (ho : Once E q pre w r) (hpre : pre ≠ []) (hr : r ≠ [])
    (hc : (pre ++ w ++ r).IsChain (· ≠ ·)) :
    pointTo E (pre ++ w ++ r) q = .ok (pre ++ [q]) ∧ pointFrom E (pre ++ w ++ r) q = .ok (q :: r) ∧
    total E.G (pre ++ [q]) + total E.G (q :: r) = total E.G (pre ++ w ++ r) ∧
    (pre ++ [q]).IsChain (· ≠ ·) ∧ (q :: r).IsChain (· ≠ ·) := by
  have hnn : ∀ x y, E.G.zeroR ≤ E.G.len x y := by
    intro x y
    rw [h.zero]
    by_cases e : x = y
    · rw [e, h.self]
    · exact (h.pos x y e).le
  have hz : E.G.len q q = E.G.zeroR := by rw [h.zero, h.self]
  cases ho with
  | vertex h1 h2 h3 h4 =>
    obtain ⟨p0, u, rfl⟩ : ∃ p0 u, pre = p0 ++ [u] := by
      rcases List.eq_nil_or_concat pre with e | ⟨k, w, e⟩
      · exact absurd e hpre
      · exact ⟨k, w, by rw [e, List.concat_eq_append]⟩
    obtain ⟨v, r, rfl⟩ := List.exists_cons_of_ne_nil hr
    have hto : OnTo E.G E.proj (p0 ++ [u] ++ [q] ++ v :: r) q p0.length (u, q) := by
      refine ⟨?_, h4 u, ?_, .inl ⟨rfl, ?_⟩⟩
      · have := segs_at p0 u q (v :: r)
        simpa using this
      · show E.G.len q q ≤ E.G.len u q
        rw [hz]; exact hnn _ _
      · intro j t hj ht he
        have e1 : segs (p0 ++ [u] ++ [q] ++ v :: r) = (segs (p0 ++ [u]) ++ [(u, q)]) ++ segs (q :: v :: r) := by
          have := segs_split p0 u q (v :: r)
          simp only [List.append_assoc, List.singleton_append, List.cons_append, List.nil_append] at this ⊢
          rw [this]
        have hl : (segs (p0 ++ [u]) ++ [(u, q)]).length = p0.length + 1 := by simp [segs_len]
        rw [e1, List.getElem?_append_right (by omega)] at ht
        have hm := List.mem_of_getElem? ht
        have : t.2 ∈ v :: r := by
          have := (List.of_mem_zip hm).2
          simpa using this
        exact h2 (he ▸ this)
    have hfrom : OnFrom E.G E.proj (p0 ++ [u] ++ [q] ++ v :: r) q (p0 ++ [u]).length (q, v) := by
      refine ⟨?_, h3 v, ?_, .inl ⟨rfl, ?_⟩⟩
      · have := segs_at (p0 ++ [u]) q v r
        simpa using this
      · show E.G.len q q ≤ E.G.len q v
        rw [hz]; exact hnn _ _
      · intro j t hj ht he
        have hm : t.1 ∈ p0 ++ [u] := by
          unfold segs at ht
          rw [List.getElem?_zip_eq_some] at ht
          have h5 := ht.1
          rw [List.append_assoc, List.getElem?_append_left hj] at h5
          exact List.mem_of_getElem? h5
        exact h1 (he ▸ hm)
    obtain ⟨m1, e1, d1⟩ := distance_to_partial E.G E.proj true hc hnn hz hto
    obtain ⟨m2, e2, d2⟩ := distance_from_partial E.G E.proj true hc hnn hz hfrom
    have a1 := M_at E.G p0 u (q :: v :: r)
    have a2 := M_at E.G (p0 ++ [u]) q (v :: r)
    rw [marks_M h] at e1 e2
    simp only [List.append_assoc, List.singleton_append, List.cons_append, List.nil_append] at e1 e2 a1 a2
    rw [a1] at e1
    rw [a2] at e2
    simp only [Option.some.injEq, Prod.mk.injEq, true_and] at e1 e2
    have hm1 : E.G.addR m1 (E.G.len u q) = total E.G (p0 ++ [u] ++ [q]) := by
      rw [h.add, ← e1, List.append_assoc, List.singleton_append, total_append E.G p0 u [q]]
      simp [total]
    have hm2 : E.G.addR m2 (E.G.len q q) = total E.G (p0 ++ [u] ++ [q]) := by
      rw [h.add, h.self, add_zero, ← e2]
      simp
    have hcq : (p0 ++ [u] ++ [q]).IsChain (· ≠ ·) := chain_left hc
    have hcr : (q :: v :: r).IsChain (· ≠ ·) := by
      have : p0 ++ [u] ++ [q] ++ v :: r = (p0 ++ [u]) ++ q :: v :: r := by simp
      rw [this] at hc
      exact chain_right hc
    obtain ⟨x, pre, hx⟩ := List.exists_cons_of_ne_nil hpre
    have hpos : total E.G (p0 ++ [u]) < total E.G (p0 ++ [u] ++ [q]) := by
      have := total_lt h (l := p0) (s := u) (y := q) (r := []) (by simpa using hcq)
      simpa using this
    have hpos0 : 0 < total E.G (p0 ++ [u] ++ [q]) := lt_of_le_of_lt (total_nonneg h _) hpos
    have hlt : total E.G (p0 ++ [u] ++ [q]) < total E.G ((p0 ++ [u]) ++ q :: v :: r) :=
      total_lt h (l := p0 ++ [u]) (s := q) (y := v) (r := r) (by simpa using hc)
    refine ⟨?_, ?_, ?_, hcq, hcr⟩
    · unfold pointTo
      rw [d1]
      simp only
      have ec := cut_to E h (x := x) (q := q) (y := q) (pre := pre) (r := v :: r) (b := E.G.addR m1 (E.G.len u q))
      rw [hm1, ← hx] at ec
      rw [hm1, List.append_assoc (p0 ++ [u]), List.singleton_append]
      exact ec (by simpa using hc) hpos0 hpos le_rfl hlt h1
    · unfold pointFrom
      rw [d2]
      simp only
      rw [hm2]
      refine cut_from E h (pre := p0 ++ [u] ++ [q]) (by simp) hc hpos0 le_rfl ?_ h2
      have := total_lt h (l := p0 ++ [u]) (s := q) (y := v) (r := []) (by
        have : (p0 ++ [u] ++ [q] ++ [v]).IsChain (· ≠ ·) := by
          refine chain_left (r := r) ?_
          simpa using hc
        simpa using this)
      simpa using this
    · rw [List.append_assoc (p0 ++ [u]), List.singleton_append, ← total_append]
  | @inner p0 r s t h1 h2 h3 h4 h5 h6 =>
    rw [List.append_nil] at hc ⊢
    have hsq : s ≠ q := by rintro rfl; simp at h1
    have hqt : q ≠ t := by rintro rfl; simp at h2
    have hst : s ≠ t := by
      rw [List.append_assoc, List.singleton_append] at hc
      exact (List.isChain_cons_cons.1 (chain_right hc)).1
    have esegs : segs (p0 ++ [s] ++ t :: r) = segs (p0 ++ [s]) ++ (s, t) :: segs (t :: r) := by
      have := segs_split p0 s t r
      simpa using this
    have hl : (segs (p0 ++ [s])).length = p0.length := by simp [segs_len]
    have hto : OnTo E.G E.proj (p0 ++ [s] ++ t :: r) q p0.length (s, t) := by
      refine ⟨?_, h3, ?_, .inr ⟨?_, ?_⟩⟩
      · have := segs_at p0 s t r
        simpa using this
      · show E.G.len t q ≤ E.G.len s t
        rw [h.symm, ← h4]
        simpa using (h.pos s q hsq).le
      · intro e he hq
        have : e.2 ∈ p0 ++ [s] ++ t :: r := List.mem_of_mem_tail (List.of_mem_zip he).2
        rw [← hq, List.mem_append] at this
        exact this.elim h1 h2
      · intro j e hj he
        rw [esegs, List.getElem?_append_right (by omega), hl] at he
        obtain ⟨i, hi⟩ : ∃ i, j - p0.length = i + 1 := ⟨j - p0.length - 1, by omega⟩
        rw [hi, List.getElem?_cons_succ] at he
        rw [h.zero]
        exact h6 e (List.mem_of_getElem? he)
    have hfrom : OnFrom E.G E.proj (p0 ++ [s] ++ t :: r) q p0.length (s, t) := by
      refine ⟨?_, h3, ?_, .inr ⟨?_, ?_⟩⟩
      · have := segs_at p0 s t r
        simpa using this
      · show E.G.len s q ≤ E.G.len s t
        rw [← h4]
        simpa using (h.pos q t hqt).le
      · intro e he hq
        have : e.1 ∈ p0 ++ [s] ++ t :: r := (List.of_mem_zip he).1
        rw [← hq, List.mem_append] at this
        exact this.elim h1 h2
      · intro j e hj he
        rw [esegs, List.getElem?_append_left (by omega)] at he
        rw [h.zero]
        exact h5 e (List.mem_of_getElem? he)
    obtain ⟨m1, e1, d1⟩ := distance_to_partial E.G E.proj true hc hnn hz hto
    obtain ⟨m2, e2, d2⟩ := distance_from_partial E.G E.proj true hc hnn hz hfrom
    have a1 := M_at E.G p0 s (t :: r)
    rw [marks_M h] at e1 e2
    simp only [List.append_assoc, List.singleton_append] at e1 e2 a1
    rw [a1] at e1 e2
    simp only [Option.some.injEq, Prod.mk.injEq, true_and] at e1 e2
    have tq : total E.G (p0 ++ [s] ++ [q]) = total E.G (p0 ++ [s]) + E.G.len s q := by
      rw [List.append_assoc, List.singleton_append, total_append]
      simp [total]
    have tt : total E.G (p0 ++ [s] ++ [t]) = total E.G (p0 ++ [s]) + E.G.len s t := by
      rw [List.append_assoc, List.singleton_append, total_append]
      simp [total]
    have hb1 : E.G.addR m1 (E.G.len s q) = total E.G (p0 ++ [s] ++ [q]) := by rw [h.add, ← e1, tq]
    have hb2 : E.G.addR m2 (E.G.len s q) = total E.G (p0 ++ [s] ++ [q]) := by rw [h.add, ← e2, tq]
    have hpos : total E.G (p0 ++ [s]) < total E.G (p0 ++ [s] ++ [q]) := by rw [tq]; simpa using h.pos s q hsq
    have hpos0 : 0 < total E.G (p0 ++ [s] ++ [q]) := lt_of_le_of_lt (total_nonneg h _) hpos
    have hqlt : total E.G (p0 ++ [s] ++ [q]) < total E.G (p0 ++ [s] ++ [t]) := by
      rw [tq, tt, ← h4]
      simpa using h.pos q t hqt
    have hlt : total E.G (p0 ++ [s] ++ [q]) < total E.G (p0 ++ [s] ++ t :: r) := by
      rw [total_append E.G (p0 ++ [s]) t r]
      exact lt_of_lt_of_le hqlt (by simpa using total_nonneg h (t :: r))
    obtain ⟨x, pre, hx⟩ := List.exists_cons_of_ne_nil hpre
    refine ⟨?_, ?_, ?_, ?_, ?_⟩
    · unfold pointTo
      rw [d1]
      simp only
      have ec := cut_to E h (x := x) (q := q) (y := t) (pre := pre) (r := r) (b := E.G.addR m1 (E.G.len s q))
      rw [hb1, ← hx] at ec
      rw [hb1]
      exact ec hc hpos0 hpos hqlt.le hlt h1
    · unfold pointFrom
      rw [d2]
      simp only
      rw [hb2]
      exact cut_from E h hpre hc hpos0 hpos.le hqlt h2
    · rw [tq, total_append E.G (p0 ++ [s]) t r, tt, total, ← h4]
      abel
    · rw [List.isChain_append]
      refine ⟨chain_left hc, by simp, ?_⟩
      intro a ha b hb
      simp only [List.getLast?_append, List.getLast?_singleton, Option.some_or, Option.mem_def, Option.some.injEq,
        List.head?_cons] at ha hb
      rw [← ha, ← hb]
      exact hsq
    · rw [List.isChain_cons_cons]
      exact ⟨hqt, chain_right hc⟩

/-! ### The property -/

/-- The lines `f` and `t` divide the edge at `q`: one of them is empty and `q` is an end, or `f` leads to `q` and `t` from there
along all other points. -/
def Divides (edge : List P) (q : P) (f t : List P) : Prop :=
  (f = [] ∧ t = edge ∧ edge.head? = some q) ∨ (f = edge ∧ t = [] ∧ edge.getLast? = some q) ∨
  ∃ pre r, pre ≠ [] ∧ r ≠ [] ∧ (edge = pre ++ r ∨ edge = pre ++ q :: r) ∧ f = pre ++ [q] ∧ t = q :: r

/-- **C74, lines (in part).**  If the projection is an end of the edge or on the edge at one place only, the candidate has this
projection and its distance, and its lines divide the edge there; their lengths add up to that of the edge, and they repeat no
point either.  Edges without
repeated neighbouring points; the projection on the edge at several places: see `loop_fails`. -/
theorem divides_partial (E : Env P R A) (h : Metric E.G) (p : P) {edge : List P} (y : P × R) (hy : y.2 = E.G.len p y.1)
    (h2 : 2 ≤ edge.length) (hc : edge.IsChain (· ≠ ·))
    (hat : edge.head? = some y.1 ∨ edge.getLast? = some y.1 ∨
      ∃ pre w r, Once E y.1 pre w r ∧ pre ≠ [] ∧ r ≠ [] ∧ edge = pre ++ w ++ r) :
    ∃ c, divide E p edge y = .ok c ∧ c.proj = y.1 ∧ c.dist = E.G.len p c.proj ∧ Divides edge c.proj c.from_ c.to_ ∧
      total E.G c.from_ + total E.G c.to_ = total E.G edge ∧ c.from_.IsChain (· ≠ ·) ∧ c.to_.IsChain (· ≠ ·) := by
  have hne : edge ≠ [] := by rintro rfl; simp at h2
  obtain ⟨x, hx⟩ : ∃ x, edge.head? = some x := ⟨_, List.head?_eq_some_head hne⟩
  obtain ⟨z, hz⟩ : ∃ z, edge.getLast? = some z := ⟨_, List.getLast?_eq_getLast_of_ne_nil hne⟩
  unfold divide
  rw [hx, hz]
  simp only
  by_cases h1 : x = y.1
  · rw [if_pos h1]
    exact ⟨_, rfl, rfl, hy, .inl ⟨rfl, rfl, by rw [hx, h1]⟩, by simp [total], by simp, hc⟩
  rw [if_neg h1]
  by_cases h3 : z = y.1
  · rw [if_pos h3]
    exact ⟨_, rfl, rfl, hy, .inr (.inl ⟨rfl, rfl, by rw [hz, h3]⟩), by simp [total], hc, by simp⟩
  rw [if_neg h3, if_neg (by rw [h.zero]; exact (h.pos _ _ h1).ne'), if_neg (by rw [h.zero]; exact (h.pos _ _ h3).ne')]
  rcases hat with hat | hat | ⟨pre, w, r, ho, hpre, hr, rfl⟩
  · rw [hx] at hat; exact absurd (Option.some.inj hat) h1
  · rw [hz] at hat; exact absurd (Option.some.inj hat) h3
  obtain ⟨c1, c2, c3, c4, c5⟩ := cuts E h ho hpre hr hc
  have l0 : plainLength E.G (pre ++ w ++ r) = some (total E.G (pre ++ w ++ r)) := by
    match hl : pre ++ w ++ r, h2 with
    | a :: b :: l, _ => rw [hl] at hc; exact plainLength_eq h hc
  obtain ⟨a, pre', ea⟩ := List.exists_cons_of_ne_nil hpre
  obtain ⟨b, r', eb⟩ := List.exists_cons_of_ne_nil hr
  have l1 : plainLength E.G (pre ++ [y.1]) = some (total E.G (pre ++ [y.1])) ∧ 0 < total E.G (pre ++ [y.1]) := by
    rw [ea] at c4 ⊢
    cases pre' with
    | nil => exact ⟨plainLength_eq h c4, total_pos h (List.isChain_cons_cons.1 c4).1⟩
    | cons a' pre' => exact ⟨plainLength_eq h c4, total_pos h (List.isChain_cons_cons.1 c4).1⟩
  have l2 : plainLength E.G (y.1 :: r) = some (total E.G (y.1 :: r)) ∧ 0 < total E.G (y.1 :: r) := by
    rw [eb] at c5 ⊢
    exact ⟨plainLength_eq h c5, total_pos h (List.isChain_cons_cons.1 c5).1⟩
  have n1 : noLength E (pre ++ [y.1]) = false := by
    unfold noLength
    rw [l1.1, h.zero]
    simpa using l1.2.ne'
  have n2 : noLength E (y.1 :: r) = false := by
    unfold noLength
    rw [l2.1, h.zero]
    simpa using l2.2.ne'
  have m1 : plainLength E.G (pre ++ [y.1]) ≠ plainLength E.G (pre ++ w ++ r) := by
    rw [l1.1, l0, ← c3]
    intro e
    have := Option.some.inj e
    exact l2.2.ne' (by simpa using this)
  have m2 : plainLength E.G (y.1 :: r) ≠ plainLength E.G (pre ++ w ++ r) := by
    rw [l2.1, l0, ← c3]
    intro e
    have := Option.some.inj e
    exact l1.2.ne' (by simpa using this)
  unfold within
  rw [c1, Outcome.bind_ok, n1, if_neg (by simp), if_neg m1, c2, Outcome.bind_ok, n2, if_neg (by simp), if_neg m2]
  refine ⟨_, rfl, rfl, hy, .inr (.inr ⟨pre, r, hpre, hr, ?_, rfl, rfl⟩), c3, c4, c5⟩
  cases ho with
  | vertex => exact .inr (by simp)
  | inner => exact .inl (by simp)

/-- A line without length: no two neighbouring points differ, or the length is zero. -/
def Short (G : Geo P R A) (l : List P) : Prop := plainLength G l = none ∨ plainLength G l = some G.zeroR

/-- **C74, rounding.**  In every geometry, even one where different points have distance zero or parts of an edge are as long as
the edge: the distance is that of the projection of the candidate; a candidate at the start of the edge has the whole edge before
it and one at the end has it behind; candidates are moved to an end only if the projection is there, at distance zero, or if one
of the parts has no length or that of the whole edge; all other candidates have two parts with lengths that are not zero and
differ from that of the edge. -/
theorem rounding (E : Env P R A) (p : P) {edge : List P} (y : P × R) (hy : y.2 = E.G.len p y.1) {x z : P}
    (hx : edge.head? = some x) (hz : edge.getLast? = some z) {c : Cand P R} (hc : divide E p edge y = .ok c) :
    c.dist = E.G.len p c.proj ∧
    ((c.proj = x ∧ c.to_ = edge ∧ Short E.G c.from_ ∧
        (x = y.1 ∨ E.G.len x y.1 = E.G.zeroR ∨ (∃ f, pointTo E edge y.1 = .ok f ∧ Short E.G f) ∨
          ∃ t, pointFrom E edge y.1 = .ok t ∧ plainLength E.G t = plainLength E.G edge)) ∨
      (c.proj = z ∧ c.from_ = edge ∧ Short E.G c.to_ ∧
        (z = y.1 ∨ E.G.len z y.1 = E.G.zeroR ∨ (∃ t, pointFrom E edge y.1 = .ok t ∧ Short E.G t) ∨
          ∃ f, pointTo E edge y.1 = .ok f ∧ plainLength E.G f = plainLength E.G edge)) ∨
      (c.proj = y.1 ∧ pointTo E edge y.1 = .ok c.from_ ∧ pointFrom E edge y.1 = .ok c.to_ ∧ ¬ Short E.G c.from_ ∧ ¬ Short E.G c.to_ ∧
        plainLength E.G c.from_ ≠ plainLength E.G edge ∧ plainLength E.G c.to_ ≠ plainLength E.G edge)) := by
  have short_nil : Short E.G ([] : List P) := .inl rfl
  have hs : ∀ l, noLength E l = true ↔ Short E.G l := by
    intro l
    unfold noLength Short
    cases plainLength E.G l with
    | none => simp
    | some r => simp
  unfold divide at hc
  rw [hx, hz] at hc
  simp only at hc
  split_ifs at hc with h1 h2 h3 h4
  · cases hc
    exact ⟨hy, .inl ⟨h1.symm, rfl, short_nil, .inl h1⟩⟩
  · cases hc
    exact ⟨hy, .inr (.inl ⟨h2.symm, rfl, short_nil, .inl h2⟩)⟩
  · cases hc
    exact ⟨rfl, .inl ⟨rfl, rfl, short_nil, .inr (.inl h3)⟩⟩
  · cases hc
    exact ⟨rfl, .inr (.inl ⟨rfl, rfl, short_nil, .inr (.inl h4)⟩)⟩
  · unfold within at hc
    cases hf : pointTo E edge y.1 with
    | throws => rw [hf] at hc; simp at hc
    | ub => rw [hf] at hc; simp at hc
    | ok f =>
      rw [hf, Outcome.bind_ok] at hc
      split_ifs at hc with k1 k2
      · cases hc
        rw [hs] at k1
        exact ⟨rfl, .inl ⟨rfl, rfl, k1, .inr (.inr (.inl ⟨f, rfl, k1⟩))⟩⟩
      · cases hc
        exact ⟨rfl, .inr (.inl ⟨rfl, rfl, short_nil, .inr (.inr (.inr ⟨f, rfl, k2⟩))⟩)⟩
      · rw [hs] at k1
        cases ht : pointFrom E edge y.1 with
        | throws => rw [ht] at hc; simp at hc
        | ub => rw [ht] at hc; simp at hc
        | ok t =>
          rw [ht, Outcome.bind_ok] at hc
          split_ifs at hc with k3 k4
          · cases hc
            rw [hs] at k3
            exact ⟨rfl, .inr (.inl ⟨rfl, rfl, k3, .inr (.inr (.inl ⟨t, rfl, k3⟩))⟩)⟩
          · cases hc
            exact ⟨rfl, .inl ⟨rfl, rfl, short_nil, .inr (.inr (.inr ⟨t, rfl, k4⟩))⟩⟩
          · cases hc
            rw [hs] at k3
            exact ⟨hy, .inr (.inr ⟨rfl, rfl, rfl, k1, k3, k2, k4⟩)⟩

theorem nearestPoint_mem (E : Env P R A) (q : P) : ∀ (l : List P) (best : Option (P × R)) (v : P × R),
    nearestPoint E q l best = some v → best = some v ∨ (v.1 ∈ l ∧ v.2 = E.G.len v.1 q) := by
  intro l
  induction l with
  | nil => intro best v hv; exact .inl hv
  | cons w l ih =>
    intro best v hv
    rw [nearestPoint] at hv
    rcases ih _ v hv with h | ⟨h1, h2⟩
    · split_ifs at h
      · simp only [Option.some.injEq] at h
        subst h
        exact .inr ⟨by simp, rfl⟩
      · exact .inl h
    · exact .inr ⟨List.mem_cons_of_mem _ h1, h2⟩

/-- **C74, projection.**  The projection is the closest point of the edge or, if that is very near, a point of the edge for
short edges and an end of the nearest segment of the network for others; the distance is that of the projection. -/
theorem projection (E : Env P R A) (h : Metric E.G) (switch : Nat) (p : P) (edge : List P) :
    (snapped E switch p edge).2 = E.G.len p (snapped E switch p edge).1 ∧
    ((snapped E switch p edge).1 = E.closest p edge ∨
      (E.G.len (snapped E switch p edge).1 (E.closest p edge) < E.eps ∧
        (edge.length ≤ switch → (snapped E switch p edge).1 ∈ edge) ∧
        (switch < edge.length → ∃ s, E.nearest (E.closest p edge) = some s ∧
          ((snapped E switch p edge).1 = s.1 ∨ (snapped E switch p edge).1 = s.2)))) := by
  have hpr : project E p edge = (E.closest p edge, E.G.len p (E.closest p edge)) := by
    unfold project
    split_ifs with h0
    · have : p = E.closest p edge := by
        by_contra hne
        rw [h.zero] at h0
        exact (h.pos _ _ hne).ne' h0
      rw [← this]
    · rfl
  unfold snapped
  rw [hpr]
  by_cases hs : edge.length ≤ switch
  · rw [if_pos hs]
    cases hn : nearestPoint E (E.closest p edge) edge none with
    | none => exact ⟨rfl, .inl rfl⟩
    | some v =>
      rcases nearestPoint_mem E _ _ _ _ hn with h1 | ⟨h1, h2⟩
      · cases h1
      simp only [snapTo]
      split_ifs with hv
      · exact ⟨rfl, .inr ⟨h2 ▸ hv.2, fun _ => h1, fun hlt => absurd hs (by omega)⟩⟩
      · exact ⟨rfl, .inl rfl⟩
  · rw [if_neg hs]
    cases hn : nearestEnd E (E.closest p edge) with
    | none => exact ⟨rfl, .inl rfl⟩
    | some v =>
      simp only [snapTo]
      split_ifs with hv
      · unfold nearestEnd at hn
        obtain ⟨s, e1, e2⟩ := Option.map_eq_some_iff.1 hn
        refine ⟨rfl, .inr ⟨?_, fun hle => absurd hle hs, fun _ => ⟨s, e1, ?_⟩⟩⟩
        · split_ifs at e2 <;> (subst e2; exact hv.2)
        · split_ifs at e2
          · exact .inr (by rw [← e2])
          · exact .inl (by rw [← e2])
      · exact ⟨rfl, .inl rfl⟩

theorem nearestPoint_least (E : Env P R A) (q : P) : ∀ (l : List P) (best : Option (P × R)),
    (∀ v, nearestPoint E q l best = some v → v.2 ≤ least E best ∧ ∀ u ∈ l, v.2 ≤ E.G.len u q) ∧
    (nearestPoint E q l best = none → best = none ∧ ∀ u ∈ l, E.one ≤ E.G.len u q) := by
  intro l
  induction l with
  | nil =>
    intro best
    refine ⟨?_, ?_⟩
    · intro v hv
      rw [nearestPoint] at hv
      subst hv
      exact ⟨le_rfl, by simp⟩
    · intro hn
      rw [nearestPoint] at hn
      exact ⟨hn, by simp⟩
  | cons w l ih =>
    intro best
    rw [nearestPoint]
    obtain ⟨i1, i2⟩ := ih (if E.G.len w q < least E best then some (w, E.G.len w q) else best)
    by_cases hlt : E.G.len w q < least E best
    · rw [if_pos hlt] at i1 i2 ⊢
      refine ⟨?_, fun hn => absurd (i2 hn).1 (by simp)⟩
      intro v hv
      obtain ⟨k1, k2⟩ := i1 v hv
      change v.2 ≤ E.G.len w q at k1
      refine ⟨k1.trans hlt.le, ?_⟩
      intro u hu
      rcases List.mem_cons.1 hu with rfl | hu
      · exact k1
      · exact k2 u hu
    · rw [if_neg hlt] at i1 i2 ⊢
      refine ⟨?_, ?_⟩
      · intro v hv
        obtain ⟨k1, k2⟩ := i1 v hv
        refine ⟨k1, ?_⟩
        intro u hu
        rcases List.mem_cons.1 hu with rfl | hu
        · exact k1.trans (not_lt.1 hlt)
        · exact k2 u hu
      · intro hn
        obtain ⟨k1, k2⟩ := i2 hn
        refine ⟨k1, ?_⟩
        intro u hu
        rcases List.mem_cons.1 hu with rfl | hu
        · rw [k1] at hlt; exact not_lt.1 hlt
        · exact k2 u hu

/-- **C74, measured times (in part).**  If the only point within the tolerance of the closest point of the edge, of all points of
the edge and of the nearest segment of the network, is one point `v` of both, then the candidate does not depend on measured
times: its projection is `v` or the closest point.  Missing: other points within the tolerance, see `times_fails`. -/
theorem independent_of_times_partial (E : Env P R A) (h : Metric E.G) (heps : E.eps ≤ E.one) (p : P) (edge : List P) (v : P) (s : P × P)
    (hs : E.nearest (E.closest p edge) = some s) (hv : v ∈ edge) (hv' : v = s.1 ∨ v = s.2)
    (h1 : ∀ u ∈ edge, u ≠ v → E.eps ≤ E.G.len u (E.closest p edge)) (h2 : s.1 ≠ v → E.eps ≤ E.G.len s.1 (E.closest p edge))
    (h3 : s.2 ≠ v → E.eps ≤ E.G.len s.2 (E.closest p edge)) (s1 s2 : Nat) :
    candidate E s1 p edge = candidate E s2 p edge ∧
    (E.G.len v (E.closest p edge) < E.eps → (snapped E s1 p edge).1 = v) ∧
    (E.eps ≤ E.G.len v (E.closest p edge) → (snapped E s1 p edge).1 = E.closest p edge) := by
  have hpr : project E p edge = (E.closest p edge, E.G.len p (E.closest p edge)) := by
    unfold project
    split_ifs with h0
    · have : p = E.closest p edge := by
        by_contra hne
        rw [h.zero] at h0
        exact (h.pos _ _ hne).ne' h0
      rw [← this]
    · rfl
  generalize hq : E.closest p edge = q at *
  have key : ∀ f : Option (P × R), (∀ x, f = some x → x.2 = E.G.len x.1 q ∧ (x.1 ≠ v → E.eps ≤ x.2) ∧ (E.G.len v q < E.eps → x.2 ≤ E.G.len v q)) →
      (f = none → E.eps ≤ E.G.len v q) →
      snapTo E p f (q, E.G.len p q) = if E.G.len v q < E.eps then (v, E.G.len p v) else (q, E.G.len p q) := by
    intro f hf hn
    cases f with
    | none => rw [if_neg (not_lt.2 (hn rfl))]; rfl
    | some x =>
      obtain ⟨e1, e2, e3⟩ := hf x rfl
      rw [snapTo]
      by_cases hlt : E.G.len v q < E.eps
      · rw [if_pos hlt]
        have hxv : x.1 = v := by
          by_contra hne
          exact absurd (lt_of_le_of_lt (e3 hlt) hlt) (not_lt.2 (e2 hne))
        rw [hxv] at e1 ⊢
        by_cases hvq : v = q
        · rw [if_neg (by simp [hvq]), hvq]
        · rw [if_pos ⟨hvq, by rw [e1]; exact hlt⟩]
      · rw [if_neg hlt, if_neg]
        rintro ⟨_, hx⟩
        by_cases hxv : x.1 = v
        · rw [e1, hxv] at hx; exact hlt hx
        · exact absurd hx (not_lt.2 (e2 hxv))
  have k1 : snapTo E p (nearestPoint E q edge none) (q, E.G.len p q) =
      if E.G.len v q < E.eps then (v, E.G.len p v) else (q, E.G.len p q) := by
    obtain ⟨i1, i2⟩ := nearestPoint_least E q edge none
    apply key
    · intro x hx
      rcases nearestPoint_mem E _ _ _ _ hx with h0 | ⟨m1, m2⟩
      · cases h0
      · exact ⟨m2, fun hne => m2 ▸ h1 x.1 m1 hne, fun _ => (i1 x hx).2 v hv⟩
    · intro hn
      exact heps.trans ((i2 hn).2 v hv)
  have k2 : snapTo E p (nearestEnd E q) (q, E.G.len p q) =
      if E.G.len v q < E.eps then (v, E.G.len p v) else (q, E.G.len p q) := by
    apply key
    · intro x hx
      unfold nearestEnd at hx
      rw [hs, Option.map_some] at hx
      split_ifs at hx with hlt
      · obtain rfl := Option.some.inj hx
        refine ⟨rfl, h3, fun hvq => ?_⟩
        rcases hv' with rfl | rfl
        · exact hlt.le
        · exact le_rfl
      · obtain rfl := Option.some.inj hx
        refine ⟨rfl, h2, fun hvq => ?_⟩
        rcases hv' with rfl | rfl
        · exact le_rfl
        · exact not_lt.1 hlt
    · intro hn
      unfold nearestEnd at hn
      rw [hs] at hn
      cases hn
  refine ⟨?_, ?_, ?_⟩
  · unfold candidate snapped
    rw [hpr, k1, k2, ite_self, ite_self]
  · intro hlt
    unfold snapped
    rw [hpr, k1, k2, ite_self, if_pos hlt]
  · intro hle
    unfold snapped
    rw [hpr, k1, k2, ite_self, if_neg (not_lt.2 hle)]

end Lemmas

/-! ### Examples and counterexamples -/

/-- Points with whole coordinates, distances along the axes. -/
def grid : Geo (Int × Int) Int Int where
  len p q := (p.1 - q.1).natAbs + (p.2 - q.2).natAbs
  az _ _ := 0
  dir _ _ := 0
  abs a := a
  zeroR := 0
  addR := (· + ·)
  zeroA := 0
  addA := (· + ·)

/-- Closest point of a segment along an axis. -/
def onto (p : Int × Int) (s : (Int × Int) × (Int × Int)) : Int × Int :=
  (max (min s.1.1 s.2.1) (min p.1 (max s.1.1 s.2.1)), max (min s.1.2 s.2.2) (min p.2 (max s.1.2 s.2.2)))

/-- First of the closest points of the segments of a line. -/
def ontoLine (p : Int × Int) (l : List (Int × Int)) : Int × Int :=
  ((segs l).map (onto p)).foldl (fun b q => if grid.len p q < grid.len p b then q else b) (l.headD (0, 0))

/-- A network of the given segments; the first nearest one is found; tolerance five. -/
def gridEnv (net : List ((Int × Int) × (Int × Int))) : Env (Int × Int) Int Int where
  G := grid
  interp := fun _ _ => (0, 0)
  proj := onto
  closest := ontoLine
  nearest := fun q => net.foldl (fun b s => match b with
    | none => some s
    | some t => if grid.len q (onto q s) < grid.len q (onto q t) then some s else some t) none
  one := 10
  eps := 5

theorem grid_metric : Metric grid where
  zero := rfl
  add := fun _ _ => rfl
  self := by intro x; simp [grid]
  symm := by intro x y; simp only [grid]; omega
  pos := by
    intro x y hxy
    simp only [grid]
    by_cases h : x.1 = y.1
    · have : x.2 ≠ y.2 := fun h' => hxy (Prod.ext h h')
      omega
    · omega

/-- An edge to the right and then up; the projection is within its second segment, or at its corner. -/
example : candidate (gridEnv []) 16 (120, 30) [(0, 0), (100, 0), (100, 100)] =
      some (.ok ⟨(100, 30), 20, [(0, 0), (100, 0), (100, 30)], [(100, 30), (100, 100)]⟩) ∧
    candidate (gridEnv []) 16 (110, -5) [(0, 0), (100, 0), (100, 100)] =
      some (.ok ⟨(100, 0), 15, [(0, 0), (100, 0)], [(100, 0), (100, 100)]⟩) ∧
    candidate (gridEnv []) 16 (3, 7) [(0, 0), (100, 0), (100, 100)] =
      some (.ok ⟨(0, 0), 10, [], [(0, 0), (100, 0), (100, 100)]⟩) := by decide +kernel

example : Once (gridEnv []) (100, 30) ([(0, 0)] ++ [(100, 0)]) [] [(100, 100)] := by
  refine .inner (by decide) (by decide) (by decide) (by decide) ?_ ?_
  · decide
  · decide

example : Once (gridEnv []) (100, 0) [(0, 0)] [(100, 0)] [(100, 100)] := by
  refine .vertex (by decide) (by decide) ?_ ?_ <;> intro y <;> simp only [gridEnv, onto] <;> ext <;> simp <;> omega

/-- **C74 fails for edges that pass a point twice.**  The edge goes to (100, 0), around a block of 400 metres and on from (100, 0).
The line to the projection (100, 0) goes around the block, and so does the line from it: together they are 400 longer than
the edge. -/
theorem loop_fails :
    candidate (gridEnv []) 16 (100, 0) [(0, 0), (100, 0), (200, 0), (200, 100), (100, 100), (100, 0), (100, -50)] =
      some (.ok ⟨(100, 0), 0, [(0, 0), (100, 0), (200, 0), (200, 100), (100, 100), (100, 0)],
        [(100, 0), (200, 0), (200, 100), (100, 100), (100, 0), (100, -50)]⟩) ∧
    total grid [(0, 0), (100, 0), (200, 0), (200, 100), (100, 100), (100, 0)] +
      total grid [(100, 0), (200, 0), (200, 100), (100, 100), (100, 0), (100, -50)] =
      total grid [(0, 0), (100, 0), (200, 0), (200, 100), (100, 100), (100, 0), (100, -50)] + 400 := by decide +kernel

/-- **C74 fails: candidates depend on measured times and may lie beside their edge.**  A bridge crosses the edge at the projection
and has a point very near to it.  Below the size from which on the index is used the projection is on the edge; above, it is
the point of the bridge, and the lines of the candidate leave the edge, though the edge is a nearest one as well. -/
theorem times_fails :
    candidate (gridEnv [((50, -2), (50, 80)), ((0, 0), (100, 0)), ((100, 0), (200, 0))]) 3 (50, 7) [(0, 0), (100, 0), (200, 0)] =
      some (.ok ⟨(50, 0), 7, [(0, 0), (50, 0)], [(50, 0), (100, 0), (200, 0)]⟩) ∧
    candidate (gridEnv [((50, -2), (50, 80)), ((0, 0), (100, 0)), ((100, 0), (200, 0))]) 2 (50, 7) [(0, 0), (100, 0), (200, 0)] =
      some (.ok ⟨(50, -2), 9, [(0, 0), (50, -2)], [(50, -2), (100, 0), (200, 0)]⟩) ∧
    (∀ s ∈ segs [((0 : Int), (0 : Int)), (100, 0), (200, 0)], onto (50, -2) s ≠ (50, -2)) := by decide +kernel

/-- A network with one edge: the times do not matter. -/
example : ∃ s, (gridEnv [((0, 0), (100, 0)), ((100, 0), (200, 0))]).nearest (ontoLine (97, 7) [(0, 0), (100, 0), (200, 0)]) = some s ∧
    ((100, 0) = s.1 ∨ (100, 0) = s.2) ∧
    (∀ u ∈ [((0 : Int), (0 : Int)), (100, 0), (200, 0)], u ≠ (100, 0) → (5 : Int) ≤ grid.len u (ontoLine (97, 7) [(0, 0), (100, 0), (200, 0)])) ∧
    grid.len (100, 0) (ontoLine (97, 7) [(0, 0), (100, 0), (200, 0)]) < 5 :=
  ⟨((0, 0), (100, 0)), by decide +kernel, by decide, by decide +kernel, by decide +kernel⟩

/-- A geometry that rounds: lengths below 10 are zero.  The projection is moved to the start of the edge. -/
example : divide { gridEnv [] with G := { grid with len := fun a b => if grid.len a b < 10 then 0 else grid.len a b } } (4, 50)
      [(0, 0), (100, 0)] ((4, 0), 50) = .ok ⟨(0, 0), 54, [], [(0, 0), (100, 0)]⟩ ∧
    divide { gridEnv [] with G := { grid with len := fun a b => if grid.len a b < 10 then 0 else grid.len a b } } (96, 50)
      [(0, 0), (100, 0)] ((96, 0), 50) = .ok ⟨(100, 0), 54, [(0, 0), (100, 0)], []⟩ := by decide +kernel

end MM.CandEdge
