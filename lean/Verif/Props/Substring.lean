import Verif.Model.Substring
import Verif.Props.LineAlgebra
import Mathlib.Data.List.Basic
import Mathlib.Data.List.Chain
import Mathlib.Data.List.TakeWhile
import Mathlib.Data.Nat.Basic
import Mathlib.Tactic.SplitIfs

/-!
# C32: parts of a line between two distances
-/

set_option autoImplicit false
set_option linter.unusedSectionVars false

namespace MM.Substring

open MM.Line

variable {P R A : Type} [DecidableEq P] [LinearOrder R]

/-- Distances of the points after the first, summed up along the line. -/
def dists (G : Geo P R A) : R → List (P × P) → List R
  | _, [] => []
  | c, s :: ss => G.addR c (G.len s.1 s.2) :: dists G (G.addR c (G.len s.1 s.2)) ss

/-- The points of the line with their distances. -/
def marks (G : Geo P R A) (line : List P) : List (P × R) := line.zip (G.zeroR :: dists G G.zeroR (segs line))

/-- The points strictly between two distances. -/
def interior (G : Geo P R A) (line : List P) (a b : R) : List P :=
  ((marks G line).filter (fun m => decide (a < m.2) && decide (m.2 < b))).map Prod.fst

/-- A start point, points in between, an end point; equal neighbours at the joints only once. -/
def piece (p : P) (mid : List P) (q : P) : List P :=
  if mid = [] then [p, q]
  else (if mid.head? = some p then [] else [p]) ++ mid ++ (if mid.getLast? = some q then [] else [q])

theorem dists_length (G : Geo P R A) (ss : List (P × P)) : ∀ c : R, (dists G c ss).length = ss.length := by
  induction ss with
  | nil => intro c; rfl
  | cons s ss ih => intro c; simp [dists, ih]

theorem findIndices_to (G : Geo P R A) (a b : R) (ss : List (P × P)) (hd : ∀ s ∈ ss, s.1 ≠ s.2) : ∀ (i : Nat) (c : R) (f : Option Nat),
    (findIndices G a b ss i (some c) f).2.getD (i + 1 + ss.length) =
      i + 1 + ((dists G c ss).takeWhile (fun d => decide (d < b))).length := by
  induction ss with
  | nil => intro i c f; simp [findIndices, dists]
  | cons s ss ih =>
    intro i c f
    have hs : segLen G s = some (G.len s.1 s.2) := by rw [segLen, if_neg (hd s List.mem_cons_self)]
    rw [findIndices, hs, dists]
    simp only [plus, reached, decide_eq_true_eq]
    rw [List.takeWhile_cons]
    split_ifs with h1 h2 h2
    · simp only [decide_eq_true_eq] at h2
      exact absurd h1 (not_le.2 h2)
    · simp
    · have := ih (fun s hs => hd s (List.mem_cons_of_mem _ hs)) (i + 1) (G.addR c (G.len s.1 s.2))
        (setOnce f (beyond (some (G.addR c (G.len s.1 s.2))) a) (i + 1))
      rw [List.length_cons, List.length_cons, show i + 1 + (ss.length + 1) = i + 1 + 1 + ss.length by omega, this]
      omega
    · simp only [decide_eq_true_eq] at h2
      exact absurd (not_lt.1 h2) h1

theorem findIndices_found (G : Geo P R A) (a b : R) (ss : List (P × P)) : ∀ (i j : Nat) (c : Option R),
    (findIndices G a b ss i c (some j)).1 = some j := by
  induction ss with
  | nil => intro i j c; rfl
  | cons s ss ih =>
    intro i j c
    rw [findIndices]
    split_ifs
    · rfl
    · simp only [setOnce]
      exact ih _ _ _

theorem findIndices_from (G : Geo P R A) {a b : R} (hab : a < b) (ss : List (P × P)) (hd : ∀ s ∈ ss, s.1 ≠ s.2) :
    ∀ (i : Nat) (c : R), (∃ d ∈ dists G c ss, a < d) →
    (findIndices G a b ss i (some c) none).1 = some (i + 1 + ((dists G c ss).takeWhile (fun d => decide (d ≤ a))).length) := by
  induction ss with
  | nil => intro i c h; simp [dists] at h
  | cons s ss ih =>
    intro i c h
    have hs : segLen G s = some (G.len s.1 s.2) := by rw [segLen, if_neg (hd s List.mem_cons_self)]
    rw [dists] at h
    rw [findIndices, hs, dists]
    simp only [plus, reached, decide_eq_true_eq, beyond]
    rw [List.takeWhile_cons]
    by_cases ha : a < G.addR c (G.len s.1 s.2)
    · simp only [ha, decide_true, setOnce, if_true, not_le.2 ha, decide_false, Bool.false_eq_true, if_false, List.length_nil]
      split_ifs
      · rfl
      · rw [findIndices_found]
    · have hle : G.addR c (G.len s.1 s.2) ≤ a := not_lt.1 ha
      have hb : ¬ b ≤ G.addR c (G.len s.1 s.2) := fun h' => absurd (lt_of_lt_of_le hab h') ha
      rw [if_neg hb]
      simp only [ha, decide_false, setOnce, Bool.false_eq_true, if_false, hle, decide_true, if_true, List.length_cons]
      obtain ⟨d, hdm, hda⟩ := h
      rcases List.mem_cons.1 hdm with rfl | hdm
      · exact absurd hda ha
      · rw [ih (fun s hs => hd s (List.mem_cons_of_mem _ hs)) (i + 1) _ ⟨d, hdm, hda⟩]
        congr 1
        omega

/-! ### Sorted lists -/

theorem filter_between {α : Type} (f : α → R) {a b : R} (hab : a < b) (l : List α) (hs : l.Pairwise (fun x y => f x ≤ f y)) :
    (l.drop (l.takeWhile (fun x => decide (f x ≤ a))).length).take
      ((l.takeWhile (fun x => decide (f x < b))).length - (l.takeWhile (fun x => decide (f x ≤ a))).length) =
    l.filter (fun x => decide (a < f x) && decide (f x < b)) := by
  induction l with
  | nil => rfl
  | cons x l ih =>
    rw [List.pairwise_cons] at hs
    by_cases hxa : f x ≤ a
    · have hxb : f x < b := lt_of_le_of_lt hxa hab
      rw [List.takeWhile_cons, List.takeWhile_cons, List.filter_cons]
      simp only [hxa, hxb, decide_true, if_true, List.length_cons, not_lt.2 hxa, decide_false, Bool.false_and, Bool.false_eq_true,
        if_false, List.drop_succ_cons]
      rw [← ih hs.2]
      congr 1
      omega
    · have hax : a < f x := not_le.1 hxa
      have h0 : (x :: l).takeWhile (fun x => decide (f x ≤ a)) = [] := by
        rw [List.takeWhile_cons]
        simp [hxa]
      rw [h0, List.length_nil, List.drop_zero, Nat.sub_zero]
      have htake : ∀ (p : α → Bool) (m : List α), m.take (m.takeWhile p).length = m.takeWhile p := by
        intro p m
        induction m with
        | nil => rfl
        | cons y m ihm =>
          rw [List.takeWhile_cons]
          split_ifs
          · rw [List.length_cons, List.take_succ_cons, ihm]
          · rfl
      rw [htake]
      have hall : ∀ y ∈ x :: l, a < f y := by
        intro y hy
        rcases List.mem_cons.1 hy with rfl | hy
        · exact hax
        · exact lt_of_lt_of_le hax (hs.1 y hy)
      have hfil : (x :: l).filter (fun x => decide (a < f x) && decide (f x < b)) =
          (x :: l).filter (fun x => decide (f x < b)) := by
        apply List.filter_congr
        intro y hy
        simp [hall y hy]
      rw [hfil]
      clear hfil hall htake h0 ih hax hxa
      have hs' : (x :: l).Pairwise (fun x y => f x ≤ f y) := List.pairwise_cons.2 hs
      clear hs
      generalize x :: l = m at hs'
      induction m with
      | nil => rfl
      | cons y m ihm =>
        rw [List.pairwise_cons] at hs'
        rw [List.takeWhile_cons, List.filter_cons]
        split_ifs with h
        · rw [ihm hs'.2]
        · symm
          rw [List.filter_eq_nil_iff]
          intro z hz
          simp only [decide_eq_true_eq] at h ⊢
          exact not_lt.2 (le_trans (not_lt.1 h) (hs'.1 z hz))

theorem takeWhile_zip {α β : Type} (p : β → Bool) (l : List α) : ∀ m : List β, l.length = m.length →
    ((l.zip m).takeWhile (fun x => p x.2)).length = (m.takeWhile p).length := by
  induction l with
  | nil => intro m h; cases m <;> simp_all
  | cons x l ih =>
    intro m h
    cases m with
    | nil => simp at h
    | cons y m =>
      rw [List.zip_cons_cons, List.takeWhile_cons, List.takeWhile_cons]
      simp only
      split_ifs
      · rw [List.length_cons, List.length_cons, ih m (by simpa using h)]
      · rfl

theorem segs_len (l : List P) : (segs l).length = l.length - 1 := by simp [segs]

theorem chain_segs {line : List P} (h : line.IsChain (· ≠ ·)) : ∀ s ∈ segs line, s.1 ≠ s.2 := by
  induction line with
  | nil => intro s hs; simp [segs] at hs
  | cons x l ih =>
    cases l with
    | nil => intro s hs; simp [segs] at hs
    | cons y l =>
      rw [List.isChain_cons_cons] at h
      intro s hs
      have : segs (x :: y :: l) = (x, y) :: segs (y :: l) := by simp [segs]
      rw [this] at hs
      rcases List.mem_cons.1 hs with rfl | hs
      · exact h.1
      · exact ih h.2 s hs

theorem attach_piece (p q : P) (mid : List P) : attach p q mid = .ok (piece p mid q) := by
  unfold attach piece
  cases mid with
  | nil =>
    simp only [List.head?_nil, List.getLast?_nil, if_true]
    rfl
  | cons x l =>
    have hl : (x :: l).getLast? = some ((x :: l).getLast (by simp)) := List.getLast?_eq_getLast_of_ne_nil (by simp)
    rw [if_neg (by simp)]
    generalize (x :: l).getLast (by simp) = y at hl
    have hl2 : (p :: x :: l).getLast? = some y := by rw [List.getLast?_cons_cons]; exact hl
    rw [hl]
    simp only [List.head?_cons, Option.some.injEq, ne_eq, ite_not]
    by_cases h1 : p = x
    · subst h1
      by_cases h2 : y = q
      · subst h2
        simp [merge, mergeSingle]
      · simp only [h2, if_true, if_false]
        rw [merge, mergeSingle]
        simp only [List.getLast?_nil, Outcome.bind_ok]
        rw [merge, mergeSingle, hl]
        simp [merge]
    · have h1' : ¬ x = p := fun h => h1 h.symm
      by_cases h2 : y = q
      · subst h2
        simp [merge, mergeSingle, h1, h1']
      · simp only [h1, h1', h2, if_false]
        rw [merge, mergeSingle]
        simp only [List.getLast?_cons_cons, List.getLast?_singleton, if_true, Outcome.bind_ok, List.cons_append, List.nil_append]
        rw [merge, mergeSingle, hl2]
        simp [merge]

theorem plainLength_some (G : Geo P R A) {line : List P} (h2 : 2 ≤ line.length) (hc : line.IsChain (· ≠ ·)) :
    ∃ len, plainLength G line = some len := by
  unfold plainLength
  rw [if_neg]
  · exact ⟨_, rfl⟩
  · match line, h2, hc with
    | x :: y :: l, _, hc =>
      rw [List.isChain_cons_cons] at hc
      have : segs (x :: y :: l) = (x, y) :: segs (y :: l) := by simp [segs]
      rw [this, List.filter_cons]
      simp [hc.1]

/-- **C32.**  For a line without repeated points and distances `0 ≤ a < b`, `a` less than the distance of some point, the part
is the point at `a`, exactly the points with distances strictly between `a` and `b`, and the point at `b`; given points
take the place of the interpolated ones.
Missing from the full property: lines with repeated points (`repeated_point_fails`), `a` at or behind the end
(`behind_end_fails`). -/
theorem substring_partial (G : Geo P R A) (interp : List P → R → P) {line : List P} (h2 : 2 ≤ line.length)
    (hc : line.IsChain (· ≠ ·)) (hs : (marks G line).Pairwise (fun x y => x.2 ≤ y.2)) {a b : R} (h0 : G.zeroR ≤ a) (hab : a < b)
    (hend : ∃ m ∈ marks G line, a < m.2) (p q : Option P) (hpq : ¬ (p.isSome ∧ p = q))
    (hwhole : ¬ (a = G.zeroR ∧ plainLength G line = some b)) :
    substring G interp line a b p q =
      .ok (piece (p.getD (interp line a)) (interior G line a b) (q.getD (interp line b))) := by
  obtain ⟨len, hlen⟩ := plainLength_some G h2 hc
  have hne : line ≠ [] := by rintro rfl; simp at h2
  have hd := chain_segs hc
  rw [substring, if_neg hne, if_neg hpq, if_neg (by omega), hlen]
  simp only
  rw [if_neg (by rintro ⟨h3, h4⟩; exact hwhole ⟨h3, by rw [hlen, h4]⟩), if_pos hab]
  obtain ⟨x, l, rfl⟩ := List.exists_cons_of_ne_nil hne
  have hslen : (segs (x :: l)).length = l.length := by rw [segs_len]; simp
  have hmarks : marks G (x :: l) = (x, G.zeroR) :: l.zip (dists G G.zeroR (segs (x :: l))) := rfl
  have hdl : l.length = (dists G G.zeroR (segs (x :: l))).length := by rw [dists_length, hslen]
  rw [hmarks, List.pairwise_cons] at hs
  have hex : ∃ d ∈ dists G G.zeroR (segs (x :: l)), a < d := by
    obtain ⟨m, hm, hma⟩ := hend
    rw [hmarks] at hm
    rcases List.mem_cons.1 hm with rfl | hm
    · exact absurd hma (not_lt.2 h0)
    · exact ⟨m.2, (List.of_mem_zip hm).2, hma⟩
  have e1 := findIndices_from G hab (segs (x :: l)) hd 0 G.zeroR hex
  have e2 := findIndices_to G a b (segs (x :: l)) hd 0 G.zeroR none
  rw [hslen] at e2
  rw [e1]
  rw [List.length_cons, show l.length + 1 = 0 + 1 + l.length by omega, e2]
  simp only [Option.getD_some]
  rw [← takeWhile_zip (fun d => decide (d ≤ a)) l _ hdl, ← takeWhile_zip (fun d => decide (d < b)) l _ hdl]
  have hfb := filter_between (Prod.snd) hab (l.zip (dists G G.zeroR (segs (x :: l)))) hs.2
  generalize hu : ((l.zip (dists G G.zeroR (segs (x :: l)))).takeWhile (fun x => decide (x.2 ≤ a))).length = u at hfb
  generalize hv : ((l.zip (dists G G.zeroR (segs (x :: l)))).takeWhile (fun x => decide (x.2 < b))).length = v at hfb
  have huv : u ≤ v := by
    rw [← hu, ← hv]
    generalize l.zip (dists G G.zeroR (segs (x :: l))) = z
    induction z with
    | nil => simp
    | cons y z ih =>
      rw [List.takeWhile_cons, List.takeWhile_cons]
      by_cases hy : y.2 ≤ a
      · simp only [hy, lt_of_le_of_lt hy hab, decide_true, if_true, List.length_cons]
        omega
      · simp [hy]
  have hv' : v ≤ l.length := by
    rw [← hv]
    refine le_trans (List.takeWhile_prefix _).length_le ?_
    rw [List.length_zip]
    omega
  have hu' : u < l.length := by
    by_contra hge
    have hul : u = l.length := by omega
    obtain ⟨d, hd1, hd2⟩ := hex
    have htw := takeWhile_zip (fun d => decide (d ≤ a)) l _ hdl
    rw [hu, hul, hdl] at htw
    have hall : (dists G G.zeroR (segs (x :: l))).takeWhile (fun d => decide (d ≤ a)) = dists G G.zeroR (segs (x :: l)) :=
      (List.takeWhile_prefix _).eq_of_length htw.symm
    rw [List.takeWhile_eq_self_iff] at hall
    have := hall d hd1
    simp only [decide_eq_true_eq] at this
    exact absurd hd2 (not_lt.2 this)
  have hsub : subLine (x :: l) (0 + 1 + u) (0 + 1 + v) = .ok ((l.drop u).take (v - u)) := by
    rw [subLine, if_pos ⟨by omega, by rw [List.length_cons]; omega, by rw [List.length_cons]; omega⟩]
    rw [show 0 + 1 + u = u + 1 by omega, List.drop_succ_cons, show 0 + 1 + v - (u + 1) = v - u by omega]
  rw [hsub, Outcome.bind_ok, attach_piece]
  have hint : interior G (x :: l) a b = (l.drop u).take (v - u) := by
    unfold interior
    rw [hmarks, List.filter_cons]
    simp only [not_lt.2 h0, decide_false, Bool.false_and, Bool.false_eq_true, if_false]
    rw [← hfb, List.map_take, List.map_drop, List.map_fst_zip (by omega)]
  rw [hint]

/-- **C32, the rest of a line.**  The part from a distance on is the point there, the points behind it and the last point. -/
theorem substring_from_partial (G : Geo P R A) (interp : List P → R → P) {line : List P} (h2 : 2 ≤ line.length)
    (hc : line.IsChain (· ≠ ·)) (hs : (marks G line).Pairwise (fun x y => x.2 ≤ y.2)) {a len : R} (h0 : G.zeroR < a)
    (hlen : plainLength G line = some len) (hab : a < len) (hend : ∃ m ∈ marks G line, a < m.2) {z : P}
    (hz : line.getLast? = some z) (p : Option P) (hp : p ≠ some z) :
    substringFrom G interp line a p = .ok (piece (p.getD (interp line a)) (interior G line a len) z) := by
  rw [substringFrom, hz, hlen]
  exact substring_partial G interp h2 hc hs h0.le hab hend p (some z) (fun h => hp h.2) (fun h => h0.ne' h.1)

/-- **C32, the beginning of a line.**  The part up to a distance is the first point, the points before it and the point there. -/
theorem substring_to_partial (G : Geo P R A) (interp : List P → R → P) {line : List P} (h2 : 2 ≤ line.length)
    (hc : line.IsChain (· ≠ ·)) (hs : (marks G line).Pairwise (fun x y => x.2 ≤ y.2)) {b : R} (hb : G.zeroR < b)
    (hend : ∃ m ∈ marks G line, G.zeroR < m.2) {x : P} (hx : line.head? = some x) (q : Option P) (hq : q ≠ some x)
    (hw : plainLength G line ≠ some b) :
    substringTo G interp line b q = .ok (piece x (interior G line G.zeroR b) (q.getD (interp line b))) := by
  rw [substringTo, hx]
  exact substring_partial G interp h2 hc hs le_rfl hb hend (some x) q (fun h => hq h.2.symm) (fun h => hw h.2)

/-- Of a line without points both functions read an end that does not exist (substring.hpp 114, 124). -/
theorem ends_empty (G : Geo P R A) (interp : List P → R → P) (a : R) (p : Option P) :
    substringFrom G interp [] a p = .ub ∧ substringTo G interp [] a p = .ub := ⟨rfl, rfl⟩

/-- The whole range gives the line itself. -/
theorem substring_whole (G : Geo P R A) (interp : List P → R → P) {line : List P} {len : R} (h : plainLength G line = some len)
    (p q : Option P) (hpq : ¬ (p.isSome ∧ p = q)) : substring G interp line G.zeroR len p q = .ok line := by
  rw [substring, if_neg (by rintro rfl; simp [plainLength, segs] at h), if_neg hpq, h]
  simp

/-- Empty ranges, lines without length and equal end points give an empty line. -/
theorem substring_empty (G : Geo P R A) (interp : List P → R → P) (line : List P) (a b : R) (p q : Option P)
    (h : line = [] ∨ (p.isSome ∧ p = q) ∨ (line.length ≠ 1 ∧ (plainLength G line = none ∨
      (b ≤ a ∧ ¬ (a = G.zeroR ∧ plainLength G line = some b))))) : substring G interp line a b p q = .ok [] := by
  rw [substring]
  by_cases h1 : line = []
  · rw [if_pos h1]
  by_cases h2 : p.isSome ∧ p = q
  · rw [if_neg h1, if_pos h2]
  rcases h with h | h | ⟨h3, h⟩
  · exact absurd h h1
  · exact absurd h h2
  · rw [if_neg h1, if_neg h2, if_neg h3]
    rcases h with h | ⟨h4, h5⟩
    · rw [h]
    · cases hl : plainLength G line with
      | none => rfl
      | some len =>
        simp only
        rw [if_neg (by rintro ⟨h6, h7⟩; exact h5 ⟨h6, by rw [hl, h7]⟩), if_neg (not_lt.2 h4)]

/-! ### Examples -/

/-- Points on an axis. -/
def axis : Geo Nat Nat Nat where
  len a b := b - a + (a - b)
  az a b := 100 * a + b
  dir a b := a + b
  abs a := a + 1
  zeroR := 0
  addR := (· + ·)
  zeroA := 0
  addA := (· + ·)

/-- Interpolation on a line that begins at 100 and runs in one direction; clamped at the end. -/
def onAxis (line : List Nat) (d : Nat) : Nat := min (100 + d) (line.getLast?.getD 0)

/-- From the middle of the first segment to the middle of the last; and within one segment; and to a vertex. -/
example : substring axis onAxis [100, 110, 120, 130] 5 25 none none = .ok [105, 110, 120, 125] ∧
    substring axis onAxis [100, 110, 120, 130] 12 15 none none = .ok [112, 115] ∧
    substring axis onAxis [100, 110, 120, 130] 10 20 none (some 7) = .ok [110, 7] ∧
    interior axis [100, 110, 120, 130] 5 25 = [110, 120] ∧ substring axis onAxis [100, 110] 5 5 none none = .ok [] := by decide

example : 2 ≤ ([100, 110, 120, 130] : List Nat).length ∧ ([100, 110, 120, 130] : List Nat).IsChain (· ≠ ·) ∧
    (marks axis [100, 110, 120, 130]).Pairwise (fun x y => x.2 ≤ y.2) ∧ ∃ m ∈ marks axis [100, 110, 120, 130], 5 < m.2 := by
  refine ⟨by decide, by simp, by decide, by decide⟩

example : substringFrom axis onAxis [100, 110, 120, 130] 15 none = .ok [115, 120, 130] ∧
    substringTo axis onAxis [100, 110, 120, 130] 15 none = .ok [100, 110, 115] ∧
    plainLength axis [100, 110, 120, 130] = some 30 := by decide

/-- **C32 fails**: a repeated point has infinite length, everything behind it is lost; the point 120 is missing. -/
theorem repeated_point_fails : substring axis onAxis [100, 110, 110, 120, 130] 5 25 none none = .ok [105, 110, 125] ∧
    interior axis [100, 110, 110, 120, 130] 5 25 = [110, 110, 120] := by decide

/-- **C32 fails**: a range behind the end of the line gives the whole line, with a detour from the end to the start. -/
theorem behind_end_fails : substring axis onAxis [100, 110, 120] 20 30 none none = .ok [120, 100, 110, 120] ∧
    interior axis [100, 110, 120] 20 30 = [] := by decide

/-! ### Distances along a line -/

theorem along_finite (G : Geo P R A) (ss : List (P × P)) (hd : ∀ s ∈ ss, s.1 ≠ s.2) (proj : P) : ∀ (i k : Nat) (c : R) (s : P × P),
    i ≤ k → ss[k - i]? = some s → ∃ d, (c :: dists G c ss)[k - i]? = some d ∧
      along G k proj ss i (some c) = some (G.addR d (G.len s.1 proj)) := by
  induction ss with
  | nil => intro i k c s _ h; simp at h
  | cons t ss ih =>
    intro i k c s hik h
    rw [along]
    have ht : segLen G t = some (G.len t.1 t.2) := by rw [segLen, if_neg (hd t List.mem_cons_self)]
    by_cases hlt : i < k
    · rw [if_pos hlt, ht]
      simp only [plus]
      have hk : k - i = (k - (i + 1)) + 1 := by omega
      rw [hk, List.getElem?_cons_succ] at h
      obtain ⟨d, h1, h2⟩ := ih (fun s hs => hd s (List.mem_cons_of_mem _ hs)) (i + 1) k (G.addR c (G.len t.1 t.2)) s (by omega) h
      refine ⟨d, ?_, h2⟩
      rw [hk, List.getElem?_cons_succ]
      exact h1
    · have : i = k := by omega
      subst this
      simp only [Nat.sub_self, List.getElem?_cons_zero, Option.some.injEq] at h
      subst h
      rw [if_neg (Nat.lt_irrefl _), if_pos rfl, Nat.sub_self, List.getElem?_cons_zero]
      refine ⟨c, rfl, ?_⟩
      split_ifs with hp
      · rw [ht, ← hp]
        rfl
      · rfl

/-- The search meets a segment that begins with the point, or else one that contains it before any other. -/
theorem searchFrom_vertex (G : Geo P R A) (proj : P → P × P → P) (use : Bool) (p : P) (ss : List (P × P)) :
    ∀ (i k : Nat) (best : Option (Nearest P R)) (s : P × P), i ≤ k → ss[k - i]? = some s → p = s.1 →
    (∀ (j : Nat) (t : P × P), j < k - i → ss[j]? = some t → p ≠ t.1) →
    searchFrom G proj use p ss i best = some ⟨k, p, G.zeroR⟩ := by
  induction ss with
  | nil => intro i k best s _ h; simp at h
  | cons t ss ih =>
    intro i k best s hik h hp hb
    rw [searchFrom]
    by_cases hlt : i < k
    · have hk : k - i = (k - (i + 1)) + 1 := by omega
      rw [if_neg (hb 0 t (by omega) rfl)]
      rw [hk, List.getElem?_cons_succ] at h
      refine ih (i + 1) k _ s (by omega) h hp ?_
      intro j u hj hu
      exact hb (j + 1) u (by omega) (by rw [List.getElem?_cons_succ]; exact hu)
    · have : i = k := by omega
      subst this
      simp only [Nat.sub_self, List.getElem?_cons_zero, Option.some.injEq] at h
      subst h
      rw [if_pos hp]

theorem nearer_pos {z : R} {best : Option (Nearest P R)} {m n : Nearest P R} (hm : z < m.dist)
    (hb : ∀ n, best = some n → z < n.dist) (h : nearer best m = some n) : z < n.dist := by
  cases best with
  | none => simp only [nearer, Option.some.injEq] at h; rw [← h]; exact hm
  | some k =>
    simp only [nearer] at h
    split_ifs at h
    · simp only [Option.some.injEq] at h; rw [← h]; exact hm
    · simp only [Option.some.injEq] at h; rw [← h]; exact hb k rfl

theorem nearer_zero {best : Option (Nearest P R)} {n : Nearest P R} (h : ∀ m, best = some m → n.dist < m.dist) :
    nearer best n = some n := by
  cases best with
  | none => rfl
  | some m => rw [nearer]; simp [h m rfl]

theorem searchFrom_keep (G : Geo P R A) (proj : P → P × P → P) (use : Bool) (p : P) (ss : List (P × P))
    (hnn : ∀ x y, G.zeroR ≤ G.len x y) : ∀ (i k : Nat) (q : P), (∀ s ∈ ss, p ≠ s.1) →
    searchFrom G proj use p ss i (some ⟨k, q, G.zeroR⟩) = some ⟨k, q, G.zeroR⟩ := by
  induction ss with
  | nil => intro i k q _; rfl
  | cons t ss ih =>
    intro i k q h
    rw [searchFrom, if_neg (h t List.mem_cons_self), nearer]
    simp only
    rw [if_neg (not_lt.2 (hnn _ _))]
    exact ih _ _ _ (fun s hs => h s (List.mem_cons_of_mem _ hs))

theorem searchFrom_inner (G : Geo P R A) (proj : P → P × P → P) (use : Bool) (p : P) (ss : List (P × P))
    (hnn : ∀ x y, G.zeroR ≤ G.len x y) (hz : G.len p p = G.zeroR) :
    ∀ (i k : Nat) (best : Option (Nearest P R)) (s : P × P), i ≤ k → ss[k - i]? = some s → proj p s = p →
    (∀ t ∈ ss, p ≠ t.1) → (∀ (j : Nat) (t : P × P), j < k - i → ss[j]? = some t → G.zeroR < G.len p (proj p t)) →
    (∀ n, best = some n → G.zeroR < n.dist) →
    searchFrom G proj use p ss i best = some ⟨k, p, G.zeroR⟩ := by
  induction ss with
  | nil => intro i k best s _ h; simp at h
  | cons t ss ih =>
    intro i k best s hik h hp hne hb hbest
    rw [searchFrom, if_neg (hne t List.mem_cons_self)]
    have hne' : ∀ s ∈ ss, p ≠ s.1 := fun s hs => hne s (List.mem_cons_of_mem _ hs)
    by_cases hlt : i < k
    · have hk : k - i = (k - (i + 1)) + 1 := by omega
      rw [hk, List.getElem?_cons_succ] at h
      refine ih (i + 1) k _ s (by omega) h hp hne' ?_ ?_
      · intro j u hj hu
        exact hb (j + 1) u (by omega) (by rw [List.getElem?_cons_succ]; exact hu)
      · intro n hn
        have ht := hb 0 t (by omega) rfl
        exact nearer_pos ht hbest hn
    · have : i = k := by omega
      subst this
      simp only [Nat.sub_self, List.getElem?_cons_zero, Option.some.injEq] at h
      subst h
      rw [hp, hz, nearer_zero hbest, ite_self]
      exact searchFrom_keep G proj use p ss hnn _ _ _ hne'

/-- Point `p` is on segment `k` of the line, and `searchFrom` shall find it there: it is the start of the segment and of none
before, or it is not the start of any segment, and not on a segment before. -/
def OnFrom (G : Geo P R A) (proj : P → P × P → P) (line : List P) (p : P) (k : Nat) (s : P × P) : Prop :=
  (segs line)[k]? = some s ∧ proj p s = p ∧ G.len s.1 p ≤ G.len s.1 s.2 ∧
    ((p = s.1 ∧ ∀ (j : Nat) (t : P × P), j < k → (segs line)[j]? = some t → p ≠ t.1) ∨
     ((∀ t ∈ segs line, p ≠ t.1) ∧ ∀ (j : Nat) (t : P × P), j < k → (segs line)[j]? = some t → G.zeroR < G.len p (proj p t)))

/-- **C32, distance of a point on the line**: the length of the line up to the segment and from there to the point.
Missing from the full property: points beside the line (`beside_line_fails`). -/
theorem distance_from_partial (G : Geo P R A) (proj : P → P × P → P) (use : Bool) {line : List P} (hc : line.IsChain (· ≠ ·))
    (hnn : ∀ x y, G.zeroR ≤ G.len x y) {p : P} (hz : G.len p p = G.zeroR) {k : Nat} {s : P × P}
    (hp : OnFrom G proj line p k s) : ∃ m, (marks G line)[k]? = some (s.1, m) ∧
      distanceFrom G proj use line p = some (G.addR m (G.len s.1 p)) := by
  obtain ⟨hk, hproj, hle, hcase⟩ := hp
  have hd := chain_segs hc
  have hklt : k < (segs line).length := (List.getElem?_eq_some_iff.1 hk).1
  rw [segs_len] at hklt
  have hsearch : searchFrom G proj use p (segs line) 0 none = some ⟨k, p, G.zeroR⟩ := by
    rcases hcase with ⟨h1, h2⟩ | ⟨h1, h2⟩
    · exact searchFrom_vertex G proj use p (segs line) 0 k none s (Nat.zero_le _) hk h1 h2
    · exact searchFrom_inner G proj use p (segs line) hnn hz 0 k none s (Nat.zero_le _) hk hproj h1 h2 (by simp)
  have hadj : adjustFrom G line p k = k := by
    unfold adjustFrom
    rw [hk]
    simp only
    rw [if_neg]
    rw [segLen, if_neg (hd s (List.mem_of_getElem? hk))]
    simp [longer, not_lt.2 hle]
  obtain ⟨d, h1, h2⟩ := along_finite G (segs line) hd p 0 k G.zeroR s (Nat.zero_le _) hk
  refine ⟨d, ?_, ?_⟩
  · unfold marks
    rw [List.getElem?_zip_eq_some]
    refine ⟨?_, h1⟩
    unfold segs at hk
    rw [List.getElem?_zip_eq_some] at hk
    exact hk.1
  · rw [distanceFrom, if_neg (by omega), hsearch]
    simp only
    rw [hadj, h2]

theorem numbered_get {α : Type} (l : List α) : ∀ (i j : Nat), (numbered i l)[j]? = (l[j]?).map (fun x => (i + j, x)) := by
  induction l with
  | nil => intro i j; simp [numbered]
  | cons x l ih =>
    intro i j
    cases j with
    | zero => simp [numbered]
    | succ j =>
      rw [numbered, List.getElem?_cons_succ, List.getElem?_cons_succ, ih]
      congr 1
      funext y
      congr 1
      omega

theorem searchTo_keep (G : Geo P R A) (proj : P → P × P → P) (use : Bool) (p : P) (ss : List (Nat × (P × P)))
    (hnn : ∀ x y, G.zeroR ≤ G.len x y) : ∀ (k : Nat) (q : P), (∀ s ∈ ss, p ≠ s.2.2) →
    searchTo G proj use p ss (some ⟨k, q, G.zeroR⟩) = some ⟨k, q, G.zeroR⟩ := by
  induction ss with
  | nil => intro k q _; rfl
  | cons t ss ih =>
    intro k q h
    rw [searchTo, if_neg (h t List.mem_cons_self), nearer]
    simp only
    rw [if_neg (not_lt.2 (hnn _ _))]
    exact ih _ _ (fun s hs => h s (List.mem_cons_of_mem _ hs))

theorem searchTo_spec (G : Geo P R A) (proj : P → P × P → P) (use : Bool) (p : P) (hnn : ∀ x y, G.zeroR ≤ G.len x y)
    (hz : G.len p p = G.zeroR) (k : Nat) (s : P × P) (post : List (Nat × (P × P))) (hproj : proj p s = p) (pre : List (Nat × (P × P))) :
    ∀ best : Option (Nearest P R),
    ((p = s.2 ∧ ∀ t ∈ pre, p ≠ t.2.2) ∨
      ((∀ t ∈ pre ++ (k, s) :: post, p ≠ t.2.2) ∧ (∀ t ∈ pre, G.zeroR < G.len p (proj p t.2)) ∧
        ∀ n, best = some n → G.zeroR < n.dist)) →
    searchTo G proj use p (pre ++ (k, s) :: post) best = some ⟨k, p, G.zeroR⟩ := by
  induction pre with
  | nil =>
    intro best h
    rw [List.nil_append, searchTo]
    rcases h with ⟨h1, _⟩ | ⟨h1, _, h3⟩
    · rw [if_pos h1]
    · rw [if_neg (h1 (k, s) (by simp))]
      simp only [hproj, hz, ite_self]
      rw [nearer_zero h3]
      exact searchTo_keep G proj use p post hnn _ _ (fun t ht => h1 t (by simp [ht]))
  | cons t pre ih =>
    intro best h
    rw [List.cons_append, searchTo]
    have hne : p ≠ t.2.2 := by
      rcases h with ⟨_, h2⟩ | ⟨h1, _, _⟩
      · exact h2 t List.mem_cons_self
      · exact h1 t (by simp)
    rw [if_neg hne]
    apply ih
    rcases h with ⟨h1, h2⟩ | ⟨h1, h2, h3⟩
    · exact .inl ⟨h1, fun u hu => h2 u (List.mem_cons_of_mem _ hu)⟩
    · refine .inr ⟨fun u hu => h1 u (List.mem_cons_of_mem _ hu), fun u hu => h2 u (List.mem_cons_of_mem _ hu), ?_⟩
      intro n hn
      have ht := h2 t List.mem_cons_self
      exact nearer_pos ht h3 hn

/-- As `OnFrom`, for the search from the end. -/
def OnTo (G : Geo P R A) (proj : P → P × P → P) (line : List P) (p : P) (k : Nat) (s : P × P) : Prop :=
  (segs line)[k]? = some s ∧ proj p s = p ∧ G.len s.2 p ≤ G.len s.1 s.2 ∧
    ((p = s.2 ∧ ∀ (j : Nat) (t : P × P), k < j → (segs line)[j]? = some t → p ≠ t.2) ∨
     ((∀ t ∈ segs line, p ≠ t.2) ∧ ∀ (j : Nat) (t : P × P), k < j → (segs line)[j]? = some t → G.zeroR < G.len p (proj p t)))

theorem distance_to_partial (G : Geo P R A) (proj : P → P × P → P) (use : Bool) {line : List P} (hc : line.IsChain (· ≠ ·))
    (hnn : ∀ x y, G.zeroR ≤ G.len x y) {p : P} (hz : G.len p p = G.zeroR) {k : Nat} {s : P × P}
    (hp : OnTo G proj line p k s) : ∃ m, (marks G line)[k]? = some (s.1, m) ∧
      distanceTo G proj use line p = some (G.addR m (G.len s.1 p)) := by
  obtain ⟨hk, hproj, hle, hcase⟩ := hp
  have hd := chain_segs hc
  have hklt : k < (segs line).length := (List.getElem?_eq_some_iff.1 hk).1
  have hsplit : numbered 0 (segs line) = (numbered 0 (segs line)).take k ++ (k, s) :: (numbered 0 (segs line)).drop (k + 1) := by
    have hget : (numbered 0 (segs line))[k]? = some (k, s) := by rw [numbered_get, hk]; simp
    obtain ⟨hlt, he⟩ := List.getElem?_eq_some_iff.1 hget
    conv_lhs => rw [← List.take_append_drop k (numbered 0 (segs line)), List.drop_eq_getElem_cons hlt, he]
  have hmem : ∀ t ∈ (numbered 0 (segs line)).drop (k + 1), ∃ j, k < j ∧ (segs line)[j]? = some t.2 := by
    intro t ht
    obtain ⟨i, hi⟩ := List.mem_iff_getElem?.1 ht
    rw [List.getElem?_drop, numbered_get] at hi
    obtain ⟨y, hy, rfl⟩ := Option.map_eq_some_iff.1 hi
    exact ⟨k + 1 + i, by omega, hy⟩
  have hall : ∀ t ∈ numbered 0 (segs line), t.2 ∈ segs line := by
    intro t ht
    obtain ⟨i, hi⟩ := List.mem_iff_getElem?.1 ht
    rw [numbered_get] at hi
    obtain ⟨y, hy, rfl⟩ := Option.map_eq_some_iff.1 hi
    exact List.mem_of_getElem? hy
  have hsearch : searchTo G proj use p (numbered 0 (segs line)).reverse none = some ⟨k, p, G.zeroR⟩ := by
    rw [hsplit, List.reverse_append, List.reverse_cons, List.append_assoc, List.singleton_append]
    apply searchTo_spec G proj use p hnn hz k s _ hproj
    rcases hcase with ⟨h1, h2⟩ | ⟨h1, h2⟩
    · refine .inl ⟨h1, ?_⟩
      intro t ht
      obtain ⟨j, hj, hjt⟩ := hmem t (List.mem_reverse.1 ht)
      exact h2 j t.2 hj hjt
    · refine .inr ⟨?_, ?_, by simp⟩
      · intro t ht
        refine h1 t.2 (hall t ?_)
        rw [hsplit]
        simp only [List.mem_append, List.mem_reverse, List.mem_cons] at ht ⊢
        tauto
      · intro t ht
        obtain ⟨j, hj, hjt⟩ := hmem t (List.mem_reverse.1 ht)
        exact h2 j t.2 hj hjt
  have hadj : adjustTo G line p k = k := by
    unfold adjustTo
    rw [hk]
    simp only
    rw [if_neg]
    rw [segLen, if_neg (hd s (List.mem_of_getElem? hk))]
    simp [longer, not_lt.2 hle]
  obtain ⟨d, h1, h2⟩ := along_finite G (segs line) hd p 0 k G.zeroR s (Nat.zero_le _) hk
  refine ⟨d, ?_, ?_⟩
  · unfold marks
    rw [List.getElem?_zip_eq_some]
    refine ⟨?_, h1⟩
    unfold segs at hk
    rw [List.getElem?_zip_eq_some] at hk
    exact hk.1
  · rw [segs_len] at hklt
    rw [distanceTo, if_neg (by omega), hsearch]
    simp only
    rw [hadj, h2]

/-- Points with two coordinates and the sum of the differences as distance. -/
def grid : Geo (Nat × Nat) Nat Nat where
  len p q := (p.1 - q.1) + (q.1 - p.1) + ((p.2 - q.2) + (q.2 - p.2))
  az _ _ := 0
  dir _ _ := 0
  abs a := a
  zeroR := 0
  addR := (· + ·)
  zeroA := 0
  addA := (· + ·)

/-- Closest point of a segment from left to right on the horizontal axis. -/
def ontoAxis (p : Nat × Nat) (s : (Nat × Nat) × (Nat × Nat)) : Nat × Nat := (max s.1.1 (min p.1 s.2.1), s.1.2)

example : distanceFrom grid ontoAxis true [(0, 0), (10, 0), (20, 0)] (15, 0) = some 15 ∧
    distanceTo grid ontoAxis true [(0, 0), (10, 0), (20, 0)] (15, 0) = some 15 ∧
    OnFrom grid ontoAxis [(0, 0), (10, 0), (20, 0)] (15, 0) 1 ((10, 0), (20, 0)) ∧
    OnTo grid ontoAxis [(0, 0), (10, 0), (20, 0)] (15, 0) 1 ((10, 0), (20, 0)) := by
  refine ⟨by decide, by decide, ⟨by decide, by decide, by decide, .inr ⟨by decide, ?_⟩⟩, ⟨by decide, by decide, by decide, .inr ⟨by decide, ?_⟩⟩⟩
  · intro j t hj ht
    have : j = 0 := by omega
    subst this
    simp [segs] at ht
    subst ht
    decide
  · intro j t hj ht
    have : 2 ≤ j := by omega
    simp [segs] at ht
    rw [List.getElem?_eq_none (by simpa using this)] at ht
    simp at ht

/-- **C32.**  On a segment the distances of a point beside it are those of its projection, however far it is away. -/
theorem segment_distances (G : Geo P R A) (proj : P → P × P → P) {a b p : P} (hab : a ≠ b) (ha : p ≠ a) (hb : p ≠ b) :
    distanceFrom G proj false [a, b] p =
      some (G.addR G.zeroR (if b = proj p (a, b) then G.len a b else G.len a (proj p (a, b)))) ∧
    distanceTo G proj false [a, b] p =
      some (G.addR G.zeroR (if b = proj p (a, b) then G.len a b else G.len a (proj p (a, b)))) := by
  have hone : along G 0 (proj p (a, b)) (segs [a, b]) 0 (some G.zeroR) =
      some (G.addR G.zeroR (if b = proj p (a, b) then G.len a b else G.len a (proj p (a, b)))) := by
    show along G 0 (proj p (a, b)) [(a, b)] 0 (some G.zeroR) = _
    rw [along, if_neg (by omega), if_pos rfl]
    have hl : segLen G (a, b) = some (G.len a b) := by simp [segLen, hab]
    rw [hl]
    by_cases h : b = proj p (a, b)
    · rw [if_pos h, if_pos h]; rfl
    · rw [if_neg h, if_neg h]; rfl
  constructor
  · have hs : searchFrom G proj false p (segs [a, b]) 0 none = some ⟨0, proj p (a, b), G.len p (proj p (a, b))⟩ := by
      simp [segs, searchFrom, ha, nearer]
    have hk : adjustFrom G [a, b] p 0 = 0 := by simp [adjustFrom, segs]
    rw [distanceFrom, if_neg (by simp), hs]
    simp only [hk]
    exact hone
  · have hs : searchTo G proj false p (numbered 0 (segs [a, b])).reverse none = some ⟨0, proj p (a, b), G.len p (proj p (a, b))⟩ := by
      simp [segs, numbered, searchTo, hb, nearer]
    have hk : adjustTo G [a, b] p 0 = 0 := by simp [adjustTo, segs]
    rw [distanceTo, if_neg (by simp), hs]
    simp only [hk]
    exact hone

example : distanceFrom grid ontoAxis false [(0, 0), (10, 0)] (8, 30) = some 8 ∧ distanceTo grid ontoAxis false [(0, 0), (10, 0)] (8, 30) = some 8 := by
  decide

/-- **C32 fails** for points beside the line: (5, 20) lies beside the distance 5 of the line, but the distance is 15. -/
theorem beside_line_fails : distanceFrom grid ontoAxis false [(0, 0), (10, 0), (20, 0)] (5, 20) = some 15 ∧
    ontoAxis (5, 20) ((0, 0), (10, 0)) = (5, 0) ∧ grid.len (0, 0) (5, 0) = 5 := by decide

/-- **C32 fails** likewise for the distance to a point beside a line that turns back: (5, 20) lies beside the distance 15, but the part is
measured from the start of the segment before. -/
theorem beside_line_to_fails : distanceTo grid ontoAxis false [(10, 0), (0, 0), (20, 0)] (5, 40) = some 5 ∧
    ontoAxis (5, 40) ((0, 0), (20, 0)) = (5, 0) ∧ grid.len (10, 0) (0, 0) + grid.len (0, 0) (5, 0) = 15 := by decide

/-- **C32 fails** on lines with a repeated point: distances behind it, and at it, are infinite. -/
theorem repeated_distance_fails : distanceTo grid ontoAxis false [(0, 0), (10, 0), (10, 0)] (12, 0) = none ∧
    distanceTo grid ontoAxis false [(0, 0), (10, 0)] (12, 0) = some 10 ∧
    distanceFrom grid ontoAxis false [(0, 0), (5, 0), (5, 0), (10, 0)] (7, 0) = none ∧
    distanceFrom grid ontoAxis false [(0, 0), (5, 0), (10, 0)] (7, 0) = some 7 := by decide

end MM.Substring
