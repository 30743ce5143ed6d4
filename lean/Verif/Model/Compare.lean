import Verif.Model.Outcome
import Mathlib.Order.Defs.LinearOrder
import Mathlib.Data.List.Sort
import Mathlib.Data.List.Dedup

/-!
# Comparing a match with its ground truth (geometry/algorithm/compare.hpp)

Segments are pairs of points; `equals_points` is equality.  Lists `corrects`, `error_adds` and `error_misses` grow at the end.
-/

set_option autoImplicit false

namespace MM.Compare

variable {P R : Type}

/-! ### Alignment -/

section Align

variable [DecidableEq P]

/-- compare.hpp 718-720: the segment is the one before in reverse. -/
def turnsBack (l : List (P × P)) (start : Nat) : Bool :=
  match l[start - 1]?, l[start]? with
  | some s, some t => decide (1 ≤ start) && decide (s.2 = t.1) && decide (s.1 = t.2)
  | _, _ => false

/-- compare.hpp 723-732: the first later segment that begins at the start point. -/
def comesBack (l : List (P × P)) (start : Nat) : Option Nat :=
  match l[start]? with
  | some t => ((l.drop (start + 1)).findIdx? (fun s => decide (s.1 = t.1))).map (fun k => start + 1 + k)
  | none => none

/-- compare.hpp 713-735 `_detect_reverse`; the end of the reverse part, if there is one. -/
def detectReverse (l : List (P × P)) (start : Nat) : Option Nat := if turnsBack l start then comesBack l start else none

/-- compare.hpp 745-753: segments of the match from `j` on; the first start point that the ground truth from `i` on meets. -/
def mergeLoop (a : List (P × P)) (i : Nat) (stop : Nat × Nat) : List (P × P) → Nat → Nat × Nat
  | [], _ => stop
  | t :: ts, j =>
    match (a.drop i).findIdx? (fun s => decide (s.1 = t.1)) with
    | some k => (i + k, j)
    | none => mergeLoop a i stop ts (j + 1)

/-- compare.hpp 740-744: where the search in the match begins. -/
def mergeStart (a b : List (P × P)) (i j : Nat) : Nat :=
  match a[i]?, b[j]? with
  | some s, some t => if s.1 = t.1 ∧ s.2 ≠ t.2 then j + 1 else j
  | _, _ => j

/-- compare.hpp 737-757 `_find_merge`. -/
def findMerge (a b : List (P × P)) (i j : Nat) : Nat × Nat :=
  mergeLoop a i (a.length, b.length) (b.drop (mergeStart a b i j)) (mergeStart a b i j)

/-- The variables of the alignment (compare.hpp 138, 297-299). -/
structure Align (P : Type) where
  i : Nat
  j : Nat
  corrects : List (P × P)
  misses : List (P × P)
  adds : List (P × P)
  revA : List (P × P)
  revB : List (P × P)

/-- Segments from one index to another (loops in compare.hpp 316, 325, 342, 345, 357, 362). -/
def part (l : List (P × P)) (i e : Nat) : List (P × P) := (l.drop i).take (e - i)

/-- compare.hpp 311-329: put reverse parts aside. -/
def putAside (a b : List (P × P)) (st : Align P) : Align P :=
  { st with
    revA := st.revA ++ part a st.i ((detectReverse a st.i).getD st.i)
    revB := st.revB ++ part b st.j ((detectReverse b st.j).getD st.j)
    i := (detectReverse a st.i).getD st.i
    j := (detectReverse b st.j).getD st.j }

/-- compare.hpp 335-351: errors up to the place where the lines meet again. -/
def skipErrors (a b : List (P × P)) (st : Align P) : Align P :=
  { st with
    misses := st.misses ++ part a st.i (findMerge a b st.i st.j).1
    adds := st.adds ++ part b st.j (findMerge a b st.i st.j).2
    i := (findMerge a b st.i st.j).1
    j := (findMerge a b st.i st.j).2 }

/-- compare.hpp 300-354: the loop. -/
def alignLoop (a b : List (P × P)) : Nat → Align P → Outcome (Align P)
  | 0, _ => .ub
  | n + 1, st =>
    match a[st.i]?, b[st.j]? with
    | some s, some t =>
      if s = t then alignLoop a b n { st with corrects := st.corrects ++ [s], i := st.i + 1, j := st.j + 1 }
      else if (putAside a b st).i ≥ a.length ∨ (putAside a b st).j ≥ b.length then .ok (putAside a b st)
      else if detectReverse a st.i = none ∧ detectReverse b st.j = none then
        alignLoop a b n (skipErrors a b (putAside a b st))
      else alignLoop a b n (putAside a b st)
    | _, _ => .ok st

/-- compare.hpp 356-365: what is left of either list. -/
def leftOver (a b : List (P × P)) (st : Align P) : Align P :=
  { st with misses := st.misses ++ part a st.i a.length, adds := st.adds ++ part b st.j b.length, i := a.length, j := b.length }

/-- compare.hpp 299-365. -/
def align (a b : List (P × P)) : Outcome (Align P) :=
  (alignLoop a b (a.length + b.length + 1) ⟨0, 0, [], [], [], [], []⟩).map (leftOver a b)

/-! ### Reconciliation -/

/-- compare.hpp 368-388, also 391-410, 413-433, 458-479: take equal segments from both lists, begin again after each one.
Results: both lists and the segments taken. -/
def pairOff : Nat → List (P × P) → List (P × P) → List (P × P) → List (P × P) × List (P × P) × List (P × P)
  | 0, xs, ys, taken => (xs, ys, taken)
  | n + 1, xs, ys, taken =>
    match xs.find? (fun x => decide (x ∈ ys)) with
    | none => (xs, ys, taken)
    | some x => pairOff n (xs.erase x) (ys.erase x) (taken ++ [x])

/-- compare.hpp 436-455: append those that are not yet contained. -/
def appendNew : List (P × P) → List (P × P) → List (P × P)
  | l, [] => l
  | l, s :: ss => appendNew (if s ∈ l then l else l ++ [s]) ss

/-- The three lists of the result (compare.hpp 138). -/
structure Parts (P : Type) where
  corrects : List (P × P)
  adds : List (P × P)
  misses : List (P × P)
  deriving DecidableEq

/-- compare.hpp 367-388: reverse parts of both lines. -/
def both (st : Align P) : List (P × P) × List (P × P) × List (P × P) := pairOff st.revB.length st.revB st.revA []

/-- compare.hpp 390-410: added parts in the reverse part of the ground truth. -/
def addsReverse (st : Align P) : List (P × P) × List (P × P) × List (P × P) :=
  pairOff st.adds.length st.adds (both st).2.1 []

/-- compare.hpp 412-433: missed parts in the reverse part of the match. -/
def missesReverse (st : Align P) : List (P × P) × List (P × P) × List (P × P) :=
  pairOff st.misses.length st.misses (both st).1 []

/-- compare.hpp 435-444. -/
def allMisses (st : Align P) : List (P × P) := appendNew (missesReverse st).1 (addsReverse st).2.1

/-- compare.hpp 446-455. -/
def allAdds (st : Align P) : List (P × P) := appendNew (addsReverse st).1 (missesReverse st).2.1

/-- compare.hpp 457-479: missed parts that were added. -/
def missedAdded (st : Align P) : List (P × P) × List (P × P) × List (P × P) :=
  pairOff (allMisses st).length (allMisses st) (allAdds st) []

/-- compare.hpp 367-479. -/
def reconcile (st : Align P) : Parts P where
  corrects := st.corrects ++ (both st).2.2 ++ (addsReverse st).2.2 ++ (missesReverse st).2.2 ++ (missedAdded st).2.2
  adds := (missedAdded st).2.1
  misses := (missedAdded st).1

/-- compare.hpp 299-479. -/
def alignment (a b : List (P × P)) : Outcome (Parts P) := (align a b).map reconcile

end Align

/-! ### Preparation -/

/-- Tolerances (compare.hpp 56-61), distances and queries of the spatial index (585-603); parameters of the model. -/
structure Tools (P R : Type) where
  /-- `geometry::distance`. -/
  dist : P → P → R
  /-- `adoption_distance_tolerance`. -/
  tolerance : R
  /-- The points that the spatial index reports around a point, in its order (compare.hpp 617-619). -/
  query : List P → P → List P
  /-- compare.hpp 683-693: the point is near the segment and going through it keeps the direction. -/
  splits : (P × P) → P → Bool
  /-- Length of a segment, `none` if it has none (`has_length`). -/
  len : (P × P) → Option R
  /-- `simplify_rich_segments` (see `Verif.Model.SimplifyLine`). -/
  simplify : List (P × P) → List (P × P)

section Prepare

variable [LinearOrder P] [LinearOrder R]

/-- compare.hpp 580-587 `_create_points_set`: a sorted set. -/
def pointsSet (l : List (P × P)) : List P := ((l.flatMap (fun s => [s.1, s.2])).dedup).insertionSort (· ≤ ·)

/-- compare.hpp 621-632: the nearest of the reported points other than the point itself, within the tolerance. -/
def nearestOf (T : Tools P R) (p : P) : List P → Option P → Option P
  | [], best => best
  | q :: qs, best =>
    if p ≠ q ∧ T.dist p q < T.tolerance ∧ (∀ r, best = some r → T.dist p q < T.dist p r) then nearestOf T p qs (some q)
    else nearestOf T p qs best

/-- compare.hpp 613-632. -/
def adopt (T : Tools P R) (pts : List P) (p : P) : Option P := nearestOf T p (T.query pts p) none

/-- compare.hpp 640-644: the next segment begins at the new point. -/
def startAt (z : P) : List (P × P) → List (P × P)
  | [] => []
  | t :: ts => (if t.1 = z then t else (z, t.2)) :: ts

/-- compare.hpp 648-653: the second point of each segment; the flag tells the first segment of the list (637-638). -/
def adaptSeconds (T : Tools P R) (pts : List P) : Nat → Bool → List (P × P) → List (P × P)
  | 0, _, l => l
  | _ + 1, _, [] => []
  | n + 1, first, s :: ss =>
    match adopt T pts s.2 with
    | none => s :: adaptSeconds T pts n false ss
    | some z => (s.1, z) :: adaptSeconds T pts n false (if first && decide (z = s.1) then ss else startAt z ss)

/-- compare.hpp 649-651: the first point of the first segment. -/
def adaptFirst (T : Tools P R) (pts : List P) : List (P × P) → List (P × P)
  | [] => []
  | s :: ss =>
    match adopt T pts s.1 with
    | none => s :: ss
    | some z => (z, s.2) :: ss

/-- compare.hpp 655-663: no length or length zero. -/
def hasLength [Zero R] (T : Tools P R) (s : P × P) : Bool :=
  match T.len s with
  | none => false
  | some l => decide (l ≠ 0)

/-- compare.hpp 605-664 `_adapt_points`. -/
def adapt [Zero R] (T : Tools P R) (l other : List (P × P)) : List (P × P) :=
  (adaptSeconds T (pointsSet other) l.length true (adaptFirst T (pointsSet other) l)).filter (hasLength T)

/-- compare.hpp 675-709: split all segments at one point. -/
def splitAt (T : Tools P R) (l : List (P × P)) (p : P) : List (P × P) :=
  l.flatMap (fun s => if s.1 ≠ p ∧ s.2 ≠ p ∧ T.splits s p then [(s.1, p), (p, s.2)] else [s])

/-- compare.hpp 666-711 `_split_segments`; simplified: the index reports all segments near a point (682). -/
def split (T : Tools P R) (l other : List (P × P)) : List (P × P) := (pointsSet other).foldl (splitAt T) l

/-- Adapt each list to itself, then each to the other one (compare.hpp 205-206 and 220-221; 263-264 and 278-279). -/
def adaptBoth [Zero R] (T : Tools P R) (l : List (P × P) × List (P × P)) : List (P × P) × List (P × P) :=
  let a := adapt T l.1 l.1
  let b := adapt T l.2 l.2
  let a' := adapt T a b
  (a', adapt T b a')

/-- The same with splitting (compare.hpp 234-235 and 248-249). -/
def splitBoth (T : Tools P R) (l : List (P × P) × List (P × P)) : List (P × P) × List (P × P) :=
  let a := split T l.1 l.1
  let b := split T l.2 l.2
  let a' := split T a b
  (a', split T b a')

/-- compare.hpp 188-279. -/
def prepare [Zero R] (T : Tools P R) (a b : List (P × P)) : List (P × P) × List (P × P) :=
  adaptBoth T (splitBoth T (adaptBoth T (T.simplify a, T.simplify b)))

end Prepare

/-! ### Scores -/

/-- The result (geometry/algorithm/compare/comparison.hpp 26-70); `none` is infinity. -/
structure Result (P R : Type) where
  correctFraction : R
  errorFraction : Option R
  correct : R
  errorAdded : R
  errorMissed : R
  parts : Parts P
  deriving DecidableEq

section Score

variable [LinearOrder P] [LinearOrder R] [Add R] [Zero R] [One R] [Div R]

/-- compare.hpp 483-528: segments without length are removed, the others summed up. -/
def total (T : Tools P R) (l : List (P × P)) : R :=
  (l.filter (hasLength T)).foldl (fun c s => c + (T.len s).getD 0) 0

/-- compare.hpp 530-541; `gt` is the length of the ground truth if it has one. -/
def errorFraction (gt : Option R) (added missed : R) : Option R :=
  if added ≠ 0 ∨ missed ≠ 0 then
    match gt with
    | some g => if 0 < g then some ((added + missed) / g) else none
    | none => none
  else some 0

/-- compare.hpp 549-567. -/
def rawCorrect (gt cmp : Option R) (correct : R) : R :=
  if 0 < gt.getD 0 ∧ 0 < cmp.getD 0 then correct / max (gt.getD 0) (cmp.getD 0)
  else if gt.getD 0 = 0 ∧ cmp.getD 0 = 0 then 1
  else 0

/-- compare.hpp 543-572. -/
def correctFraction (gt cmp : Option R) (correct : R) (err : Option R) : R :=
  if err = some 0 then 1 else min 1 (max 0 (rawCorrect gt cmp correct))

/-- compare.hpp 481-578. -/
def score (T : Tools P R) (gt cmp : Option R) (p : Parts P) : Result P R where
  correctFraction := correctFraction gt cmp (total T p.corrects) (errorFraction gt (total T p.adds) (total T p.misses))
  errorFraction := errorFraction gt (total T p.adds) (total T p.misses)
  correct := total T p.corrects
  errorAdded := total T p.adds
  errorMissed := total T p.misses
  parts := ⟨p.corrects.filter (hasLength T), p.adds.filter (hasLength T), p.misses.filter (hasLength T)⟩

/-- compare.hpp 132-578 `_compare`. -/
def compare (T : Tools P R) (a b : List (P × P)) (gt cmp : Option R) : Outcome (Result P R) :=
  match a, b with
  | [], [] => .ok ⟨1, some 0, 0, 0, 0, ⟨[], [], []⟩⟩
  | [], b => .ok ⟨0, none, 0, cmp.getD 0, 0, ⟨[], b, []⟩⟩
  | a, [] => .ok ⟨0, some 1, 0, 0, gt.getD 0, ⟨[], [], a⟩⟩
  | a, b => (alignment (prepare T a b).1 (prepare T a b).2).map (score T gt cmp)

end Score

end MM.Compare
