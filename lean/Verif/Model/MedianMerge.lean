import Verif.Model.Outcome
import Mathlib.Order.Defs.LinearOrder

/-!
# Median and median merging (geometry/algorithm/median.hpp and median_merge.hpp)

`nth l k` is the container after `std::nth_element` with the k-th position; which arrangement it gives is left open.
The spatial index is the list of its entries.
-/

set_option autoImplicit false

namespace MM.Median

variable {E P R : Type} [LinearOrder R]

/-- median.hpp 27-42 `median`; `mean a b` is `(a + b) / 2`.  An empty container is read out of bounds (`assert` only). -/
def median (nth : List E → Nat → List E) (mean : E → E → E) (l : List E) : Outcome E :=
  if l.length % 2 = 1 then
    match (nth l (l.length / 2))[l.length / 2]? with
    | some x => .ok x
    | none => .ub
  else
    match (nth (nth l (l.length / 2)) (l.length / 2 - 1))[l.length / 2 - 1]?,
      (nth (nth l (l.length / 2)) (l.length / 2 - 1))[l.length / 2]? with
    | some a, some b => .ok (mean a b)
    | _, _ => .ub

/-- median.hpp 44-55 `median_absolute_deviation` around a center; `dev c x` is `|x - c|`. -/
def deviation (nth : List E → Nat → List E) (mean dev : E → E → E) (center : E) (l : List E) : Outcome E :=
  median nth mean (l.map (dev center))

/-- median.hpp 64-116 `median_point` for two dimensions. -/
def medianPoint (nth : List E → Nat → List E) (mean : E → E → E) (ps : List (E × E)) : Outcome (E × E) :=
  (median nth mean (ps.map Prod.fst)).bind fun x => (median nth mean (ps.map Prod.snd)).bind fun y => .ok (x, y)

/-- median_merge.hpp 65-76: entries in the box that are not farther than the tolerance. -/
def results (box : P → R → P → Bool) (dist : P → P → R) (tol : R) (p : P) (index : List (Nat × P)) : List (Nat × P) :=
  (index.filter (fun e => box p tol e.2)).filter (fun e => !decide (tol < dist p e.2))

/-- median_merge.hpp 84-107: beginning with `current_it`, take points as long as they are among the results.  Points are
identified by their position in the line (the iterators). -/
def connected : List (Nat × P) → List (Nat × P) → List (Nat × P) × List (Nat × P)
  | _, [] => ([], [])
  | found, x :: xs =>
    match found.find? (fun e => e.1 == x.1) with
    | none => ([], x :: xs)
    | some r =>
      (r :: (connected (found.filter (fun e => e.1 != x.1)) xs).1, (connected (found.filter (fun e => e.1 != x.1)) xs).2)

/-- median_merge.hpp 57-127: `done` are the points before `it`, `rest` those from `it` on.  `buffer.hpp` 39-41 throws for a
radius that is not positive.  A loop that does not advance runs out of `fuel`. -/
def mergeLoop (med : List P → Outcome P) (box : P → R → P → Bool) (dist : P → P → R) (zero : R) (adjust : P → R) :
    Nat → List P → List (Nat × P) → List (Nat × P) → Outcome (List P)
  | 0, _, _, _ => .ub
  | _ + 1, done, [], _ => .ok done
  | fuel + 1, done, x :: xs, index =>
    if adjust x.2 ≤ zero then .throws
    else if (results box dist (adjust x.2) x.2 index).isEmpty then
      mergeLoop med box dist zero adjust fuel (done ++ [x.2]) xs index
    else if (connected (results box dist (adjust x.2) x.2 index) (x :: xs)).1.isEmpty then
      mergeLoop med box dist zero adjust fuel done (x :: xs) index
    else
      (med ((connected (results box dist (adjust x.2) x.2 index) (x :: xs)).1.map Prod.snd)).bind fun m =>
        mergeLoop med box dist zero adjust fuel (done ++ [m]) (connected (results box dist (adjust x.2) x.2 index) (x :: xs)).2
          (index.filter fun e =>
            (connected (results box dist (adjust x.2) x.2 index) (x :: xs)).1.all fun c => c.1 != e.1)

/-- median_merge.hpp 43-55: the points with their positions. -/
def numbered : Nat → List P → List (Nat × P)
  | _, [] => []
  | i, p :: ps => (i, p) :: numbered (i + 1) ps

/-- median_merge.hpp 34-132 `median_merge(line, tolerance_adjuster, tolerance)`. -/
def medianMerge (med : List P → Outcome P) (box : P → R → P → Bool) (dist : P → P → R) (zero : R) (adjust : P → R) (fuel : Nat)
    (line : List P) : Outcome (List P) :=
  mergeLoop med box dist zero adjust fuel [] (numbered 0 line) (numbered 0 line)

/-- median_merge.hpp 151-163: the adaptive tolerance; `nearest p` is the distance to the nearest edge if there is one. -/
def adaptive (half : R → R) (nearest : P → Option R) (tol : R) (use : Bool) (p : P) : R :=
  if use then
    match nearest p with
    | some d => if tol < half d then half d else tol
    | none => tol
  else tol

end MM.Median
