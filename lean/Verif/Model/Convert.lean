import Verif.Model.Outcome

/-!
# Lines and segments (geometry/algorithm/convert.hpp, reverse.hpp)

Points are of any type with an equality, `equals_points` is that equality.
-/

set_option autoImplicit false

namespace MM.Convert

variable {P : Type} [DecidableEq P]

/-- convert.hpp 108-110, 347-349, the loop from index `i`, `fuel` steps (`line.size() - 1 - i`); reading past the end is undefined. -/
def segmentsLoop (line : List P) : Nat → Nat → Outcome (List (P × P))
  | 0, _ => .ok []
  | fuel + 1, i =>
    match line[i]?, line[i + 1]? with
    | some a, some b => (segmentsLoop line fuel (i + 1)).map ((a, b) :: ·)
    | _, _ => .ub

/-- convert.hpp 91-113 `line2segments`, 337-355 `line2rich_segments`. -/
def line2segments (line : List P) : Outcome (List (P × P)) :=
  if line.length ≥ 2 then segmentsLoop line (line.length - 1) 0 else .ok []

/-- convert.hpp 127-132, 368-373: a segment is added to the line. -/
def addSegment (line : List P) (s : P × P) : List P := (if line = [] then [s.1] else line) ++ [s.2]

/-- convert.hpp 115-135 `segments2line`, 363-377 `rich_segments2line`. -/
def segments2line (segments : List (P × P)) : List P := segments.foldl addSegment []

/-- reverse.hpp 43-48, the loop: `i` of `a` against `j` of `b`, `fuel` steps (`a.size() - i`); `j` is not used after the last step. -/
def reversedLoop (a b : List P) : Nat → Nat → Nat → Outcome Bool
  | 0, _, _ => .ok true
  | fuel + 1, i, j =>
    match a[i]?, b[j]? with
    | some p, some q => if p = q then reversedLoop a b fuel (i + 1) (j - 1) else .ok false
    | _, _ => .ub

/-- reverse.hpp 23-52 `lines_are_reversed`. -/
def reversed (a b : List P) : Outcome Bool :=
  if a = [] ∨ b = [] then .ok false
  else if a.length ≠ b.length then .ok false
  else if ¬ (a.head? = b.getLast? ∧ a.getLast? = b.head?) then .ok false
  else reversedLoop a b (a.length - 1) 1 (b.length - 2)

end MM.Convert
