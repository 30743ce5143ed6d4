import Verif.Model.Measures
import Verif.Props.Common
import Verif.Props.Convert
import Mathlib.Tactic.Ring
import Mathlib.Tactic.Linarith
import Mathlib.Algebra.Order.BigOperators.Group.List
import Mathlib.Algebra.Order.Ring.Rat

/-!
# C88: lengths and directions of plain lines
-/

set_option autoImplicit false
set_option linter.unusedSectionVars false

namespace MM.Measures

variable {P R : Type} [Field R] [LinearOrder R] [IsStrictOrderedRing R]

/-- The changes of direction of a line, one for each inner point. -/
def turns (az : P → P → R) : List P → List R
  | a :: b :: c :: l => Common.angleDiff (az a b) (az b c) :: turns az (b :: c :: l)
  | _ => []

theorem turns_length (az : P → P → R) : ∀ line, (turns az line).length = line.length - 2
  | [] => rfl
  | [_] => rfl
  | [_, _] => rfl
  | a :: b :: c :: l => by
    have := turns_length az (b :: c :: l)
    simp only [turns, List.length_cons] at this ⊢
    omega

theorem turns_drop (az : P → P → R) (line : List P) (i : Nat) {a b c : P} (ha : line[i]? = some a) (hb : line[i + 1]? = some b)
    (hc : line[i + 2]? = some c) : turns az (line.drop i) = Common.angleDiff (az a b) (az b c) :: turns az (line.drop (i + 1)) := by
  rw [List.getElem?_eq_some_iff] at ha hb hc
  obtain ⟨la, rfl⟩ := ha
  obtain ⟨lb, rfl⟩ := hb
  obtain ⟨lc, rfl⟩ := hc
  rw [List.drop_eq_getElem_cons la, List.drop_eq_getElem_cons lb, List.drop_eq_getElem_cons lc]
  rfl

theorem sumLoop_eq (az : P → P → R) (g : R → R) (line : List P) : ∀ fuel i acc, i + fuel + 2 = line.length ∨ fuel = 0 ∧ line.length ≤ i + 2 →
    sumLoop (fun a b c => g (direction az a b c)) line fuel i acc = .ok (acc + ((turns az (line.drop i)).map g).sum) := by
  intro fuel
  induction fuel with
  | zero =>
    intro i acc h
    have hl : (line.drop i).length ≤ 2 := by simp; omega
    have : turns az (line.drop i) = [] := by
      apply List.eq_nil_of_length_eq_zero
      rw [turns_length]
      omega
    simp [sumLoop, this]
  | succ fuel ih =>
    intro i acc h
    have h1 : i < line.length := by omega
    have h2 : i + 1 < line.length := by omega
    have h3 : i + 2 < line.length := by omega
    have e1 := List.getElem?_eq_getElem h1
    have e2 := List.getElem?_eq_getElem h2
    have e3 := List.getElem?_eq_getElem h3
    unfold sumLoop
    rw [e1, e2, e3]
    simp only
    rw [ih (i + 1) _ (by omega), turns_drop az line i e1 e2 e3]
    simp [direction, add_assoc]

theorem directions_eq (az : P → P → R) (line : List P) : directions az line = .ok (turns az line).sum := by
  have := sumLoop_eq az id line (line.length - 2) 0 0 (by omega)
  simpa [directions] using this

theorem absolute_eq (az : P → P → R) (line : List P) : absolute az line = .ok ((turns az line).map (fun d => |d|)).sum := by
  have := sumLoop_eq az (fun d => |d|) line (line.length - 2) 0 0 (by omega)
  simpa [absolute] using this

theorem bothLoop_eq (az : P → P → R) (line : List P) : ∀ fuel i (acc : R × R), bothLoop az line fuel i acc =
    (sumLoop (direction az) line fuel i acc.1).bind fun d => (sumLoop (fun a b c => |direction az a b c|) line fuel i acc.2).map fun e => (d, e) := by
  intro fuel
  induction fuel with
  | zero => intro i acc; rfl
  | succ fuel ih =>
    intro i acc
    unfold bothLoop sumLoop
    cases line[i]? <;> cases line[i + 1]? <;> cases line[i + 2]? <;> simp [ih]

/-- **C88.**  The directions of a line are the sum of its changes of direction, one for each inner point, the absolute directions that of their
absolute values, and both together are the two; none of it depends on anything else, and no line fails. -/
theorem directions_spec (az : P → P → R) (line : List P) :
    directions az line = .ok (turns az line).sum ∧ absolute az line = .ok ((turns az line).map (fun d => |d|)).sum ∧
      combined az line = .ok ((turns az line).sum, ((turns az line).map (fun d => |d|)).sum) ∧ (turns az line).length = line.length - 2 := by
  refine ⟨directions_eq az line, absolute_eq az line, ?_, turns_length az line⟩
  have h1 := directions_eq az line
  have h2 := absolute_eq az line
  unfold directions at h1
  unfold absolute at h2
  simp [combined, bothLoop_eq, h1, h2]

theorem abs_sum_le : ∀ l : List R, |l.sum| ≤ (l.map (fun d => |d|)).sum
  | [] => by simp
  | a :: l => by
    simp only [List.sum_cons, List.map_cons]
    exact (abs_add_le a l.sum).trans (by linarith [abs_sum_le l])

/-- **C88.**  The absolute directions are at least the directions in either sense, and at most 180 degrees for each inner point. -/
theorem directions_bounded (az : P → P → R) (haz : ∀ a b, -180 ≤ az a b ∧ az a b ≤ 180) (line : List P) {d e : R}
    (hd : directions az line = .ok d) (he : absolute az line = .ok e) : |d| ≤ e ∧ e ≤ 180 * ((line.length - 2 : Nat) : R) := by
  rw [directions_eq] at hd
  rw [absolute_eq] at he
  cases hd
  cases he
  refine ⟨abs_sum_le _, ?_⟩
  have hb : ∀ x ∈ turns az line, |x| ≤ 180 := by
    intro x hx
    induction line using turns.induct with
    | case1 a b c l ih =>
      simp only [turns, List.mem_cons] at hx
      rcases hx with rfl | hx
      · have h1 := haz a b
        have h2 := haz b c
        have := Common.angle_range (az a b) (az b c) (by linarith [h1.2, h2.1]) (by linarith [h1.1, h2.2])
        exact abs_le.2 this
      · exact ih hx
    | case2 l h =>
      rw [turns] at hx
      · cases hx
      · exact h
  have := List.sum_le_card_nsmul ((turns az line).map (fun d => |d|)) 180 (by
    intro x hx
    obtain ⟨y, hy, rfl⟩ := List.mem_map.1 hx
    exact hb y hy)
  rw [List.length_map, turns_length, nsmul_eq_mul, mul_comm] at this
  exact this

/-- **C88.**  The directions of a line give, up to full turns, the angle between its first and its last segment. -/
theorem directions_turn (az : P → P → R) (a b : P) (l : List P) :
    ∃ (d : R) (k : Int) (y z : P), directions az (a :: b :: l) = .ok d ∧ [y, z] <:+ a :: b :: l ∧ d = az a b - az y z + 360 * (k : R) := by
  induction l generalizing a b with
  | nil => exact ⟨0, 0, a, b, by simp [directions_eq, turns], List.suffix_refl _, by simp⟩
  | cons c l ih =>
    obtain ⟨d, k, y, z, h1, h2, h3⟩ := ih b c
    obtain ⟨j, _, hj⟩ := Common.angle_congruent (az a b) (az b c)
    rw [directions_eq] at h1
    refine ⟨Common.angleDiff (az a b) (az b c) + d, k + j, y, z, ?_, h2.trans (List.suffix_cons a _), ?_⟩
    · rw [directions_eq]
      cases h1
      simp [turns]
    · rw [hj, h3]
      push_cast
      ring

/-! ### Segments -/

theorem segLoop_eq (az : P → P → R) (g : R → R) (line : List P) : ∀ fuel i, i + fuel + 1 = (line.zip line.tail).length →
    segLoop (fun a b c => g (direction az a b c)) (line.zip line.tail) fuel i = .ok ((turns az (line.drop i)).map g) := by
  intro fuel
  induction fuel with
  | zero =>
    intro i h
    have hl : (line.drop i).length ≤ 2 := by simp at h ⊢; omega
    have : turns az (line.drop i) = [] := by
      apply List.eq_nil_of_length_eq_zero
      rw [turns_length]
      omega
    simp [segLoop, this]
  | succ fuel ih =>
    intro i h
    have h' := h
    simp only [List.length_zip, List.length_tail] at h'
    have h1 : i < line.length := by omega
    have h2 : i + 1 < line.length := by omega
    have h3 : i + 2 < line.length := by omega
    have z1 : (line.zip line.tail)[i]? = some (line[i], line[i + 1]) := by
      rw [List.getElem?_eq_some_iff]
      exact ⟨by simp; omega, by simp⟩
    have z2 : (line.zip line.tail)[i + 1]? = some (line[i + 1], line[i + 2]) := by
      rw [List.getElem?_eq_some_iff]
      exact ⟨by simp; omega, by simp⟩
    unfold segLoop
    rw [z1, z2]
    simp only
    rw [ih (i + 1) (by omega), turns_drop az line i (List.getElem?_eq_getElem h1) (List.getElem?_eq_getElem h2) (List.getElem?_eq_getElem h3)]
    simp [direction]

theorem azLoop_eq (az : P → P → R) (g : R → R) (line : List P) : ∀ fuel i, i + fuel + 1 = (line.zip line.tail).length →
    azLoop (fun a b => g (Common.angleDiff a b)) (segmentsAzimuths az (line.zip line.tail)) fuel i = .ok ((turns az (line.drop i)).map g) := by
  intro fuel
  induction fuel with
  | zero =>
    intro i h
    have hl : (line.drop i).length ≤ 2 := by simp at h ⊢; omega
    have : turns az (line.drop i) = [] := by
      apply List.eq_nil_of_length_eq_zero
      rw [turns_length]
      omega
    simp [azLoop, this]
  | succ fuel ih =>
    intro i h
    have h' := h
    simp only [List.length_zip, List.length_tail] at h'
    have h1 : i < line.length := by omega
    have h2 : i + 1 < line.length := by omega
    have h3 : i + 2 < line.length := by omega
    have z1 : (segmentsAzimuths az (line.zip line.tail))[i]? = some (az line[i] line[i + 1]) := by
      rw [List.getElem?_eq_some_iff]
      exact ⟨by simp [segmentsAzimuths]; omega, by simp [segmentsAzimuths]⟩
    have z2 : (segmentsAzimuths az (line.zip line.tail))[i + 1]? = some (az line[i + 1] line[i + 2]) := by
      rw [List.getElem?_eq_some_iff]
      exact ⟨by simp [segmentsAzimuths]; omega, by simp [segmentsAzimuths]⟩
    unfold azLoop
    rw [z1, z2]
    simp only
    rw [ih (i + 1) (by omega), turns_drop az line i (List.getElem?_eq_getElem h1) (List.getElem?_eq_getElem h2) (List.getElem?_eq_getElem h3)]
    simp

theorem segBoth_eq (az : P → P → R) (segments : List (P × P)) : ∀ fuel i (acc : List R × List R), segBothLoop az segments fuel i acc =
    (segLoop (direction az) segments fuel i).bind fun d =>
      (segLoop (fun a b c => |direction az a b c|) segments fuel i).map fun e => (acc.1 ++ d, acc.2 ++ e) := by
  intro fuel
  induction fuel with
  | zero => intro i acc; simp [segBothLoop, segLoop]
  | succ fuel ih =>
    intro i acc
    unfold segBothLoop segLoop
    cases segments[i]? <;> cases segments[i + 1]? <;> simp only [Outcome.bind_ub]
    rw [ih]
    generalize segLoop (direction az) segments fuel (i + 1) = x
    generalize segLoop (fun a b c => |direction az a b c|) segments fuel (i + 1) = y
    cases x <;> cases y <;> simp [Outcome.bind, Outcome.map]

theorem azBoth_eq (azimuths : List R) : ∀ fuel i (acc : List R × List R), azBothLoop azimuths fuel i acc =
    (azLoop Common.angleDiff azimuths fuel i).bind fun d =>
      (azLoop (fun a b => |Common.angleDiff a b|) azimuths fuel i).map fun e => (acc.1 ++ d, acc.2 ++ e) := by
  intro fuel
  induction fuel with
  | zero => intro i acc; simp [azBothLoop, azLoop]
  | succ fuel ih =>
    intro i acc
    unfold azBothLoop azLoop
    cases azimuths[i]? <;> cases azimuths[i + 1]? <;> simp only [Outcome.bind_ub]
    rw [ih]
    generalize azLoop Common.angleDiff azimuths fuel (i + 1) = x
    generalize azLoop (fun a b => |Common.angleDiff a b|) azimuths fuel (i + 1) = y
    cases x <;> cases y <;> simp [Outcome.bind, Outcome.map]

/-- **C88**, segments: the directions of the segments of a line with at least two points are its changes of direction, whether the azimuths are
given or not; likewise the absolute ones and both together.  Missing: no segments (`segments_fails`). -/
theorem segments_partial [DecidableEq P] (az : P → P → R) (line : List P) (h : 2 ≤ line.length) (azimuths : List R)
    {segments : List (P × P)} (hs : Convert.line2segments line = .ok segments)
    (ha : azimuths = [] ∨ azimuths = segmentsAzimuths az segments) :
    segmentsDirections az segments azimuths = .ok (turns az line) ∧
      segmentsAbsolute az segments azimuths = .ok ((turns az line).map (fun d => |d|)) ∧
      segmentsCombined az segments azimuths = .ok (turns az line, (turns az line).map (fun d => |d|)) := by
  rw [Convert.segments_spec] at hs
  cases hs
  have hl : (line.zip line.tail).length = line.length - 1 := by simp
  have hne : line.zip line.tail ≠ [] := by
    intro e
    rw [e] at hl
    simp at hl
    omega
  have s1 := segLoop_eq az id line ((line.zip line.tail).length - 1) 0 (by omega)
  have s2 := segLoop_eq az (fun d => |d|) line ((line.zip line.tail).length - 1) 0 (by omega)
  have a1 := azLoop_eq az id line ((line.zip line.tail).length - 1) 0 (by omega)
  have a2 := azLoop_eq az (fun d => |d|) line ((line.zip line.tail).length - 1) 0 (by omega)
  simp only [id_eq, List.drop_zero, List.map_id_fun] at s1 s2 a1 a2
  have b1 := segBoth_eq az (line.zip line.tail) ((line.zip line.tail).length - 1) 0 ([], [])
  have b2 := azBoth_eq (segmentsAzimuths az (line.zip line.tail)) ((line.zip line.tail).length - 1) 0 ([], [])
  have t1 : segLoop (direction az) (line.zip line.tail) ((line.zip line.tail).length - 1) 0 = .ok (turns az line) := s1
  have t2 : azLoop Common.angleDiff (segmentsAzimuths az (line.zip line.tail)) ((line.zip line.tail).length - 1) 0 = .ok (turns az line) := a1
  rw [t1, s2] at b1
  rw [t2, a2] at b2
  by_cases hz : azimuths = []
  · subst hz
    refine ⟨?_, ?_, ?_⟩
    · simp only [segmentsDirections, if_neg hne, if_true]
      exact t1
    · simp only [segmentsAbsolute, if_neg hne, if_true]
      exact s2
    · simp only [segmentsCombined, if_neg hne, if_true]
      rw [b1]
      simp
  · have hz' := ha.resolve_left hz
    have hal : azimuths.length = (line.zip line.tail).length := by rw [hz']; simp [segmentsAzimuths]
    refine ⟨?_, ?_, ?_⟩
    · simp only [segmentsDirections, if_neg hne, if_neg hz, hal]
      rw [hz', t2]
    · simp only [segmentsAbsolute, if_neg hne, if_neg hz, hal]
      rw [hz', a2]
    · simp only [segmentsCombined, if_neg hne, if_neg hz, hal]
      rw [hz', b2]
      simp

/-- **C88 fails** without segments: lines of fewer than two points have directions zero, their segments end in an exception. -/
theorem segments_fails [DecidableEq P] (az : P → P → R) (line : List P) (h : line.length < 2) :
    Convert.line2segments line = .ok [] ∧ segmentsDirections az [] [] = .throws ∧ segmentsAbsolute az [] [] = .throws ∧
      segmentsCombined az [] [] = .throws ∧ directions az line = .ok 0 := by
  refine ⟨?_, rfl, rfl, rfl, ?_⟩
  · simp [Convert.line2segments]
    omega
  · match line, h with
    | [], _ => simp [directions_eq, turns]
    | [_], _ => simp [directions_eq, turns]

/-- **C88.**  The azimuth of a line is that from its first to its last point, zero for fewer than two points. -/
theorem azimuth_ends (az : P → P → R) :
    (∀ (a : P) (l : List P) (b : P), azimuthLine az (a :: l ++ [b]) = az a b) ∧ (∀ line : List P, line.length < 2 → azimuthLine az line = 0) := by
  constructor
  · intro a l b
    have h1 : (a :: l ++ [b]).head? = some a := rfl
    have h2 : (a :: l ++ [b]).getLast? = some b := List.getLast?_concat ..
    unfold azimuthLine
    rw [h1, h2]
    exact if_pos (by simp)
  · intro line h
    match line, h with
    | [], _ => rfl
    | [_], _ => simp [azimuthLine]

/-! ### Lengths -/

/-- **C88 fails** for the length of a line in spherical coordinates: it is the thousandth part of the sum of the lengths of its segments,
kilometres instead of metres. -/
theorem length_fails (ang : P → P → R) (line : List P) :
    (segmentsLengths ang (line.zip line.tail)).sum = 1000 * length ang line := by
  unfold segmentsLengths length
  induction line.zip line.tail with
  | nil => simp
  | cons s l ih =>
    simp only [List.map_cons, List.sum_cons, ih]
    ring

/-! ### A case -/

/-- Azimuths of points on a grid, for axis-parallel segments. -/
def gridAzimuth (a b : Int × Int) : Rat :=
  if a.1 = b.1 then (if a.2 ≤ b.2 then 0 else 180) else (if a.1 ≤ b.1 then 90 else -90)

/-- North, east, south: two turns to the right. -/
example : directions gridAzimuth [(0, 0), (0, 1), (1, 1), (1, 0)] = .ok (-180) ∧ absolute gridAzimuth [(0, 0), (0, 1), (1, 1), (1, 0)] = .ok 180 ∧
    combined gridAzimuth [(0, 0), (0, 1), (1, 1), (0, 1)] = .ok (-270, 270) ∧
    segmentsDirections gridAzimuth [((0, 0), (0, 1)), ((0, 1), (1, 1)), ((1, 1), (1, 0))] [] = .ok [-90, -90] ∧
    segmentsDirections gridAzimuth [((0, 0), (0, 1)), ((0, 1), (1, 1)), ((1, 1), (1, 0))] [0, 90, 180] = .ok [-90, -90] :=
  ⟨by decide +kernel, by decide +kernel, by decide +kernel, by decide +kernel, by decide +kernel⟩

example : ∀ a b, -180 ≤ gridAzimuth a b ∧ gridAzimuth a b ≤ 180 := by
  intro a b
  unfold gridAzimuth
  split <;> split <;> decide +kernel

example : length (fun a b : Rat => (b - a) / 6371) [0, 1, 3] = 3 ∧ segmentsLengths (fun a b : Rat => (b - a) / 6371) [(0, 1), (1, 3)] = [1000, 2000] := by
  decide +kernel

end MM.Measures
