import Verif.Model.Convert
import Mathlib.Data.List.Basic
import Mathlib.Data.List.Chain

/-!
# C52: lines, segments and reversed lines
-/

set_option autoImplicit false
set_option linter.unusedSectionVars false

namespace MM.Convert

variable {P : Type} [DecidableEq P]

theorem segmentsLoop_eq (line : List P) : ∀ fuel i, i + fuel < line.length →
    segmentsLoop line fuel i = .ok (((line.drop i).zip (line.drop (i + 1))).take fuel) := by
  intro fuel
  induction fuel with
  | zero => intro i _; simp [segmentsLoop]
  | succ fuel ih =>
    intro i h
    have h1 : i < line.length := by omega
    have h2 : i + 1 < line.length := by omega
    rw [segmentsLoop, List.getElem?_eq_getElem h1, List.getElem?_eq_getElem h2]
    simp only
    rw [ih (i + 1) (by omega), Outcome.map_ok, List.drop_eq_getElem_cons h1, List.drop_eq_getElem_cons h2, List.zip_cons_cons,
      List.take_succ_cons]

/-- **C52.**  The segments of a line are its pairs of neighbouring points, for every line. -/
theorem segments_spec (line : List P) : line2segments line = .ok (line.zip line.tail) := by
  unfold line2segments
  split
  · rename_i h
    rw [segmentsLoop_eq line _ 0 (by omega)]
    simp only [List.drop_zero, Nat.zero_add, List.drop_one]
    rw [List.take_of_length_le]
    simp only [List.length_zip, List.length_tail]
    omega
  · rename_i h
    match line, h with
    | [], _ => rfl
    | [p], _ => rfl
    | _ :: _ :: _, h => exact absurd (by simp) h

theorem foldl_add (line : List P) (pre : List P) (p : P) :
    ((p :: line).zip line).foldl addSegment (pre ++ [p]) = pre ++ p :: line := by
  induction line generalizing pre p with
  | nil => rfl
  | cons q line ih =>
    rw [List.zip_cons_cons, List.foldl_cons]
    have : addSegment (pre ++ [p]) (p, q) = (pre ++ [p]) ++ [q] := by simp [addSegment]
    rw [this, ih (pre ++ [p]) q]
    simp

/-- **C52.**  A line with at least two points is got back from its segments; a shorter one has none. -/
theorem line_back (line : List P) :
    (2 ≤ line.length → ∃ s, line2segments line = .ok s ∧ segments2line s = line) ∧ (line.length < 2 → line2segments line = .ok []) := by
  constructor
  · intro h
    refine ⟨_, segments_spec line, ?_⟩
    match line, h with
    | p :: q :: line, _ =>
      unfold segments2line
      rw [List.tail_cons, List.zip_cons_cons, List.foldl_cons]
      have := foldl_add line [p] q
      simpa [addSegment] using this
  · intro h
    rw [line2segments, if_neg (by omega)]

/-- **C52.**  Segments each of which starts where the one before ends are got back from their line. -/
theorem segments_back (s : List (P × P)) (h : s.IsChain (fun a b => a.2 = b.1)) : line2segments (segments2line s) = .ok s := by
  have key : ∀ (s : List (P × P)) (a b : P), ((a, b) :: s).IsChain (fun a b => a.2 = b.1) →
      s.foldl addSegment [a, b] = a :: b :: s.map Prod.snd ∧ (a :: b :: s.map Prod.snd).zip (b :: s.map Prod.snd) = (a, b) :: s := by
    intro s
    have hfold : ∀ (s : List (P × P)) (l : List P), l ≠ [] → s.foldl addSegment l = l ++ s.map Prod.snd := by
      intro s
      induction s with
      | nil => simp
      | cons x s ih =>
        intro l hl
        rw [List.foldl_cons, ih _ (by simp [addSegment])]
        simp [addSegment, hl]
    induction s with
    | nil => intro a b _; simp
    | cons x s ih =>
      intro a b hc
      obtain ⟨c, d⟩ := x
      rw [List.isChain_cons_cons] at hc
      obtain ⟨hbc, hc⟩ := hc
      simp only at hbc
      subst hbc
      refine ⟨by rw [hfold _ _ (by simp)]; simp, ?_⟩
      have := (ih b d hc).2
      simp only [List.map_cons, List.zip_cons_cons, List.cons.injEq, true_and] at this ⊢
      exact this
  cases s with
  | nil => rfl
  | cons x s =>
    obtain ⟨a, b⟩ := x
    have h1 := key s a b h
    rw [segments_spec, segments2line, List.foldl_cons, show addSegment [] (a, b) = [a, b] by simp [addSegment], h1.1, List.tail_cons, h1.2]

theorem reversedLoop_eq (a b : List P) : ∀ fuel i j, i + fuel = a.length → j + 1 = fuel ∨ fuel = 0 → fuel ≤ b.length →
    ∃ r, reversedLoop a b fuel i j = .ok r ∧ (r = true ↔ ∀ k, k < fuel → a[i + k]? = b[fuel - 1 - k]?) := by
  intro fuel
  induction fuel with
  | zero => intro i j _ _ _; exact ⟨true, rfl, by simp⟩
  | succ fuel ih =>
    intro i j h hj hb
    have hj' : j = fuel := by omega
    subst hj'
    have h1 : i < a.length := by omega
    have h2 : j < b.length := by omega
    rw [reversedLoop, List.getElem?_eq_getElem h1, List.getElem?_eq_getElem h2]
    simp only
    by_cases he : a[i] = b[j]
    · rw [if_pos he]
      obtain ⟨r, hr, hiff⟩ := ih (i + 1) (j - 1) (by omega) (by omega) (by omega)
      refine ⟨r, hr, ?_⟩
      rw [hiff]
      constructor
      · intro hk k hlt
        cases k with
        | zero => simp [List.getElem?_eq_getElem h1, List.getElem?_eq_getElem h2, he]
        | succ k =>
          have := hk k (by omega)
          rw [show i + (k + 1) = i + 1 + k by omega, this]
          congr 1
          omega
      · intro hk k hlt
        have := hk (k + 1) (by omega)
        rw [show i + 1 + k = i + (k + 1) by omega, this]
        congr 1
        omega
    · rw [if_neg he]
      refine ⟨false, rfl, ?_⟩
      simp only [Bool.false_eq_true, false_iff]
      intro hk
      have := hk 0 (by omega)
      simp [List.getElem?_eq_getElem h1, List.getElem?_eq_getElem h2] at this
      exact he this

/-- **C52.**  Two lines are reported as reversed exactly when they are not empty and one is the reverse of the other. -/
theorem reversed_iff (a b : List P) : ∃ r, reversed a b = .ok r ∧ (r = true ↔ a ≠ [] ∧ a = b.reverse) := by
  unfold reversed
  split
  · rename_i h
    refine ⟨false, rfl, ?_⟩
    simp only [Bool.false_eq_true, false_iff, not_and]
    rintro hne rfl
    rcases h with h | h
    · exact hne h
    · exact hne (by simp [h])
  · rename_i h
    rw [not_or] at h
    split
    · rename_i hl
      refine ⟨false, rfl, ?_⟩
      simp only [Bool.false_eq_true, false_iff, not_and]
      rintro _ rfl
      exact hl (by simp)
    · rename_i hl
      have hl : a.length = b.length := not_not.1 hl
      split
      · rename_i hends
        refine ⟨false, rfl, ?_⟩
        simp only [Bool.false_eq_true, false_iff, not_and]
        rintro _ rfl
        exact hends (by simp)
      · rename_i hends
        have hends := not_not.1 hends
        have hpos : 0 < a.length := List.length_pos_iff.2 h.1
        obtain ⟨r, hr, hiff⟩ := reversedLoop_eq a b (a.length - 1) 1 (b.length - 2) (by omega) (by omega) (by omega)
        refine ⟨r, hr, ?_⟩
        rw [hiff]
        constructor
        · intro hk
          refine ⟨h.1, ?_⟩
          apply List.ext_getElem?
          intro k
          by_cases hlt : k < a.length
          · rw [List.getElem?_reverse (by omega)]
            cases k with
            | zero =>
              rw [← List.head?_eq_getElem?, hends.1, List.getLast?_eq_getElem?]
              congr 1
            | succ k =>
              have := hk k (by omega)
              rw [show k + 1 = 1 + k by omega, this]
              congr 1
              omega
          · rw [List.getElem?_eq_none (by omega), List.getElem?_eq_none (by simp; omega)]
        · rintro ⟨_, he⟩ k hlt
          have : a[1 + k]? = b.reverse[1 + k]? := by rw [← he]
          rw [this, List.getElem?_reverse (by omega)]
          congr 1
          omega

example : line2segments [1, 2, 2, 3] = .ok [(1, 2), (2, 2), (2, 3)] ∧ segments2line [(1, 2), (2, 2), (2, 3)] = [1, 2, 2, 3] ∧
    [((1 : Nat), 2), (2, 2), (2, 3)].IsChain (fun a b => a.2 = b.1) ∧ reversed [1, 2, 2, 3] [3, 2, 2, 1] = .ok true ∧
    reversed [1, 2, 4, 3] [3, 2, 4, 1] = .ok false ∧ reversed [1] [1] = .ok true := by
  refine ⟨by decide, by decide, ?_, by decide, by decide, by decide⟩
  simp

end MM.Convert
