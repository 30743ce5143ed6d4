import Verif.Model.View
import Mathlib.Tactic.SplitIfs

/-! # Property theorems C11 (element access through views) -/

set_option autoImplicit false

namespace MM.View

variable {γ : Type}

/-- Specification: the element at a signed position, counted from the back when negative, or an exception. -/
def expected (l : List γ) (pos : Int) : Outcome γ :=
  match (if 0 ≤ pos then l[pos.toNat]? else l.reverse[(-pos - 1).toNat]?) with
  | some x => .ok x
  | none => .throws

/-- **C11, false (1).** The first element is not accessible from the back: `at(-size)` throws (container_view.hpp
79). -/
theorem view_at_minus_size_fails : viewAt [10, 20, 30] (-3) = .throws ∧ expected [10, 20, 30] (-3) = .ok 10 := by
  decide

/-- **C11, false (2).** `at(0)` on an empty container is not checked (container_view.hpp 85). -/
theorem view_at_empty_fails : viewAt ([] : List Nat) 0 = .ub ∧ expected ([] : List Nat) 0 = .throws := by
  decide

/-- **C11, what holds for views.** Everywhere else the access is as specified.  Missing: position 0 of an empty
container and position `-size`, see the two theorems above. -/
theorem view_at_partial (l : List γ) (pos : Int) (h0 : pos = 0 → l ≠ []) (h1 : pos ≠ -(l.length : Int)) :
    viewAt l pos = expected l pos := by
  unfold viewAt expected deref
  split_ifs with h2 h3 h4 h5 h6
  · rw [List.getElem?_eq_none (by omega)]
  · omega
  · have : pos.natAbs = pos.toNat := by omega
    rw [this]
    have hlt : pos.toNat < l.length := by omega
    rw [List.getElem?_eq_getElem hlt]
  · omega
  · omega
  · rw [List.getElem?_eq_none (by rw [List.length_reverse]; omega)]
  · omega
  · have hlt : l.length - pos.natAbs < l.length := by omega
    rw [List.getElem?_reverse (by omega)]
    have : l.length - 1 - (-pos - 1).toNat = l.length - pos.natAbs := by omega
    rw [this, List.getElem?_eq_getElem hlt]
  · have hp : pos = 0 := by omega
    subst hp
    cases l with
    | nil => exact absurd rfl (h0 rfl)
    | cons a l => rfl
  · omega

/-- **C11, what holds for views: memory safety** apart from position 0 of an empty container. -/
theorem view_at_safe_partial (l : List γ) (pos : Int) (h0 : pos = 0 → l ≠ []) : viewAt l pos ≠ .ub := by
  by_cases h1 : pos = -(l.length : Int)
  · unfold viewAt deref
    split_ifs with h2 h3 h4 h5
    · simp
    · omega
    · simp
    · omega
    · cases l with
      | nil => exact absurd rfl (h0 (by simpa using h1))
      | cons a l => simp
  · rw [view_at_partial l pos h0 h1]
    unfold expected
    split <;> simp

/-- **C11, false (3), sub views.** `at` of a sub view has no check at all (container_subview.hpp 60-66): a position
behind the range gives an element that is not part of the view, a position behind the container is undefined
behaviour, and every negative position gives the first element. -/
theorem subview_at_fails :
    ∃ s : Sub Nat, mkSub [10, 20, 30, 40] 1 3 = .ok s ∧ s.elems = [20, 30] ∧ s.at 2 = .ok 40 ∧ s.at 3 = .ub ∧
      s.at (-1) = .ok 20 :=
  ⟨⟨[10, 20, 30, 40], 1, 3⟩, by decide⟩

theorem elems_get {l : List γ} {start stop : Nat} {s : Sub γ} (h : mkSub l start stop = .ok s) :
    s.elems.length = s.size ∧ s.start ≤ s.stop ∧ s.stop ≤ s.ref.length ∧
    ∀ i, s.elems[i]? = if i < s.size then s.ref[s.start + i]? else none := by
  unfold mkSub at h
  split_ifs at h with hc
  cases h
  simp only [not_or, Nat.not_lt] at hc
  refine ⟨?_, hc.2.2, hc.2.1, ?_⟩
  · simp [Sub.elems, Sub.size, Nat.min_eq_left hc.2.1]
  · intro i
    by_cases hi : i < (⟨l, start, stop⟩ : Sub γ).size
    · rw [if_pos hi]
      simp only [Sub.size] at hi
      simp only [Sub.elems, List.getElem?_drop, List.getElem?_take]
      rw [if_pos (by omega)]
    · rw [if_neg hi]
      simp only [Sub.size] at hi
      simp only [Sub.elems, List.getElem?_drop, List.getElem?_take]
      rw [if_neg (by omega)]

/-- **C11, what holds for sub views.** Positions from 0 to `size-1` give the elements of the range, `front` and `back`
give its ends or throw when it is empty, and an invalid range is refused by the constructor.  Missing: checks of
`at`, see `subview_at_fails`. -/
theorem subview_access_partial (l : List γ) (start stop : Nat) (s : Sub γ) (h : mkSub l start stop = .ok s) :
    (∀ i : Nat, i < s.size → s.at i = (match s.elems[i]? with | some x => .ok x | none => .throws) ∧ s.elems[i]? ≠ none) ∧
    s.front = (match s.elems.head? with | some x => .ok x | none => .throws) ∧
    s.back = (match s.elems.getLast? with | some x => .ok x | none => .throws) := by
  obtain ⟨h1, h2, h3, h4⟩ := elems_get h
  have hat : ∀ i : Nat, s.at i = deref s.ref (s.start + i) := by
    intro i
    unfold Sub.at
    split_ifs with hi
    · simp
    · have : i = 0 := by omega
      subst this; rfl
  have hsz : s.size = s.stop - s.start := rfl
  refine ⟨?_, ?_, ?_⟩
  · intro i hi
    rw [hat, h4, if_pos hi, deref, List.getElem?_eq_getElem (by omega)]
    simp
  · rw [List.head?_eq_getElem?, h4]
    unfold Sub.front Sub.isEmpty
    by_cases he : s.stop = s.start
    · simp [he, hsz]
    · have hne : s.ref ≠ [] := by intro hc; rw [hc] at h3; simp at h3; omega
      have hb : s.ref.isEmpty = false := by simpa using hne
      have : (s.stop == s.start) = false := by simpa using he
      have h7 : 0 < s.size := by omega
      rw [if_pos h7, hb, this]
      simp only [Bool.or_self, Bool.false_eq_true, if_false, deref, Nat.add_zero]
      rw [List.getElem?_eq_getElem (by omega)]
  · rw [List.getLast?_eq_getElem?, h4, h1]
    unfold Sub.back Sub.isEmpty
    by_cases he : s.stop = s.start
    · simp [he, hsz]
    · have hne : s.ref ≠ [] := by intro hc; rw [hc] at h3; simp at h3; omega
      have hb : s.ref.isEmpty = false := by simpa using hne
      have h5 : (s.stop == s.start) = false := by simpa using he
      have h6 : (s.stop == 0) = false := by simp; omega
      have h7 : s.size - 1 < s.size := by omega
      rw [if_pos h7, hb, h5, h6]
      simp only [Bool.or_self, Bool.false_eq_true, if_false, deref]
      have : s.start + (s.size - 1) = s.stop - 1 := by omega
      rw [this, List.getElem?_eq_getElem (by omega)]

/-- **C11.** The constructor of a sub view refuses exactly the invalid ranges. -/
theorem subview_range_checked (l : List γ) (start stop : Nat) :
    (∃ s, mkSub l start stop = .ok s) ↔ start ≤ stop ∧ stop ≤ l.length := by
  unfold mkSub
  split_ifs with h
  · simp; omega
  · simp; omega

example : viewAt [10, 20, 30] 2 = .ok 30 ∧ viewAt [10, 20, 30] (-2) = .ok 20 ∧ viewAt [10, 20, 30] 3 = .throws := by
  decide

end MM.View
