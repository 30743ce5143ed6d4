import Verif.Model.Common
import Mathlib.Data.Nat.Size
import Mathlib.Tactic.Linarith
import Mathlib.Tactic.NormNum
import Mathlib.Tactic.SplitIfs
import Mathlib.Algebra.Order.Field.Rat

/-!
# C49: angles and powers of two
-/

set_option autoImplicit false
set_option linter.unusedSectionVars false

namespace MM.Common

/-! ### Angles -/

section
variable {R : Type} [Field R] [LinearOrder R] [IsStrictOrderedRing R]

/-- **C49.**  The difference of two angles at most 540 degrees apart lies between -180 and 180 degrees (both possible)... -/
theorem angle_range (a b : R) (h1 : a - b ≤ 540) (h2 : -540 ≤ a - b) : -180 ≤ angleDiff a b ∧ angleDiff a b ≤ 180 := by
  unfold angleDiff
  split_ifs with h h' <;> constructor <;> linarith

/-- **C49.**  ... and is congruent to their difference, always. -/
theorem angle_congruent (a b : R) : ∃ k : Int, (k = -1 ∨ k = 0 ∨ k = 1) ∧ angleDiff a b = a - b + 360 * (k : R) := by
  unfold angleDiff
  split_ifs
  · exact ⟨-1, by simp, by push_cast; linarith⟩
  · exact ⟨1, by simp, by push_cast; linarith⟩
  · exact ⟨0, by simp, by simp⟩

/-- **C49.**  There is no number closer to zero congruent to the difference: the smaller of both ways around. -/
theorem angle_least (a b : R) (h1 : a - b ≤ 540) (h2 : -540 ≤ a - b) (k : Int) : |angleDiff a b| ≤ |a - b + 360 * (k : R)| := by
  obtain ⟨r1, r2⟩ := angle_range a b h1 h2
  obtain ⟨m, _, hm⟩ := angle_congruent a b
  have habs : |angleDiff a b| ≤ 180 := abs_le.2 ⟨r1, r2⟩
  by_cases hk : k = m
  · subst hk
    rw [hm]
  · rcases lt_or_gt_of_ne hk with hlt | hgt
    · have : (k : R) + 1 ≤ m := by exact_mod_cast hlt
      have : a - b + 360 * (k : R) ≤ -180 := by linarith
      have := neg_le_abs (a - b + 360 * (k : R))
      linarith
    · have : (m : R) + 1 ≤ k := by exact_mod_cast hgt
      have := le_abs_self (a - b + 360 * (k : R))
      linarith

/-- Azimuths, between -180 and 180 or between 0 and 360 degrees, are near enough. -/
example (a b : R) (ha : 0 ≤ a) (ha' : a ≤ 360) (hb : 0 ≤ b) (hb' : b ≤ 360) : -180 ≤ angleDiff a b ∧ angleDiff a b ≤ 180 :=
  angle_range a b (by linarith) (by linarith)

end

example : angleDiff (170 : Rat) (-170) = -20 ∧ angleDiff (-170 : Rat) 170 = 20 ∧ angleDiff (180 : Rat) 0 = -180 ∧
    angleDiff (0 : Rat) 180 = 180 := by
  norm_num [angleDiff]

/-! ### Powers of two -/

theorem smear_bit {x y m : Nat} (h : ∀ i, x.testBit i = true ↔ ∃ j < m, y.testBit (i + j) = true) (i : Nat) :
    (smear x m).testBit i = true ↔ ∃ j < 2 * m, y.testBit (i + j) = true := by
  unfold smear
  rw [Nat.testBit_or, Bool.or_eq_true, Nat.testBit_shiftRight, h i, h (m + i)]
  constructor
  · rintro (⟨j, hj, hb⟩ | ⟨j, hj, hb⟩)
    · exact ⟨j, by omega, hb⟩
    · exact ⟨m + j, by omega, by rwa [show i + (m + j) = m + i + j by omega]⟩
  · rintro ⟨j, hj, hb⟩
    by_cases hm : j < m
    · exact Or.inl ⟨j, hm, hb⟩
    · exact Or.inr ⟨j - m, by omega, by rwa [show m + i + (j - m) = i + j by omega]⟩

theorem smear_all (y : Nat) (hy : y < 2 ^ 64) :
    smear (smear (smear (smear (smear (smear y 1) 2) 4) 8) 16) 32 = 2 ^ y.size - 1 := by
  apply Nat.eq_of_testBit_eq
  intro i
  rw [Nat.testBit_two_pow_sub_one, Bool.eq_iff_iff, decide_eq_true_iff, Nat.lt_size]
  have h0 : ∀ i, y.testBit i = true ↔ ∃ j < 1, y.testBit (i + j) = true := by
    intro i
    constructor
    · exact fun h => ⟨0, by omega, h⟩
    · rintro ⟨j, hj, h⟩
      have : j = 0 := by omega
      subst this
      exact h
  rw [smear_bit (smear_bit (smear_bit (smear_bit (smear_bit (smear_bit h0))))) i]
  constructor
  · rintro ⟨j, _, hb⟩
    exact le_trans (Nat.pow_le_pow_right (by omega) (by omega)) (Nat.ge_two_pow_of_testBit hb)
  · intro h
    obtain ⟨k, hk, hb⟩ := Nat.exists_ge_and_testBit_of_ge_two_pow h
    have hk64 : k < 64 := by
      by_contra hc
      have := Nat.testBit_lt_two_pow (lt_of_lt_of_le hy (Nat.pow_le_pow_right (by omega) (Nat.not_lt.1 hc)))
      rw [this] at hb
      exact absurd hb (by simp)
    exact ⟨k - i, by omega, by rwa [show i + (k - i) = k by omega]⟩

theorem nextPow2_eq {x : Nat} (h1 : 1 ≤ x) (h2 : x < 2 ^ 64) : nextPow2 x = 2 ^ (x - 1).size % 2 ^ 64 := by
  unfold nextPow2
  have : (x + (2 ^ 64 - 1)) % 2 ^ 64 = x - 1 := by omega
  rw [this, smear_all _ (by omega), Nat.sub_add_cancel (Nat.one_le_two_pow)]

/-- **C49.**  The least power of two not below the argument, whenever that power fits 64 bits. -/
theorem pow2_least (x : Nat) (h1 : 1 ≤ x) (h2 : x ≤ 2 ^ 63) :
    ∃ k, nextPow2 x = 2 ^ k ∧ x ≤ 2 ^ k ∧ ∀ j, x ≤ 2 ^ j → 2 ^ k ≤ 2 ^ j := by
  refine ⟨(x - 1).size, ?_, ?_, ?_⟩
  · rw [nextPow2_eq h1 (by omega)]
    have : (x - 1).size ≤ 63 := Nat.size_le.2 (by omega)
    exact Nat.mod_eq_of_lt (Nat.pow_lt_pow_right (by omega) (by omega))
  · have := Nat.lt_size_self (x - 1)
    omega
  · intro j hj
    exact Nat.pow_le_pow_right (by omega) (Nat.size_le.2 (by omega))

/-- **C49.**  If no power of two not below the argument fits, or the argument is zero, the result is zero. -/
theorem pow2_zero (x : Nat) (h2 : x < 2 ^ 64) (h : x = 0 ∨ 2 ^ 63 < x) : nextPow2 x = 0 := by
  rcases h with rfl | h
  · decide
  · rw [nextPow2_eq (by omega) h2]
    have h64 : (x - 1).size = 64 := by
      apply Nat.le_antisymm (Nat.size_le.2 (by omega))
      have : 63 < (x - 1).size := Nat.lt_size.2 (by omega)
      omega
    rw [h64]
    omega

/-- **C49.**  The circle around a point has at least eight points, a power of two, and at least a point per four units of radius while
that fits. -/
theorem buffer_points (n : Nat) (h : n ≤ 2 ^ 63) : 8 ≤ bufferPoints n ∧ n ≤ bufferPoints n ∧ ∃ k, bufferPoints n = 2 ^ k := by
  unfold bufferPoints
  by_cases h0 : n = 0
  · subst h0
    exact ⟨by decide, by decide, 3, by decide⟩
  · obtain ⟨k, hk, hle, _⟩ := pow2_least n (by omega) h
    rw [hk]
    refine ⟨Nat.le_max_right _ _, Nat.le_trans hle (Nat.le_max_left _ _), ?_⟩
    by_cases h8 : 8 ≤ 2 ^ k
    · exact ⟨k, Nat.max_eq_left h8⟩
    · exact ⟨3, by rw [Nat.max_eq_right (by omega)]; rfl⟩

example : nextPow2 1 = 1 ∧ nextPow2 5 = 8 ∧ nextPow2 1024 = 1024 ∧ nextPow2 (2 ^ 62 + 1) = 2 ^ 63 ∧ nextPow2 (2 ^ 63 + 1) = 0 := by decide

end MM.Common
