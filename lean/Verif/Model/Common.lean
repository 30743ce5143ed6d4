import Mathlib.Algebra.Order.Field.Basic

/-!
# Helpers for numbers (geometry/common.hpp)
-/

set_option autoImplicit false

namespace MM.Common

/-- common.hpp 56-61: `x |= x >> k`. -/
def smear (x k : Nat) : Nat := x ||| (x >>> k)

/-- common.hpp 54-64 `next_pow2` on 64-bit unsigned numbers: decrement and increment wrap around. -/
def nextPow2 (x : Nat) : Nat :=
  (smear (smear (smear (smear (smear (smear ((x + (2 ^ 64 - 1)) % 2 ^ 64) 1) 2) 4) 8) 16) 32 + 1) % 2 ^ 64

/-- common.hpp 76-84 `angle_diff`; numbers of an ordered field instead of floating point numbers. -/
def angleDiff {R : Type} [Field R] [LinearOrder R] [IsStrictOrderedRing R] (a b : R) : R :=
  if a - b ≥ 180 then a - b - 360 else if a - b ≤ -180 then a - b + 360 else a - b

/-- algorithm/buffer.hpp 79-80: number of points of the circle, for the number `n` to which a fourth of the radius is truncated. -/
def bufferPoints (n : Nat) : Nat := max (nextPow2 n) 8

end MM.Common
