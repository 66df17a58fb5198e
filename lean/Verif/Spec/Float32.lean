import Mathlib.Data.Rat.Defs
import Mathlib.Algebra.Order.Field.Rat
/-! The 32-bit floats of IEEE 754, and rounding a rational number to a float. -/
namespace Tg.Spec.Float32

/-- A finite float: a significand of 24 bits, and an exponent of at least -149 and at most 104 for it. -/
def IsF32 (q : ℚ) : Prop := ∃ n j : ℤ, |n| < 2 ^ 24 ∧ -149 ≤ j ∧ j ≤ 104 ∧ q = n * 2 ^ j

/-- The number that stands for the infinity: larger than all doubles. -/
def inf : ℚ := 2 ^ 1100

/-- `r` rounds to a nearest float, and to the infinities out of range. Of two floats that are as near it may choose any. -/
structure Rounding (r : ℚ → ℚ) : Prop where
  float : ∀ q, |q| < (2 ^ 25 - 1) * 2 ^ 103 → IsF32 (r q)
  near : ∀ q, |q| < (2 ^ 25 - 1) * 2 ^ 103 → ∀ z, IsF32 z → |q - r q| ≤ |q - z|
  large : ∀ q, (2 ^ 25 - 1) * 2 ^ 103 ≤ q → r q = inf
  small : ∀ q, q ≤ -((2 ^ 25 - 1) * 2 ^ 103) → r q = -inf

end Tg.Spec.Float32
