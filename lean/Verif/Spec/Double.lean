import Verif.Model.Bytes
import Mathlib.Data.Rat.Defs
import Mathlib.Algebra.Order.Field.Rat
/-! The doubles of IEEE 754: their values, and rounding a rational number to a double (to the nearest, of two to the even one). -/
namespace Tg.Spec.Double

/-- The fields: 52 bits of fraction, 11 bits of exponent, the sign. -/
def frac (x : F64) : ℕ := x.toNat % 2 ^ 52
def expo (x : F64) : ℕ := x.toNat / 2 ^ 52 % 2 ^ 11
def neg (x : F64) : Bool := decide (2 ^ 63 ≤ x.toNat)

/-- Neither infinite nor NaN. -/
def IsFinite (x : F64) : Prop := expo x < 2047

/-- The significand. -/
def sig (x : F64) : ℕ := if expo x = 0 then frac x else 2 ^ 52 + frac x

/-- The absolute value, in units of `2 ^ -1074`. -/
def units (x : F64) : ℕ := sig x * 2 ^ (expo x - 1)

/-- The value of a finite double. -/
def val (x : F64) : ℚ := (if neg x then -1 else 1) * (units x / 2 ^ 1074)

/-- `q` is not out of range, no finite double is nearer to it than `x`, and if another one is as near, then the significand of `x` is even. -/
def Rounds (q : ℚ) (x : F64) : Prop :=
  |q| < (2 ^ 54 - 1) * 2 ^ 970 ∧ IsFinite x ∧ ∀ y, IsFinite y → |q - val x| ≤ |q - val y| ∧ (|q - val x| = |q - val y| → val x = val y ∨ sig x % 2 = 0)

/-- `rnd` rounds to the nearest double. -/
def Rounding (rnd : ℚ → F64) : Prop := ∀ q, |q| < (2 ^ 54 - 1) * 2 ^ 970 → Rounds q (rnd q)

end Tg.Spec.Double
