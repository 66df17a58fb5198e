import Verif.Model.Series
import Mathlib.Algebra.Order.Field.Rat
import Mathlib.Algebra.Order.Group.Unbundled.Abs
/-! Fixed-point coordinates. -/
namespace Tg.S

/-- The multiples of `2 ^ k` by integers of up to 24 bits. -/
def OnGrid (k : ℤ) (x : ℚ) : Prop := ∃ n : ℤ, |n| ≤ 2 ^ 24 ∧ x = n * 2 ^ k

/-- A point with such coordinates. -/
def GridPt (k : ℤ) (p : Pt ℚ) : Prop := OnGrid k p.x ∧ OnGrid k p.y

/-- A segment between such points. -/
def GridSeg (k : ℤ) (s : Seg ℚ) : Prop := GridPt k s.a ∧ GridPt k s.b

/-- The integers are small enough for the sum over the edges that gives area and orientation: with up to `M` in absolute value, four times their square
for each of the points stays below `2 ^ 53`. -/
def SumOk (k : ℤ) (pts : List (Pt ℚ)) : Prop :=
  ∃ M : ℤ, M ≤ 2 ^ 24 ∧ (∀ p ∈ pts, (∃ n : ℤ, |n| ≤ M ∧ p.x = n * 2 ^ k) ∧ ∃ n : ℤ, |n| ≤ M ∧ p.y = n * 2 ^ k) ∧ pts.length * (4 * M ^ 2) ≤ 2 ^ 53

end Tg.S
