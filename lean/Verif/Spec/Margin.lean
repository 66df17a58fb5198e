import Verif.Spec.Plane
import Verif.Spec.Double
/-! Points that are not too near to a line, for coordinates that are any doubles of usual size. -/
namespace Tg.S

open Tg.Spec.Double

/-- A double of absolute value at most `M` that is zero or not tiny. -/
def Usual (M x : ℚ) : Prop := (∃ d : F64, IsFinite d ∧ val d = x) ∧ (x = 0 ∨ 1 / 2 ^ 100 ≤ |x|) ∧ |x| ≤ M

def UsualPt (M : ℚ) (p : Pt ℚ) : Prop := Usual M p.x ∧ Usual M p.y

def UsualSeg (M : ℚ) (s : Seg ℚ) : Prop := UsualPt M s.a ∧ UsualPt M s.b

/-- Twice the area of the triangle of the segment and the point; the point is to the left of the segment if it is positive. -/
def cross (s : Seg ℚ) (p : Pt ℚ) : ℚ := (s.b.x - s.a.x) * (p.y - s.a.y) - (s.b.y - s.a.y) * (p.x - s.a.x)

/-- The distance of the point from the line through the segment is more than `M / 2 ^ 46`. (The sum of the width and the height is at least the length
of the segment, and the distance times the length is the absolute value of the product.) For degrees, `M = 180`, that is less than `10 ^ -11`. -/
def Off (M : ℚ) (s : Seg ℚ) (p : Pt ℚ) : Prop := M * (|s.b.x - s.a.x| + |s.b.y - s.a.y|) / 2 ^ 46 < |cross s p|

/-- The point is away from the line, or comparisons tell where it is: it is an end of the segment, or the segment is parallel to an axis, or the point is
not in the rectangle of the segment, nor at the height of its upper end and to the left of it. -/
def Clear (M : ℚ) (s : Seg ℚ) (p : Pt ℚ) : Prop :=
  Off M s p ∨ p = s.a ∨ p = s.b ∨ s.a.x = s.b.x ∨ s.a.y = s.b.y ∨ (¬ InBox s p ∧ (p.x < s.a.x ∧ p.x < s.b.x → p.y ≠ max s.a.y s.b.y))

/-- The ends of each segment are away from the line of the other one, or comparisons tell whether the segments meet: they share an end, or their
rectangles have no point in common. -/
def Apart (M : ℚ) (s t : Seg ℚ) : Prop :=
  (Off M s t.a ∧ Off M s t.b ∧ Off M t s.a ∧ Off M t s.b) ∨ (s.a = t.a ∨ s.a = t.b ∨ s.b = t.a ∨ s.b = t.b) ∨ ∀ p, ¬ (InBox s p ∧ InBox t p)

end Tg.S
