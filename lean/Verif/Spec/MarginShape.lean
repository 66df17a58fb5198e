import Verif.Spec.Margin
import Verif.Spec.Shared
/-! Points that are not too near to the lines and rings of a shape. -/
namespace Tg.S

/-- The point is outside of the heights of the ring, or below its top by a millionth of its height, or each segment of the ring has a part that is. -/
def NotTop (pts : List (Pt ℚ)) (p : Pt ℚ) : Prop :=
  ∃ hi ∈ pts, ∃ lo ∈ pts, (∀ q ∈ pts, lo.y ≤ q.y ∧ q.y ≤ hi.y) ∧
    (hi.y < p.y ∨ p.y ≤ hi.y - (hi.y - lo.y) / 2 ^ 20 ∨ ∀ s ∈ segments pts true, min s.a.y s.b.y ≤ hi.y - (hi.y - lo.y) / 2 ^ 20)

/-- A closed ring of usual doubles, and the point is clear of each of its segments. -/
structure RingClear (M : ℚ) (s : Series ℚ) (p : Pt ℚ) : Prop where
  closed : Closed s
  usual : ∀ q ∈ s.pts, UsualPt M q
  clear : ∀ t ∈ segments s.pts true, Clear M t p
  top : NotTop s.pts p

/-- The point is clear of the segments of the shape. -/
def AShape.ClearOf (M : ℚ) (p : Pt ℚ) : AShape ℚ → Prop
  | .point _ => True
  | .line s => (∀ q ∈ s.pts, UsualPt M q) ∧ ∀ t ∈ edges s.pts, Clear M t p
  | .poly ext holes => ∀ s ∈ ext :: holes, RingClear M s p

end Tg.S
