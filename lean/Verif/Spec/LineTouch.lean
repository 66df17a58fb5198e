import Verif.Spec.Shape
/-! Lines that meet at single points, and pass through their ends only at their ends. -/
namespace Tg.S

variable {K : Type*} [Field K] [LinearOrder K] [IsStrictOrderedRing K]

/-- The point is the start or the end of the line. -/
def IsEnd (pts : List (Pt K)) (w : Pt K) : Prop := pts.head? = some w ∨ pts.getLast? = some w

/-- The line is at its start only in its first segment, and at its end only in its last; if it is closed, then in one of the two. -/
def EndsOnce (pts : List (Pt K)) : Prop := ∀ (i : Nat) (s : Seg K) (w : Pt K), (edges pts)[i]? = some s → OnSeg s w → IsEnd pts w →
  (i = 0 ∧ pts.head? = some w) ∨ (i + 1 = (edges pts).length ∧ pts.getLast? = some w)

/-- A segment of one and a segment of the other have at most one point in common. -/
def NoOverlap (pts qts : List (Pt K)) : Prop := ∀ s ∈ edges pts, ∀ t ∈ edges qts, ∀ u v, OnSeg s u → OnSeg t u → OnSeg s v → OnSeg t v → u = v

/-- Neighbouring points differ. -/
def NoRepeat (pts : List (Pt K)) : Prop := ∀ s ∈ edges pts, s.a ≠ s.b

end Tg.S
