import Verif.Spec.Shape
/-! The interior of a shape, and shapes without empty parts. -/
namespace Tg.S

variable {K : Type*} [Field K] [LinearOrder K] [IsStrictOrderedRing K]

/-- The interior of a simple shape: of a line all but its two ends, of a polygon what is inside of the exterior and neither inside nor on a hole. -/
def AShape.Inner : AShape K → Pt K → Prop
  | .point p, w => w = p
  | .line s, w => OnBoundary (edges s.pts) w ∧ s.pts.head? ≠ some w ∧ s.pts.getLast? ≠ some w
  | .poly ext holes, w => Inside ext.segs w ∧ ∀ h ∈ holes, ¬ InRegion h.segs w

/-- The boundary: the points of the shape that are not in its interior. -/
def AShape.Rim (x : AShape K) (w : Pt K) : Prop := x.Has w ∧ ¬ x.Inner w

mutual
/-- No part of the shape is without points. -/
def Shape.NoEmpty : Shape K → Prop
  | .null => False
  | .empty => False
  | .atom a => ∃ w, a.Has w
  | .coll cs => cs ≠ [] ∧ Shape.AllNoEmpty cs

/-- No part of the shapes is without points. -/
def Shape.AllNoEmpty : List (Shape K) → Prop
  | [] => True
  | c :: cs => c.NoEmpty ∧ Shape.AllNoEmpty cs
end

/-- The shape is not a polygon. -/
def AShape.Thin : AShape K → Prop
  | .poly _ _ => False
  | _ => True

end Tg.S
