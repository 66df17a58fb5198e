import Verif.Spec.Shape
import Verif.Spec.Interior
/-! Translations of the plane, and maps of shapes point by point. -/
namespace Tg.S

variable {K : Type*} [Field K] [LinearOrder K] [IsStrictOrderedRing K]

/-- The point, moved. -/
def Pt.shift (d p : Pt K) : Pt K := ⟨p.x + d.x, p.y + d.y⟩

/-- The images of the points, in the same order. -/
def Series.Maps (g : Pt K → Pt K) (s t : Series K) : Prop := t.pts = s.pts.map g

/-- The image of the shape, by its vertices; options and environments of the series are free. -/
def AShape.Maps (g : Pt K → Pt K) : AShape K → AShape K → Prop
  | .point p, .point q => q = g p
  | .line s, .line t => s.Maps g t
  | .poly s hs, .poly t ks => s.Maps g t ∧ List.Forall₂ (Series.Maps g) hs ks
  | _, _ => False

end Tg.S
