import Verif.Model.Circle
/-!
Regular polygons.
-/
namespace Tg.Spec

open S

/-- Corner `i` of the regular polygon with `n` corners on the circle. -/
noncomputable def corner (center : Pt ℝ) (r : ℝ) (n i : Nat) : Pt ℝ :=
  ⟨center.x + r * Real.cos (2 * Real.pi * i / n), center.y + r * Real.sin (2 * Real.pi * i / n)⟩

/-- The regular polygon: all corners counterclockwise from the one to the right, and the first one again. -/
noncomputable def regularPolygon (center : Pt ℝ) (r : ℝ) (n : Nat) : List (Pt ℝ) :=
  (List.range n).map (corner center r n) ++ [corner center r n 0]

end Tg.Spec
