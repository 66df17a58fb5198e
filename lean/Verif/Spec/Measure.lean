import Verif.Spec.Distance
import Mathlib.Analysis.SpecialFunctions.Trigonometric.Basic
/-! Length, area and the score of Polsby and Popper. -/
namespace Tg.Spec

open S

/-- The length of a line or of the boundary of a ring. -/
noncomputable def perimeter (pts : List (Pt ℝ)) (closed : Bool) : ℝ := ((segments pts closed).map fun s => euclid s.a s.b).sum

/-- The area over the area of the disk whose boundary is as long. -/
noncomputable def polsbyPopper (area perim : ℝ) : ℝ := area / (Real.pi * (perim / (2 * Real.pi)) ^ 2)

end Tg.Spec
