import Verif.Spec.Plane
import Mathlib.Analysis.Real.Sqrt
/-! The distance of two points of the plane. -/
namespace Tg.Spec

/-- The Euclidean distance. -/
noncomputable def euclid (p q : S.Pt ℝ) : ℝ := √((p.x - q.x) ^ 2 + (p.y - q.y) ^ 2)

end Tg.Spec
