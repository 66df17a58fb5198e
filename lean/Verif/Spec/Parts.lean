import Verif.Spec.Geometry
import Verif.Spec.Shape
import Verif.Spec.Double
/-! The set of points that a geometry, as a user sees it, stands for: the union of its points, lines and polygons, with the values of its doubles. -/
namespace Tg.Spec

open Double (val)

/-- The first two coordinates of a position. -/
def posPt (p : List F64) : S.Pt ℚ := ⟨val (p.getD 0 0), val (p.getD 1 0)⟩

variable (e : S.Env) (ix : BitVec 32)

/-- The positions of a line or ring; `e` and `ix` are what else is given to the constructors and do not matter for the set of points. -/
def seriesOf (ps : List (List F64)) : S.Series ℚ := ⟨e, ix, ps.map posPt⟩

/-- A polygon of rings, the first is the exterior. -/
def polyParts : List (List (List F64)) → List (S.AShape ℚ)
  | [] => []
  | r :: rs => [.poly (seriesOf e ix r) (rs.map (seriesOf e ix))]

mutual
/-- The points, lines and polygons of a geometry. -/
def parts : GV → List (S.AShape ℚ)
  | .point _ _ none => []
  | .point _ _ (some p) => [.point (posPt p)]
  | .line _ _ ps => [.line (seriesOf e ix ps)]
  | .poly _ _ rs => polyParts e ix rs
  | .mpoint _ _ ps => ps.map fun p => .point (posPt p)
  | .mline _ _ ls => ls.map fun ps => .line (seriesOf e ix ps)
  | .mpoly _ _ ps => ps.flatMap (polyParts e ix)
  | .coll gs => partss gs
/-- Those of all members. -/
def partss : List GV → List (S.AShape ℚ)
  | [] => []
  | g :: gs => parts g ++ partss gs
end

/-- The points of the geometry. -/
def Covers (v : GV) (w : S.Pt ℚ) : Prop := ∃ x ∈ parts S.Env.initial 0 v, x.Has w

end Tg.Spec
