import Verif.Spec.Wkt
import Verif.Spec.Text
/-!
What a caller of a parser may rely on.
-/
namespace Tg.Spec
open Wkt

/-- The object shows a geometry, each position of which has as many coordinates as Z and M say; lines have two or more positions, rings three or more and are closed, polygons of a
MultiPolygon have an exterior; and there is no NULL pointer and no line without points that is not marked as empty. -/
def Sound (g : Geom) : Prop := ∃ v, view g = some v ∧ Wf v ∧ NoNull g ∧ Filled g

mutual
/-- No ring is without points. -/
def FullRings : Geom → Prop
  | .poly _ p => [] ∉ rings p
  | .gpoly _ p _ _ => ∀ q, p = some q → [] ∉ rings q
  | .mpoly _ ps _ _ => ∀ q, some q ∈ ps.getD [] → [] ∉ rings q
  | .coll _ _ gs _ _ => FullRingss gs
  | _ => True
/-- Every child. -/
def FullRingss : List Geom → Prop
  | [] => True
  | g :: gs => FullRings g ∧ FullRingss gs
end

end Tg.Spec
