import Verif.Spec.Geometry
import Verif.Spec.Json
/-! What a geometry's extra JSON has to be for the GeoJSON writer (C18). -/
namespace Tg.Spec

open Json

/-- The extra JSON is absent, or a JSON value with white space around it. For a Feature whose geometry is null it is not an array: an array would hold members for the geometry. -/
def ExtraOk (S : List Byte → Prop) (fl : Flags) (x : Option (List Byte)) : Prop :=
  ∀ d, x = some d → ∃ n w v w', Ws w ∧ Val S n v ∧ Ws w' ∧ d = w ++ (v ++ w') ∧
    (fl.isFeature = true → fl.unlocated = true → v.head? ≠ some 0x5B#8)

mutual
/-- Every geometry inside has such extra JSON. -/
def ExtraAll (S : List Byte → Prop) : Geom → Prop
  | .gpoint fl _ _ _ x | .gline fl _ _ x | .gpoly fl _ _ x | .mpoint fl _ _ x | .mline fl _ _ x | .mpoly fl _ _ x => ExtraOk S fl x
  | .coll fl _ gs _ x => ExtraOk S fl x ∧ ExtraAlls S gs
  | _ => True
/-- Every child. -/
def ExtraAlls (S : List Byte → Prop) : List Geom → Prop
  | [] => True
  | g :: gs => ExtraAll S g ∧ ExtraAlls S gs
end

end Tg.Spec
