import Verif.Spec.Geometry
import Verif.Model.Number
import Verif.Model.WkbWrite
/-!
Specification of the texts of a geometry, given how a number is written: Well-Known Text (OGC 06-103r4 section 7.2) and the coordinates of
GeoJSON (RFC 7946 section 3.1).
-/
namespace Tg.Spec

/-- `sep` before every item. -/
def eachAfter (sep : Byte) : List (List Byte) → List Byte
  | [] => []
  | t :: ts => sep :: (t ++ eachAfter sep ts)

/-- The items with `sep` in between. -/
def join (sep : Byte) : List (List Byte) → List Byte
  | [] => []
  | t :: ts => t ++ eachAfter sep ts

/-- A list in brackets, its items separated by commas. -/
def bracket (lb rb : Byte) (ts : List (List Byte)) : List Byte := lb :: (join 0x2C#8 ts ++ [rb])

namespace Wkt
variable (num : F64 → List Byte)

/-- `1 2` -/
def posn (p : List F64) : List Byte := join 0x20#8 (p.map num)
/-- `(1 2,3 4)` -/
def series (ps : List (List F64)) : List Byte := bracket 0x28#8 0x29#8 (ps.map (posn num))
/-- `((1 2,3 4),(5 6,7 8))` -/
def nested (rs : List (List (List F64))) : List Byte := bracket 0x28#8 0x29#8 (rs.map (series num))
/-- A list of polygons. -/
def nested2 (ps : List (List (List (List F64)))) : List Byte := bracket 0x28#8 0x29#8 (ps.map (nested num))

/-- The tag: with M only, the name alone would not tell what the third coordinate is. -/
def tag (name : String) (z m : Bool) : List Byte := txt name ++ (if m && !z then txt " M" else [])

/-- ` EMPTY` instead of an empty list. -/
def body {α : Type} (f : List α → List Byte) (l : List α) : List Byte := if l.isEmpty then txt " EMPTY" else f l

mutual
/-- The text of a geometry. -/
def text : GV → List Byte
  | .point z m (some p) => tag "POINT" z m ++ series num [p]
  | .point z m none => tag "POINT" z m ++ txt " EMPTY"
  | .line z m ps => tag "LINESTRING" z m ++ body (series num) ps
  | .poly z m rs => tag "POLYGON" z m ++ body (nested num) rs
  | .mpoint z m ps => tag "MULTIPOINT" z m ++ body (series num) ps
  | .mline z m ls => tag "MULTILINESTRING" z m ++ body (nested num) ls
  | .mpoly z m ps => tag "MULTIPOLYGON" z m ++ body (nested2 num) ps
  | .coll gs => tag "GEOMETRYCOLLECTION" false false ++ body (bracket 0x28#8 0x29#8) (texts gs)
/-- The texts of the members. -/
def texts : List GV → List (List Byte)
  | [] => []
  | v :: vs => text v :: texts vs
end

end Wkt
end Tg.Spec

namespace Tg.Spec

mutual
/-- No line or polygon is a NULL pointer, unless the geometry is marked as empty. -/
def NoNull : Geom → Prop
  | .gline fl l _ _ => fl.isEmpty = true ∨ l ≠ none
  | .gpoly fl p _ _ => fl.isEmpty = true ∨ p ≠ none
  | .mline _ ls _ _ => none ∉ ls.getD []
  | .mpoly _ ps _ _ => none ∉ ps.getD []
  | .coll _ hasMulti gs _ _ => hasMulti = false ∨ NoNulls gs
  | _ => True
/-- `NoNull` for every child. -/
def NoNulls : List Geom → Prop
  | [] => True
  | g :: gs => NoNull g ∧ NoNulls gs
end

mutual
/-- A line without points is marked as empty. -/
def Filled : Geom → Prop
  | .line _ pts => pts ≠ []
  | .gline fl l _ _ => fl.isEmpty = true ∨ l ≠ some []
  | .coll fl hasMulti gs _ _ => fl.isEmpty = true ∨ hasMulti = false ∨ Filleds gs
  | _ => True
/-- `Filled` for every child. -/
def Filleds : List Geom → Prop
  | [] => True
  | g :: gs => Filled g ∧ Filleds gs
end

end Tg.Spec

namespace Tg.Spec

/-- What a text writer must leave behind: `w` is the state after it wrote the text `t` into `dst` with room for `n` bytes. The count is the length of the
whole text, the memory holds the longest part of it that leaves room for the null byte, and nothing at or after `n` is touched. -/
def Written (dst : List Byte) (n : Nat) (t : List Byte) (w : Wr) : Prop :=
  w.ub = false ∧ w.count = t.length ∧ w.dst.length = dst.length ∧
  (0 < n → w.dst.take (min t.length (n - 1) + 1) = t.take (n - 1) ++ [0#8]) ∧ w.dst.drop n = dst.drop n

namespace Geojson
variable (num : F64 → List Byte)

/-- `[1,2]` -/
def posn (p : List F64) : List Byte := bracket 0x5B#8 0x5D#8 (p.map num)
/-- `[[1,2],[3,4]]` -/
def series (ps : List (List F64)) : List Byte := bracket 0x5B#8 0x5D#8 (ps.map (posn num))
/-- A list of series. -/
def nested (rs : List (List (List F64))) : List Byte := bracket 0x5B#8 0x5D#8 (rs.map (series num))
/-- A list of polygons. -/
def nested2 (ps : List (List (List (List F64)))) : List Byte := bracket 0x5B#8 0x5D#8 (ps.map (nested num))
/-- A geometry object, RFC 7946 section 3.1. -/
def obj (name member : String) (c : List Byte) : List Byte :=
  txt "{\"type\":\"" ++ (txt name ++ (txt "\",\"" ++ (txt member ++ (txt "\":" ++ (c ++ txt "}")))))

mutual
/-- The text of a geometry. -/
def text : GV → List Byte
  | .point _ _ (some p) => obj "Point" "coordinates" (posn num p)
  | .point _ _ none => obj "Point" "coordinates" (txt "[]")
  | .line _ _ ps => obj "LineString" "coordinates" (series num ps)
  | .poly _ _ rs => obj "Polygon" "coordinates" (nested num rs)
  | .mpoint _ _ ps => obj "MultiPoint" "coordinates" (series num ps)
  | .mline _ _ ls => obj "MultiLineString" "coordinates" (nested num ls)
  | .mpoly _ _ ps => obj "MultiPolygon" "coordinates" (nested2 num ps)
  | .coll gs => obj "GeometryCollection" "geometries" (bracket 0x5B#8 0x5D#8 (texts gs))
/-- The texts of the members. -/
def texts : List GV → List (List Byte)
  | [] => []
  | v :: vs => text v :: texts vs
end
end Geojson

/-- Neither a Feature nor extra members. -/
def BareFlags (fl : Flags) (x : Option (List Byte)) : Prop := fl.isFeature = false ∧ fl.isFeatureCol = false ∧ x = none

mutual
/-- A geometry without Features and extra members, where what is marked as empty has no children. -/
def Bare : Geom → Prop
  | .point fl _ | .line fl _ | .poly fl _ => BareFlags fl none
  | .gpoint fl _ _ _ x | .gline fl _ _ x | .gpoly fl _ _ x => BareFlags fl x
  | .mpoint fl ps _ x => BareFlags fl x ∧ (fl.isEmpty = true → ps.getD [] = [])
  | .mline fl ls _ x => BareFlags fl x ∧ (fl.isEmpty = true → ls.getD [] = [])
  | .mpoly fl ps _ x => BareFlags fl x ∧ (fl.isEmpty = true → ps.getD [] = [])
  | .coll fl hasMulti gs _ x => BareFlags fl x ∧ (fl.isEmpty = true → hasMulti = false ∨ gs = []) ∧ Bares gs
  | .err _ => False
/-- `Bare` for every child. -/
def Bares : List Geom → Prop
  | [] => True
  | g :: gs => Bare g ∧ Bares gs
end

end Tg.Spec
