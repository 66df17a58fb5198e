import Verif.Model.Geom
import Verif.Spec.Shape
import Verif.Spec.Double
/-!
From the geometry objects of the codecs (`Geom`, a value) to what the predicates work on (`S.Geo`, made of an `S.Shape`): the same `struct tg_geom`.
The constructors that the parsers call are given the points, the environment `e` and the index option `ix` of the parser.
-/
namespace Tg

open Spec.Double (val)

/-- `struct tg_point`, with the values of its doubles. -/
def Pt.rat (p : Pt) : S.Pt ℚ := ⟨val p.x, val p.y⟩

variable (e : S.Env) (ix : BitVec 32)

/-- The points given to `tg_ring_new_ix` or `tg_line_new_ix`, tg.c:2143-2221, 2271-2275, 3312-3316. -/
def made (pts : List Pt) : S.Series ℚ := ⟨e, ix, pts.map Pt.rat⟩

/-- `tg_poly_new`, tg.c:3754-3784. -/
def Poly.shape (p : Poly) : S.Shape ℚ := .atom (.poly (made e ix p.ext) (p.holes.map (made e ix)))

mutual
/-- The objects of tg.c:585-750. A `struct tg_geom` of type point, linestring or polygon is one that has no points if it is flagged `IS_EMPTY`; without
the flag, a pointer that is NULL is `null`. The children of a multi that is NULL, or that is flagged, are none. -/
def Geom.shape : Geom → S.Shape ℚ
  | .point _ p => .atom (.point p.rat)
  | .line _ pts => .atom (.line (made e ix pts))
  | .poly _ pl => pl.shape e ix
  | .gpoint fl p _ _ _ => if fl.isEmpty then .empty else .atom (.point p.rat)
  | .gline fl l _ _ => if fl.isEmpty then .empty else match l with
    | none => .null
    | some pts => .atom (.line (made e ix pts))
  | .gpoly fl p _ _ => if fl.isEmpty then .empty else match p with
    | none => .null
    | some pl => pl.shape e ix
  | .mpoint fl ps _ _ => .coll (if fl.isEmpty then [] else (ps.getD []).map fun p => .atom (.point p.rat))
  | .mline fl ls _ _ => .coll (if fl.isEmpty then [] else (ls.getD []).map fun l => match l with
    | none => .null
    | some pts => .atom (.line (made e ix pts)))
  | .mpoly fl ps _ _ => .coll (if fl.isEmpty then [] else (ps.getD []).map fun p => match p with
    | none => .null
    | some pl => pl.shape e ix)
  | .coll fl hasMulti gs _ _ => .coll (if !hasMulti || fl.isEmpty then [] else Geom.shapes gs)
  | .err _ => .null
/-- The children. -/
def Geom.shapes : List Geom → List (S.Shape ℚ)
  | [] => []
  | g :: gs => g.shape :: Geom.shapes gs
end

end Tg
