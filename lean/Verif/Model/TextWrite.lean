import Verif.Model.Geom
import Verif.Model.Number
import Verif.Model.WkbWrite
/-!
The text writers: the parts that WKT and GeoJSON share, and `tg_geom_wkt` (tg.c:12803-13278).

The functions `write_*_wkt` and `write_*_geojson` for positions, rings and polygons are the same loops with other characters
(tg.c:12803-12989 and 11339-11478). They are modelled once, with the characters as a parameter. Brackets that WKT writes in the caller and GeoJSON in the callee
are written here in the function for the whole list.
-/
namespace Tg

/-- The characters of a text format: brackets, what separates the coordinates of a position, and whether a position has brackets of its own. -/
structure Style where
  lb : Byte
  rb : Byte
  sep : Byte
  posn : Bool

/-- WKT: `(x y,x y)`, tg.c:12803-12846. -/
def Style.wkt : Style := ⟨0x28#8, 0x29#8, 0x20#8, false⟩

/-- GeoJSON: `[[x,y],[x,y]]`, tg.c:11339-11412. -/
def Style.json : Style := ⟨0x5B#8, 0x5D#8, 0x2C#8, true⟩

/-- How numbers are printed: the environment's `print_fixed_floats` and Ryu's conversion. -/
structure NumFmt where
  fixed : Bool
  d2s : F64 → List Byte

/-- `write_string_double`. -/
def NumFmt.write (nf : NumFmt) (x : F64) (w : Wr) : Wr := w.double nf.fixed nf.d2s x

/-- The coordinates of one position, `write_string_double` and a separator in turn, tg.c:12803-12829, 11341-11368. -/
def wNums (s : Style) (nf : NumFmt) : List F64 → Wr → Wr
  | [], w => w
  | [x], w => nf.write x w
  | x :: y :: xs, w => wNums s nf (y :: xs) ((nf.write x w).byte s.sep)

/-- `write_posn_wkt`, `_3`, `_4` (tg.c:12803-12829) and `write_posn_geojson`, `_3`, `_4` (tg.c:11339-11370). -/
def wPosn (s : Style) (nf : NumFmt) (xs : List F64) (w : Wr) : Wr :=
  if s.posn then (wNums s nf xs (w.byte s.lb)).byte s.rb else wNums s nf xs w

/-- `if (i > 0) write_char(wr, ',')`. -/
def wComma (first : Bool) (w : Wr) : Wr := if first then w else w.byte 0x2C#8

/-- The loop over the points of a ring or of a MultiPoint. The extra coordinates are `(j < ncoords) ? coords[j++] : 0`,
tg.c:12840-12876, 11376-11412 (rings), 13064-13087, 11560-11580 (MultiPoint). -/
def wPts (s : Style) (nf : NumFmt) (dims : Nat) : Bool → List Pt → List F64 → Wr → Wr
  | _, [], _, w => w
  | first, p :: ps, cs, w =>
    let w := wComma first w
    if dims = 3 then wPts s nf dims false ps (cs.drop 1) (wPosn s nf [p.x, p.y, cs.headD 0#64] w)
    else if dims = 4 then
      wPts s nf dims false ps (cs.drop 2) (wPosn s nf [p.x, p.y, cs.headD 0#64, (cs.drop 1).headD 0#64] w)
    else wPts s nf dims false ps cs (wPosn s nf [p.x, p.y] w)

/-- A bracketed list of points: `write_ring_points_wkt`, `_3`, `_4` with the brackets of their callers (tg.c:12838-12876),
`write_ring_points_geojson`, `_3`, `_4` (tg.c:11372-11412). -/
def wRing (s : Style) (nf : NumFmt) (dims : Nat) (pts : List Pt) (cs : List F64) (w : Wr) : Wr :=
  (wPts s nf dims true pts cs (w.byte s.lb)).byte s.rb

/-- The exterior and the holes of `write_poly_points_wkt`, `_3`, `_4` (tg.c:12893-12976) and `write_poly_points_geojson`, `_3`, `_4` (tg.c:11414-11478);
`ncoords` and `pcoords` move as in `advCoords`. -/
def wRings (s : Style) (nf : NumFmt) (dims : Nat) : Bool → List (List Pt) → List F64 → Wr → Wr
  | _, [], _, w => w
  | first, r :: rs, cs, w => wRings s nf dims false rs (advCoords dims r.length cs) (wRing s nf dims r cs (wComma first w))

/-- A polygon in brackets. -/
def wPoly (s : Style) (nf : NumFmt) (dims : Nat) (pl : Poly) (cs : List F64) (w : Wr) : Wr :=
  (wRings s nf dims true (pl.ext :: pl.holes) cs (w.byte s.lb)).byte s.rb

/-- The loop over the lines of a MultiLineString, tg.c:13108-13135, 11597-11619. A NULL child is dereferenced. -/
def wLines (s : Style) (nf : NumFmt) (dims : Nat) : Bool → List (Option (List Pt)) → List F64 → Wr → Wr
  | _, [], _, w => w
  | _, none :: _, _, w => w.overflow
  | first, some l :: ls, cs, w => wLines s nf dims false ls (advCoords dims l.length cs) (wRing s nf dims l cs (wComma first w))

/-- The loop over the polygons of a MultiPolygon, tg.c:13154-13182, 11633-11656. A NULL child is dereferenced.
With two dimensions the returned count of points leaves out the exterior, but then it is not used. -/
def wPolys (s : Style) (nf : NumFmt) (dims : Nat) : Bool → List (Option Poly) → List F64 → Wr → Wr
  | _, [], _, w => w
  | _, none :: _, _, w => w.overflow
  | first, some p :: ps, cs, w => wPolys s nf dims false ps (advCoords dims p.npoints cs) (wPoly s nf dims p cs (wComma first w))

/-- The three bodies of a multi geometry in brackets. -/
def wMPoint (s : Style) (nf : NumFmt) (dims : Nat) (ps : List Pt) (cs : List F64) (w : Wr) : Wr :=
  (wPts s nf dims true ps cs (w.byte s.lb)).byte s.rb
def wMLine (s : Style) (nf : NumFmt) (dims : Nat) (ls : List (Option (List Pt))) (cs : List F64) (w : Wr) : Wr :=
  (wLines s nf dims true ls cs (w.byte s.lb)).byte s.rb
def wMPoly (s : Style) (nf : NumFmt) (dims : Nat) (ps : List (Option Poly)) (cs : List F64) (w : Wr) : Wr :=
  (wPolys s nf dims true ps cs (w.byte s.lb)).byte s.rb

/-- The coordinates of a TG_POINT of `struct tg_geom` by its flags, tg.c:13001-13012, 11487-11497. -/
def pointNums (fl : Flags) (p : Pt) (z m : F64) : List F64 :=
  if fl.hasZ then (if fl.hasM then [p.x, p.y, z, m] else [p.x, p.y, z])
  else if fl.hasM then [p.x, p.y, m]
  else [p.x, p.y]

/-- The name and `write_zm_def_wkt`, tg.c:12984-12991. -/
def wktHead (name : String) (fl : Flags) (w : Wr) : Wr :=
  let w := w.bytes (txt name)
  if fl.hasM && !fl.hasZ then w.bytes (txt " M") else w

mutual
/-- `write_geom_wkt` and the functions it dispatches to, tg.c:12831-13250. -/
def writeWkt (nf : NumFmt) : Geom → Wr → Wr
  -- write_point_wkt, tg.c:12831-12837
  | .point _ p, w => (wPosn .wkt nf [p.x, p.y] (w.bytes (txt "POINT("))).byte 0x29#8
  -- write_line_wkt, tg.c:12879-12884
  | .line _ pts, w => wRing .wkt nf 2 pts [] (w.bytes (txt "LINESTRING"))
  -- write_ring_wkt, write_poly_wkt, tg.c:12886-12890, 12978-12982
  | .poly _ pl, w => wPoly .wkt nf 2 pl [] (w.bytes (txt "POLYGON"))
  -- write_geom_point_wkt, tg.c:12993-13015
  | .gpoint fl p z m _, w =>
    if fl.isEmpty then (wktHead "POINT" fl w).bytes (txt " EMPTY")
    else (wPosn .wkt nf (pointNums fl p z m) ((wktHead "POINT" fl w).byte 0x28#8)).byte 0x29#8
  -- write_geom_linestring_wkt, tg.c:13017-13041
  | .gline fl l cs _, w =>
    if fl.isEmpty then (wktHead "LINESTRING" fl w).bytes (txt " EMPTY")
    else match l with
      | none => w.overflow            -- NULL dereference
      | some pts => wRing .wkt nf fl.dims pts cs (wktHead "LINESTRING" fl w)
  -- write_geom_polygon_wkt, tg.c:13043-13067
  | .gpoly fl p cs _, w =>
    if fl.isEmpty then (wktHead "POLYGON" fl w).bytes (txt " EMPTY")
    else match p with
      | none => w.overflow            -- NULL dereference
      | some pl => wPoly .wkt nf fl.dims pl cs (wktHead "POLYGON" fl w)
  -- write_geom_multipoint_wkt, tg.c:13069-13104
  | .mpoint fl ps cs _, w =>
    if fl.isEmpty || (ps.getD []).isEmpty then (wktHead "MULTIPOINT" fl w).bytes (txt " EMPTY")
    else wMPoint .wkt nf fl.dims (ps.getD []) cs (wktHead "MULTIPOINT" fl w)
  -- write_geom_multilinestring_wkt, tg.c:13106-13149
  | .mline fl ls cs _, w =>
    if fl.isEmpty || (ls.getD []).isEmpty then (wktHead "MULTILINESTRING" fl w).bytes (txt " EMPTY")
    else wMLine .wkt nf fl.dims (ls.getD []) cs (wktHead "MULTILINESTRING" fl w)
  -- write_geom_multipolygon_wkt, tg.c:13151-13193
  | .mpoly fl ps cs _, w =>
    if fl.isEmpty || (ps.getD []).isEmpty then (wktHead "MULTIPOLYGON" fl w).bytes (txt " EMPTY")
    else wMPoly .wkt nf fl.dims (ps.getD []) cs (wktHead "MULTIPOLYGON" fl w)
  -- write_geom_geometrycollection_wkt, tg.c:13197-13215
  | .coll fl hasMulti gs _ _, w =>
    if fl.isEmpty || !hasMulti || gs.isEmpty then (wktHead "GEOMETRYCOLLECTION" fl w).bytes (txt " EMPTY")
    else (writeWkts nf true gs ((wktHead "GEOMETRYCOLLECTION" fl w).byte 0x28#8)).byte 0x29#8
  -- an error geometry is an empty TG_POINT (tg.c:7785-7791)
  | .err _, w => w.bytes (txt "POINT EMPTY")
/-- The loop over the children, tg.c:13210-13213. -/
def writeWkts (nf : NumFmt) : Bool → List Geom → Wr → Wr
  | _, [], w => w
  | first, g :: gs, w => writeWkts nf false gs (writeWkt nf g (wComma first w))
end

/-- `tg_geom_wkt(geom, dst, n)` for a non-NULL geometry, tg.c:13272-13278. -/
def tgGeomWkt (nf : NumFmt) (g : Geom) (dst : List Byte) (n : Nat) : Wr :=
  (writeWkt nf g ⟨dst, n, 0, false⟩).nullterm

end Tg
