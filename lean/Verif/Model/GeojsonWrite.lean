import Verif.Model.TextWrite
import Verif.Model.JsonNav
/-!
`tg_geom_geojson`: tg.c:11480-11895.
-/
namespace Tg

/-- `{"type":"...","coordinates":` -/
def gjHead (name : String) : List Byte := txt ("{\"type\":\"" ++ name ++ "\",\"coordinates\":")

/-- The two structures taken from the extra JSON, tg.c:11723-11746: `fjson` of the Feature and `gjson` of the geometry. -/
def gjExtra (isFeat : Bool) (xjson : Option (List Byte)) : Option Json.J × Option Json.J :=
  match xjson with
  | none => (none, none)
  | some x =>
    let j := Json.parse x
    if isFeat then
      if Json.isArr j then
        let f := Json.ensure (Json.first j)
        (f, Json.ensure (Json.next f))
      else if Json.isObj j then (Json.ensure j, none)
      else (none, none)
    else (none, Json.ensure j)

/-- What is written before the geometry of a Feature, tg.c:11735-11742. -/
def wFeatHead (fjson : Option Json.J) (w : Wr) : Wr :=
  let w := w.bytes (txt "{\"type\":\"Feature\",")
  let id := Json.objGet fjson (txt "id")
  let w := if id.isSome then ((w.bytes (txt "\"id\":")).bytes (Json.rawOf id)).byte 0x2C#8 else w
  w.bytes (txt "\"geometry\":")

/-- The members of the geometry's extra JSON, tg.c:11772-11783: one step back over the closing brace. -/
def wExtra (gjson : Option Json.J) (w : Wr) : Wr :=
  if Json.isObj gjson && (Json.first gjson).isSome && decide (2 < Json.rawLen gjson) then
    (({ w with count := w.count - 1 } : Wr).byte 0x2C#8).bytes ((Json.rawOf gjson).drop 1)
  else w

/-- The loop over the members of the Feature's extra JSON, tg.c:11788-11804. The second result is `wrote_props`. -/
def wPairs : List (Option Json.J × Option Json.J) → Bool → Wr → Wr × Bool
  | [], wp, w => (w, wp)
  | (k, v) :: ps, wp, w =>
    if Json.rawOf k ≠ txt "\"id\"" then
      wPairs ps (wp || Json.rawOf k == txt "\"properties\"")
        ((((w.byte 0x2C#8).bytes (Json.rawOf k)).byte 0x3A#8).bytes (Json.rawOf v))
    else wPairs ps wp w

/-- What is written after the geometry of a Feature, tg.c:11784-11813. -/
def wFeatTail (nullProps : Bool) (fjson : Option Json.J) (w : Wr) : Wr :=
  let r := if Json.isObj fjson then wPairs (Json.pairs fjson) false w else (w, false)
  let w := if r.2 then r.1 else (r.1.bytes (txt ",\"properties\":")).bytes (txt (if nullProps then "null" else "{}"))
  w.byte 0x7D#8

/-- `write_base_geom_geojson` around the text of the geometry, tg.c:11714-11814. -/
def wBase (fl : Flags) (xjson : Option (List Byte)) (wGeom : Wr → Wr) (w : Wr) : Wr :=
  let e := gjExtra fl.isFeature xjson
  let w := if fl.isFeature then wFeatHead e.1 w else w
  let w := if fl.isFeature && fl.unlocated then w.bytes (txt "null") else wGeom w
  let w := wExtra e.2 w
  if fl.isFeature then wFeatTail fl.nullProps e.1 w else w

/-- The Feature around a base object, tg.c:11816-11896 (four functions with the same lines). -/
def wFeat (fl : Flags) (wGeom : Wr → Wr) (w : Wr) : Wr :=
  let w := if fl.isFeature then w.bytes (txt "{\"type\":\"Feature\",\"geometry\":") else w
  let w := wGeom w
  if fl.isFeature then (w.bytes (txt ",\"properties\":")).bytes (txt (if fl.nullProps then "null}" else "{}}")) else w

mutual
/-- `write_geom_geojson` and the functions it dispatches to, tg.c:11480-11916. -/
def writeJson (nf : NumFmt) : Geom → Wr → Wr
  -- write_point_geojson, tg.c:11816-11832
  | .point fl p, w => wFeat fl (fun w => (wPosn .json nf [p.x, p.y] (w.bytes (gjHead "Point"))).byte 0x7D#8) w
  -- write_line_geojson, tg.c:11834-11850
  | .line fl pts, w => wFeat fl (fun w => (wRing .json nf 2 pts [] (w.bytes (gjHead "LineString"))).byte 0x7D#8) w
  -- write_ring_geojson, write_poly_geojson, tg.c:11852-11884
  | .poly fl pl, w => wFeat fl (fun w => (wPoly .json nf 2 pl [] (w.bytes (gjHead "Polygon"))).byte 0x7D#8) w
  -- write_geom_point_geojson, tg.c:11480-11500
  | .gpoint fl p z m x, w => wBase fl x (fun w =>
      if fl.isEmpty then ((w.bytes (gjHead "Point")).bytes (txt "[]")).byte 0x7D#8
      else (wPosn .json nf (pointNums fl p z m) (w.bytes (gjHead "Point"))).byte 0x7D#8) w
  -- write_geom_linestring_geojson, tg.c:11502-11524
  | .gline fl l cs x, w => wBase fl x (fun w =>
      if fl.isEmpty then ((w.bytes (gjHead "LineString")).bytes (txt "[]")).byte 0x7D#8
      else match l with
        | none => w.overflow          -- NULL dereference
        | some pts => (wRing .json nf fl.dims pts cs (w.bytes (gjHead "LineString"))).byte 0x7D#8) w
  -- write_geom_polygon_geojson, tg.c:11526-11548
  | .gpoly fl p cs x, w => wBase fl x (fun w =>
      if fl.isEmpty then ((w.bytes (gjHead "Polygon")).bytes (txt "[]")).byte 0x7D#8
      else match p with
        | none => w.overflow          -- NULL dereference
        | some pl => (wPoly .json nf fl.dims pl cs (w.bytes (gjHead "Polygon"))).byte 0x7D#8) w
  -- write_geom_multipoint_geojson, tg.c:11550-11583
  | .mpoint fl ps cs x, w => wBase fl x (fun w =>
      (wMPoint .json nf fl.dims (ps.getD []) cs (w.bytes (gjHead "MultiPoint"))).byte 0x7D#8) w
  -- write_geom_multilinestring_geojson, tg.c:11585-11619
  | .mline fl ls cs x, w => wBase fl x (fun w =>
      (wMLine .json nf fl.dims (ls.getD []) cs (w.bytes (gjHead "MultiLineString"))).byte 0x7D#8) w
  -- write_geom_multipolygon_geojson, tg.c:11621-11654
  | .mpoly fl ps cs x, w => wBase fl x (fun w =>
      (wMPoly .json nf fl.dims (ps.getD []) cs (w.bytes (gjHead "MultiPolygon"))).byte 0x7D#8) w
  -- write_geom_geometrycollection_geojson, tg.c:11658-11675; tg_geom_num_geometries is 0 without a multi
  | .coll fl hasMulti gs _ x, w => wBase fl x (fun w =>
      let w := w.bytes (txt (if fl.isFeatureCol then "{\"type\":\"FeatureCollection\",\"features\":" else "{\"type\":\"GeometryCollection\",\"geometries\":"))
      ((if hasMulti then writeJsons nf true gs (w.byte 0x5B#8) else w.byte 0x5B#8).byte 0x5D#8).byte 0x7D#8) w
  -- tg.c:11717-11721
  | .err _, w => w.bytes (txt "{\"type\":\"Point\",\"coordinates\":[]}")
/-- The loop over the children, tg.c:11668-11671. -/
def writeJsons (nf : NumFmt) : Bool → List Geom → Wr → Wr
  | _, [], w => w
  | first, g :: gs, w => writeJsons nf false gs (writeJson nf g (wComma first w))
end

/-- `tg_geom_geojson(geom, dst, n)` for a non-NULL geometry, tg.c:11938-11944. -/
def tgGeomGeojson (nf : NumFmt) (g : Geom) (dst : List Byte) (n : Nat) : Wr :=
  (writeJson nf g ⟨dst, n, 0, false⟩).nullterm

end Tg
