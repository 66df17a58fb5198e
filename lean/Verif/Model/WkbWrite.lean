import Verif.Model.Geom
import Verif.Model.Writer
/-!
`tg_geom_wkb`: tg.c:13957-14433.
-/
namespace Tg

/-- `write_uint32le(wr, (int)n)`, tg.c:8732-8736: the low 32 bits. -/
def Wr.u32 (w : Wr) (n : Nat) : Wr := w.bytes (le32 (BitVec.ofNat 32 n))

/-- `write_doublele`, tg.c:8738-8746. -/
def Wr.f64 (w : Wr) (x : F64) : Wr := w.bytes (le64 x)

/-- The type word of `write_wkb_type`, tg.c:13957-13970. -/
def wkbTypeNum (t : GType) (z m : Bool) : Nat :=
  t.num + (if z then (if m then 3000 else 1000) else (if m then 2000 else 0))

/-- `write_wkb_type`, tg.c:13957-13970. -/
def writeWkbType (t : GType) (z m : Bool) (w : Wr) : Wr :=
  (w.byte 1#8).u32 (wkbTypeNum t z m)

/-- The bytes of `struct tg_point` in memory on a little-endian host. -/
def ptBytes (p : Pt) : List Byte := le64 p.x ++ le64 p.y

/-- `write_posn_wkb`, tg.c:13972-13982 -/
def writePosn (p : Pt) (w : Wr) : Wr :=
  if w.count + 16 < w.n then w.memcpy (ptBytes p)
  else (w.f64 p.x).f64 p.y

/-- `write_posn_wkb_3`, tg.c:13984-13996 -/
def writePosn3 (p : Pt) (z : F64) (w : Wr) : Wr :=
  if w.count + 24 < w.n then w.memcpy (ptBytes p ++ le64 z)
  else ((w.f64 p.x).f64 p.y).f64 z

/-- `write_posn_wkb_4`, tg.c:13998-14012 -/
def writePosn4 (p : Pt) (z m : F64) (w : Wr) : Wr :=
  if w.count + 32 < w.n then w.memcpy (ptBytes p ++ le64 z ++ le64 m)
  else (((w.f64 p.x).f64 p.y).f64 z).f64 m

/-- `ring->npoints*k` is an `int` product (tg.c:14017, 14039, 14057). -/
def intOverflows (x : Nat) : Bool := 2^31 ≤ x

/-- `write_ring_points_wkb`, tg.c:14014-14033 -/
def writeRing (pts : List Pt) (w : Wr) : Wr :=
  let w := w.u32 pts.length
  if intOverflows (pts.length * 16) then w.overflow else
  let needed := pts.length * 16
  if w.count + needed ≤ w.n then w.memcpy (pts.flatMap ptBytes)
  else if w.count ≥ w.n then w.skip needed
  else pts.foldl (fun w p => writePosn p w) w

/-- The loop of `write_ring_points_wkb_3`, tg.c:14043-14048:
`z = (j < ncoords) ? coords[j++] : 0`. -/
def writeRing3Loop : List Pt → List F64 → Wr → Wr
  | [], _, w => w
  | p :: ps, [], w => writeRing3Loop ps [] (writePosn3 p 0#64 w)
  | p :: ps, c :: cs, w => writeRing3Loop ps cs (writePosn3 p c w)

/-- `write_ring_points_wkb_3`, tg.c:14035-14051 -/
def writeRing3 (pts : List Pt) (coords : List F64) (w : Wr) : Wr :=
  let w := w.u32 pts.length
  if intOverflows (pts.length * 24) then w.overflow else
  let needed := pts.length * 24
  if w.count ≥ w.n then w.skip needed
  else writeRing3Loop pts coords w

/-- The loop of `write_ring_points_wkb_4`, tg.c:14061-14067:
`z = (j < ncoords) ? coords[j++] : 0; m = (j < ncoords) ? coords[j++] : 0`. -/
def writeRing4Loop : List Pt → List F64 → Wr → Wr
  | [], _, w => w
  | p :: ps, [], w => writeRing4Loop ps [] (writePosn4 p 0#64 0#64 w)
  | p :: ps, [c], w => writeRing4Loop ps [] (writePosn4 p c 0#64 w)
  | p :: ps, c :: d :: cs, w => writeRing4Loop ps cs (writePosn4 p c d w)

/-- `write_ring_points_wkb_4`, tg.c:14053-14070 -/
def writeRing4 (pts : List Pt) (coords : List F64) (w : Wr) : Wr :=
  let w := w.u32 pts.length
  if intOverflows (pts.length * 32) then w.overflow else
  let needed := pts.length * 32
  if w.count ≥ w.n then w.skip needed
  else writeRing4Loop pts coords w

/-- `switch (dims)` over the three ring writers; `coords` is `pcoords[0..ncoords)`,
tg.c:14185-14197. -/
def writeRingD (dims : Nat) (pts : List Pt) (coords : List F64) (w : Wr) : Wr :=
  if dims = 3 then writeRing3 pts coords w
  else if dims = 4 then writeRing4 pts coords w
  else writeRing pts w

/-- How `ncoords`/`pcoords` move after a ring or polygon of `k` points:
`ncoords -= n` (or `n*2`), clamped at 0, `pcoords += n` (or `n*2`),
tg.c:14095-14097, 14119-14121, 14285-14287, 14291-14293. -/
def advCoords (dims k : Nat) (coords : List F64) : List F64 :=
  coords.drop ((dims - 2) * k)

/-- The loop over rings of `write_poly_points_wkb{,_3,_4}`, tg.c:14078-14081, 14093-14105,
14117-14129. -/
def writeRings (dims : Nat) : List (List Pt) → List F64 → Wr → Wr
  | [], _, w => w
  | r :: rs, coords, w => writeRings dims rs (advCoords dims r.length coords) (writeRingD dims r coords w)

/-- `write_poly_points_wkb{,_3,_4}`, tg.c:14072-14131: `1+nholes`, exterior, holes. -/
def writePolyPoints (dims : Nat) (pl : Poly) (coords : List F64) (w : Wr) : Wr :=
  writeRings dims (pl.ext :: pl.holes) coords (w.u32 (1 + pl.holes.length))

/-- Number of points of a polygon (the `count` returned by `write_poly_points_wkb_3/_4`). -/
def Poly.npoints (pl : Poly) : Nat := pl.ext.length + (pl.holes.map List.length).sum

/-- The `switch (dims)` of the MultiPoint loop, tg.c:14241-14258. -/
def writeMPoints (fl : Flags) : List Pt → List F64 → Wr → Wr
  | [], _, w => w
  | p :: ps, cs, w =>
    let w := writeWkbType .point fl.hasZ fl.hasM w
    if fl.dims = 3 then writeMPoints fl ps (cs.drop 1) (writePosn3 p (cs.headD 0#64) w)
    else if fl.dims = 4 then
      writeMPoints fl ps (cs.drop 2) (writePosn4 p (cs.headD 0#64) ((cs.drop 1).headD 0#64) w)
    else writeMPoints fl ps cs (writePosn p w)

/-- The MultiLineString loop, tg.c:14278-14299. A NULL child is dereferenced
(`ring->npoints`). -/
def writeMLines (fl : Flags) : List (Option (List Pt)) → List F64 → Wr → Wr
  | [], _, w => w
  | none :: _, _, w => w.overflow
  | some l :: ls, cs, w =>
    writeMLines fl ls (advCoords fl.dims l.length cs)
      (writeRingD fl.dims l cs (writeWkbType .linestring fl.hasZ fl.hasM w))

/-- The MultiPolygon loop, tg.c:14319-14339. A NULL child is dereferenced. -/
def writeMPolys (fl : Flags) : List (Option Poly) → List F64 → Wr → Wr
  | [], _, w => w
  | none :: _, _, w => w.overflow
  | some p :: ps, cs, w =>
    writeMPolys fl ps (advCoords fl.dims p.npoints cs)
      (writePolyPoints fl.dims p cs (writeWkbType .polygon fl.hasZ fl.hasM w))

mutual
/-- `write_geom_wkb` and the functions it dispatches to, tg.c:14133-14402. -/
def writeWkb : Geom → Wr → Wr
  -- write_point_wkb, tg.c:14133-14136
  | .point fl p, w => writePosn p (writeWkbType .point fl.hasZ fl.hasM w)
  -- write_line_wkb, tg.c:14138-14142
  | .line fl pts, w => writeRing pts (writeWkbType .linestring fl.hasZ fl.hasM w)
  -- write_ring_wkb / write_poly_wkb, tg.c:14144-14155
  | .poly fl pl, w => writePolyPoints 2 pl [] (writeWkbType .polygon fl.hasZ fl.hasM w)
  -- write_geom_point_wkb, tg.c:14157-14175
  | .gpoint fl p z m _, w =>
    let w := writeWkbType .point fl.hasZ fl.hasM w
    if fl.isEmpty then writePosn ⟨F64.nan, F64.nan⟩ w
    else if fl.hasZ then (if fl.hasM then writePosn4 p z m w else writePosn3 p z w)
    else if fl.hasM then writePosn3 p m w
    else writePosn p w
  -- write_geom_linestring_wkb, tg.c:14177-14198
  | .gline fl l cs _, w =>
    let w := writeWkbType .linestring fl.hasZ fl.hasM w
    if fl.isEmpty then w.u32 0
    else match l with
      | none => w.overflow            -- NULL dereference
      | some pts => writeRingD fl.dims pts cs w
  -- write_geom_polygon_wkb, tg.c:14200-14221
  | .gpoly fl p cs _, w =>
    let w := writeWkbType .polygon fl.hasZ fl.hasM w
    if fl.isEmpty then w.u32 0
    else match p with
      | none => w.overflow            -- NULL dereference
      | some pl => writePolyPoints fl.dims pl cs w
  -- write_geom_multipoint_wkb, tg.c:14223-14259
  | .mpoint fl ps cs _, w =>
    let w := writeWkbType .multipoint fl.hasZ fl.hasM w
    match ps with
    | none => w.u32 0
    | some ps => if fl.isEmpty then w.u32 0 else writeMPoints fl ps cs (w.u32 ps.length)
  -- write_geom_multilinestring_wkb, tg.c:14261-14300
  | .mline fl ls cs _, w =>
    let w := writeWkbType .multilinestring fl.hasZ fl.hasM w
    match ls with
    | none => w.u32 0
    | some ls => if fl.isEmpty then w.u32 0 else writeMLines fl ls cs (w.u32 ls.length)
  -- write_geom_multipolygon_wkb, tg.c:14302-14340
  | .mpoly fl ps cs _, w =>
    let w := writeWkbType .multipolygon fl.hasZ fl.hasM w
    match ps with
    | none => w.u32 0
    | some ps => if fl.isEmpty then w.u32 0 else writeMPolys fl ps cs (w.u32 ps.length)
  -- write_geom_geometrycollection_wkb, tg.c:14344-14356
  | .coll fl hasMulti gs _ _, w =>
    let w := writeWkbType .collection fl.hasZ fl.hasM w
    if !hasMulti || fl.isEmpty then w.u32 0
    else writeWkbs gs (w.u32 gs.length)
  -- an error geometry is allocated as an empty TG_POINT (tg.c:7785-7791)
  | .err _, w => writePosn ⟨F64.nan, F64.nan⟩ (writeWkbType .point false false w)
/-- The loop over the children of a collection, tg.c:14353-14355. -/
def writeWkbs : List Geom → Wr → Wr
  | [], w => w
  | g :: gs, w => writeWkbs gs (writeWkb g w)
end

/-- `tg_geom_wkb(geom, dst, n)` for a non-NULL geometry, tg.c:14428-14433. -/
def tgGeomWkb (g : Geom) (dst : List Byte) (n : Nat) : Wr :=
  writeWkb g ⟨dst, n, 0, false⟩

end Tg
