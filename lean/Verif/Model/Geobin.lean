import Verif.Model.Rect
import Verif.Model.WkbWrite
import Verif.Model.WkbParse
import Verif.Model.JsonValid
/-!
GeoBIN: tg.c:15463-15955.
-/
namespace Tg

/-- `tg_geom_extra_json`, tg.c:11911-11914. -/
def Geom.xjson : Geom → Option (List Byte)
  | .gpoint _ _ _ _ x | .gline _ _ _ x | .gpoly _ _ _ x | .mpoint _ _ _ x | .mline _ _ _ x
  | .mpoly _ _ _ x | .coll _ _ _ _ x => x
  | _ => none

/-! ### `tg_geom_fullrect` -/

/-- `double min[4]`. -/
structure V4 where
  a : F64
  b : F64
  c : F64
  d : F64
deriving DecidableEq, Repr

/-- The four elements in order. -/
def V4.list (v : V4) : List F64 := [v.a, v.b, v.c, v.d]

/-- Return value and out parameters of `tg_geom_fullrect`. -/
structure FullRect where
  dims : Nat
  min : V4
  max : V4
deriving DecidableEq, Repr

/-- The start of `tg_geom_fullrect`, tg.c:15756-15765. -/
def fullrect0 (r : Rect) : FullRect := ⟨2, ⟨r.min.x, r.min.y, 0, 0⟩, ⟨r.max.x, r.max.y, 0, 0⟩⟩

/-- The TG_POINT case, tg.c:15767-15778. -/
def fullrectPoint (f : FullRect) (fl : Flags) (z m : F64) : FullRect :=
  if fl.hasZ then
    if fl.hasM then ⟨4, ⟨f.min.a, f.min.b, z, m⟩, ⟨f.max.a, f.max.b, z, m⟩⟩
    else ⟨3, { f.min with c := z }, { f.max with c := z }⟩
  else if fl.hasM then ⟨3, { f.min with c := m }, { f.max with c := m }⟩
  else f

/-- The loop over pairs of extra coordinates, tg.c:15824-15829. -/
def pairLoop (P : Platform) : List F64 → V4 × V4 → V4 × V4
  | x :: y :: cs, (lo, hi) =>
    pairLoop P cs ({ lo with c := P.fmin lo.c x, d := P.fmin lo.d y }, { hi with c := P.fmax hi.c x, d := P.fmax hi.d y })
  | _, s => s

/-- The case of the other geometries, tg.c:15807-15831. -/
def fullrectOther (P : Platform) (f : FullRect) (fl : Flags) (cs : List F64) : FullRect :=
  let dims := fl.dims
  if dims = 3 then
    match cs with
    | [] => { f with dims := 3 }
    | c :: cs => ⟨3, { f.min with c := cs.foldl P.fmin c }, { f.max with c := cs.foldl P.fmax c }⟩
  else if dims = 4 then
    match cs with
    | c :: d :: cs =>
      let s := pairLoop P cs ({ f.min with c := c, d := d }, { f.max with c := c, d := d })
      ⟨4, s.1, s.2⟩
    | _ => { f with dims := 4 }
  else f

/-- The body of the loop over the children of a collection, tg.c:15784-15805. -/
def fullrectStep (P : Platform) (f g : FullRect) : FullRect :=
  let f :=
    if g.dims ≥ 3 then
      if f.dims = 2 then ⟨3, { f.min with c := g.min.c }, { f.max with c := g.max.c }⟩
      else { f with min := { f.min with c := P.fmin f.min.c g.min.c }, max := { f.max with c := P.fmax f.max.c g.max.c } }
    else f
  if g.dims ≥ 4 then
    if f.dims = 3 then ⟨4, { f.min with d := g.min.d }, { f.max with d := g.max.d }⟩
    else { f with min := { f.min with d := P.fmin f.min.d g.min.d }, max := { f.max with d := P.fmax f.max.d g.max.d } }
  else f

mutual
/-- `tg_geom_fullrect`, tg.c:15752-15833. -/
def fullrect (P : Platform) : Geom → FullRect
  | .coll fl hasMulti gs cs x =>
    let f := fullrect0 (geomRect P (.coll fl hasMulti gs cs x))
    if hasMulti then fullrects P gs f else fullrectOther P f fl cs
  | .gpoint fl p z m x => fullrectPoint (fullrect0 (geomRect P (.gpoint fl p z m x))) fl z m
  | .gline fl l cs x => fullrectOther P (fullrect0 (geomRect P (.gline fl l cs x))) fl cs
  | .gpoly fl l cs x => fullrectOther P (fullrect0 (geomRect P (.gpoly fl l cs x))) fl cs
  | .mpoint fl l cs x => fullrectOther P (fullrect0 (geomRect P (.mpoint fl l cs x))) fl cs
  | .mline fl l cs x => fullrectOther P (fullrect0 (geomRect P (.mline fl l cs x))) fl cs
  | .mpoly fl l cs x => fullrectOther P (fullrect0 (geomRect P (.mpoly fl l cs x))) fl cs
  | .point fl p => fullrect0 (geomRect P (.point fl p))
  | .line fl l => fullrect0 (geomRect P (.line fl l))
  | .poly fl l => fullrect0 (geomRect P (.poly fl l))
  | .err e => fullrect0 (geomRect P (.err e))
/-- The loop over the children. -/
def fullrects (P : Platform) : List Geom → FullRect → FullRect
  | [], f => f
  | g :: gs, f => fullrects P gs (fullrectStep P f (fullrect P g))
end

/-! ### The writer -/

/-- The loops of `write_base_geom_geobin` over `min` and `max`, tg.c:15627-15636. -/
def writeMbr (f : FullRect) (w : Wr) : Wr :=
  let w := w.byte (BitVec.ofNat 8 f.dims)
  let w := (f.min.list.take f.dims).foldl Wr.f64 w
  (f.max.list.take f.dims).foldl Wr.f64 w

/-- Extra JSON and its terminator, tg.c:15638-15641. -/
def writeXjson (x : Option (List Byte)) (w : Wr) : Wr :=
  (match x with | none => w | some x => w.bytes x).byte 0#8

/-- `write_base_geom_geobin` for a geometry that is not a FeatureCollection, tg.c:15609-15655. -/
def writeBase (P : Platform) (g : Geom) (w : Wr) : Wr :=
  if !g.flags.isFeature && g.type == .point && g.xjson == none then writeWkb g w
  else
    let w := w.byte (if g.flags.isFeature then 3#8 else 2#8)
    writeWkb g (writeXjson g.xjson (writeMbr (fullrect P g) w))

/-- The parts of `write_base_geom_geobin` for a FeatureCollection before its members. -/
def writeFcHead (P : Platform) (g : Geom) (n : Nat) (w : Wr) : Wr :=
  (writeXjson g.xjson (writeMbr (fullrect P g) (w.byte 4#8))).u32 n

/-- `write_geobin_rect`, tg.c:15661-15667. -/
def writeRect (r : Rect) (w : Wr) : Wr :=
  ((((w.byte 2#8).f64 r.min.x).f64 r.min.y).f64 r.max.x).f64 r.max.y

/-- `write_line_geobin`, `write_ring_geobin`, `write_poly_geobin`, tg.c:15669-15688. -/
def writeBaseObj (P : Platform) (g : Geom) (w : Wr) : Wr :=
  writeWkb g ((writeRect (geomRect P g) (w.byte 2#8)).byte 0#8)

mutual
/-- `write_geom_geobin`, tg.c:15690-15712, with `write_base_geom_geobin` for collections. The FeatureCollection mark is only
looked at on a `struct tg_geom` or if the Feature mark is set. -/
def writeGeobin (P : Platform) : Geom → Wr → Wr
  | .coll fl hasMulti gs cs x, w =>
    if fl.isFeatureCol then
      if hasMulti then writeGeobins P gs (writeFcHead P (.coll fl hasMulti gs cs x) gs.length w)
      else writeFcHead P (.coll fl hasMulti gs cs x) 0 w
    else writeBase P (.coll fl hasMulti gs cs x) w
  | .point fl p, w =>
    if fl.isFeature then
      (if fl.isFeatureCol then writeFcHead P (.point fl p) 0 w else writeBase P (.point fl p) w)
    else writeWkb (.point fl p) w
  | .line fl l, w =>
    if fl.isFeature then
      (if fl.isFeatureCol then writeFcHead P (.line fl l) 0 w else writeBase P (.line fl l) w)
    else writeBaseObj P (.line fl l) w
  | .poly fl l, w =>
    if fl.isFeature then
      (if fl.isFeatureCol then writeFcHead P (.poly fl l) 0 w else writeBase P (.poly fl l) w)
    else writeBaseObj P (.poly fl l) w
  | .gpoint fl p z m x, w =>
    if fl.isFeatureCol then writeFcHead P (.gpoint fl p z m x) 0 w else writeBase P (.gpoint fl p z m x) w
  | .gline fl l cs x, w =>
    if fl.isFeatureCol then writeFcHead P (.gline fl l cs x) 0 w else writeBase P (.gline fl l cs x) w
  | .gpoly fl l cs x, w =>
    if fl.isFeatureCol then writeFcHead P (.gpoly fl l cs x) 0 w else writeBase P (.gpoly fl l cs x) w
  | .mpoint fl l cs x, w =>
    if fl.isFeatureCol then writeFcHead P (.mpoint fl l cs x) 0 w else writeBase P (.mpoint fl l cs x) w
  | .mline fl l cs x, w =>
    if fl.isFeatureCol then writeFcHead P (.mline fl l cs x) 0 w else writeBase P (.mline fl l cs x) w
  | .mpoly fl l cs x, w =>
    if fl.isFeatureCol then writeFcHead P (.mpoly fl l cs x) 0 w else writeBase P (.mpoly fl l cs x) w
  | .err e, w => writeBase P (.err e) w
/-- The loop over the members, tg.c:15647-15650. -/
def writeGeobins (P : Platform) : List Geom → Wr → Wr
  | [], w => w
  | g :: gs, w => writeGeobins P gs (writeGeobin P g w)
end

/-- `tg_geom_geobin(geom, dst, n)` for a non-NULL geometry, tg.c:15739-15744. -/
def tgGeomGeobin (P : Platform) (g : Geom) (dst : List Byte) (n : Nat) : Wr :=
  writeGeobin P g ⟨dst, n, 0, false⟩

/-! ### The parser -/

/-- The wrapping of a base object in a `struct tg_geom`, tg.c:15550-15565. -/
def wrapGeom : Geom → Geom
  | .point _ p => .gpoint {} p 0#64 0#64 none
  | .line _ l => .gline {} (some l) [] none
  | .poly _ p => .gpoly {} (some p) [] none
  | g => g

/-- `geom->head.flags |= ...` -/
def Geom.mapFlags (f : Flags → Flags) : Geom → Geom
  | .point fl p => .point (f fl) p
  | .line fl p => .line (f fl) p
  | .poly fl p => .poly (f fl) p
  | .gpoint fl p z m x => .gpoint (f fl) p z m x
  | .gline fl l c x => .gline (f fl) l c x
  | .gpoly fl l c x => .gpoly (f fl) l c x
  | .mpoint fl l c x => .mpoint (f fl) l c x
  | .mline fl l c x => .mline (f fl) l c x
  | .mpoly fl l c x => .mpoly (f fl) l c x
  | .coll fl h l c x => .coll (f fl) h l c x
  | .err e => .err e

/-- `geom->xjson = ...` -/
def Geom.setXjson (x : List Byte) : Geom → Geom
  | .gpoint fl p z m _ => .gpoint fl p z m (some x)
  | .gline fl l c _ => .gline fl l c (some x)
  | .gpoly fl l c _ => .gpoly fl l c (some x)
  | .mpoint fl l c _ => .mpoint fl l c (some x)
  | .mline fl l c _ => .mline fl l c (some x)
  | .mpoly fl l c _ => .mpoly fl l c (some x)
  | .coll fl h l c _ => .coll fl h l c (some x)
  | g => g

/-- tg.c:15550-15577: wrap, mark as Feature, attach the JSON. -/
def finishGeobin (head : Byte) (x : List Byte) (g : Geom) : Geom :=
  let g := if x ≠ [] ∨ head = 3#8 then wrapGeom g else g
  let g := if head = 3#8 then g.mapFlags (fun fl => { fl with isFeature := true }) else g
  if x ≠ [] then g.setXjson x else g

/-- The loop over the features, tg.c:15520-15526. Only `PARSE_FAIL` is looked at: an error object returned with
an index (`fail (some j)`) is stored as a feature. -/
def featLoop (child : Nat → R Geom) : Nat → Nat → R (List Geom)
  | 0, i => .ok i []
  | c + 1, i =>
    match child i with
    | .ub => .ub
    | .fail none e => .fail none e
    | .fail (some j) e =>
      match featLoop child c j with
      | .ub => .ub
      | .fail j e => .fail j e
      | .ok j gs => .ok j (.err e :: gs)
    | .ok j g =>
      match featLoop child c j with
      | .ub => .ub
      | .fail j e => .fail j e
      | .ok j gs => .ok j (g :: gs)

/-- The FeatureCollection case, tg.c:15505-15543. -/
def parseFc (child : Nat → R Geom) (data : List Byte) (i : Nat) : R Geom :=
  readU32 data i false (.fail none invalidBinary) fun n i =>
    match featLoop child n.toNat i with
    | .ub => .ub
    | .fail j e => .fail j e
    | .ok j gs => .ok j (.coll { isFeatureCol := true } true gs [] none)

/-- `parse_geobin` after the JSON section, tg.c:15504-15579. An error object that came with an index is handed on with that
index. (Its message is then replaced by the JSON, if there is any, because `xjson` and `error` share a
union; messages of this kind are not modelled.) -/
def parseGeobinTail (child : Nat → R Geom) (wkb : Nat → R Geom) (head : Byte) (x : List Byte) (data : List Byte)
    (i : Nat) : R Geom :=
  match (if head = 4#8 then parseFc child data i else wkb i) with
  | .ub => .ub
  | .fail j e => .fail j e
  | .ok j g => .ok j (finishGeobin head x g)

/-- `parse_geobin` from the JSON section on, tg.c:15489-15503. -/
def parseGeobinJson (child : Nat → R Geom) (wkb : Nat → R Geom) (head : Byte) (data : List Byte) (i : Nat) : R Geom :=
  let x := (data.drop i).takeWhile (· ≠ 0#8)
  let i := i + x.length
  let i := if i < data.length then i + 1 else i
  if i = data.length then .fail none invalidBinary else
  if x ≠ [] then
    match Json.jsonValidn x with
    | none => .ub
    | some false => .fail none invalidBinary
    | some true => parseGeobinTail child wkb head x data i
  else parseGeobinTail child wkb head x data i

/-- `parse_geobin` after the head byte, tg.c:15472-15488. -/
def parseGeobinMbr (child : Nat → R Geom) (wkb : Nat → R Geom) (head : Byte) (data : List Byte) (i : Nat) : R Geom :=
  if head < 2#8 ∨ 4#8 < head then .fail none invalidBinary else
  if i = data.length then .fail none invalidBinary else
  match data.drop i with
  | [] => .ub
  | d :: _ =>
    let i := i + 1
    if d.toNat ≠ 0 then
      if d.toNat < 2 ∨ 4 < d.toNat then .fail none invalidBinary
      else if i + 8 * d.toNat * 2 ≥ data.length then .fail none invalidBinary
      else parseGeobinJson child wkb head data (i + 8 * d.toNat * 2)
    else parseGeobinJson child wkb head data i

/-- `parse_geobin`, tg.c:15463-15584. The first argument is `MAXDEPTH + 1 - depth`. -/
def parseGeobin : Nat → List Byte → Nat → R Geom
  | 0, _, _ => .fail none invalidBinary
  | r + 1, data, i =>
    if i = data.length then .fail none invalidBinary else
    match data.drop i with
    | [] => .ub
    | head :: _ =>
      if head = 1#8 then parseWkb (r + 1) data i
      else parseGeobinMbr (parseGeobin r data) (parseWkb (r + 1) data) head data (i + 1)

/-- `tg_parse_geobin_ix`, tg.c:15593-15605. -/
def tgParseGeobin (data : List Byte) : Res :=
  match parseGeobin (MAXDEPTH + 1) data 0 with
  | .ub => .ub
  | .fail _ e => .error ("ParseError: " ++ e)
  | .ok _ g => .geom g

/-! ### The header queries -/

/-- `memcpy(dst, geobin+i, 8*k)` into a `double dst[4]` that starts out as `old`: `none` if the read leaves the data or
the store leaves the array. -/
def copyDoubles (data : List Byte) (i k : Nat) (old : List F64) : Option (List F64) :=
  if k > 4 then none else (readDoubles data false k i).map (· ++ old.drop k)

/-- Type codes of points and their dimensions, tg.c:15852-15857. -/
def pointDims (type : BitVec 32) : Nat :=
  if type = 1#32 then 2 else if type = 1001#32 then 3 else if type = 2001#32 then 3 else if type = 3001#32 then 4 else 0

/-- `tg_geobin_fullrect`, tg.c:15843-15870: the dimension and the arrays `min`, `max`, which hold `old` before. `none` is
an access outside an object. -/
def tgGeobinFullrect (data : List Byte) (old : List F64 × List F64) : Option (Nat × List F64 × List F64) :=
  match data with
  | h :: d :: _ :: _ =>
    if 1#8 ≤ h ∧ h ≤ 4#8 then
      if h = 1#8 ∧ data.length ≥ 5 then
        match rdU32 data 1 false with
        | none => none
        | some type =>
          let dims := pointDims type
          if dims > 0 ∧ data.length ≥ 5 + 8 * dims then
            match copyDoubles data 5 dims old.1, copyDoubles data 5 dims old.2 with
            | some lo, some hi => some (dims, lo, hi)
            | _, _ => none
          else some (dims, old.1, old.2)
      else if h ≠ 1#8 ∧ data.length ≥ 2 + 8 * d.toNat * 2 then
        let dims := d.toNat
        match copyDoubles data 2 dims old.1, copyDoubles data (2 + 8 * dims) dims old.2 with
        | some lo, some hi => some (dims, lo, hi)
        | _, _ => none
      else some (0, old.1, old.2)
    else some (0, old.1, old.2)
  | _ => some (0, old.1, old.2)

/-- `tg_geobin_rect`, tg.c:15876-15901; `none` is a read outside the data. -/
def tgGeobinRect (data : List Byte) : Option Rect :=
  match data with
  | h :: d :: _ :: _ =>
    if 1#8 ≤ h ∧ h ≤ 4#8 then
      if h = 1#8 ∧ data.length ≥ 21 then
        match rdU32 data 1 false with
        | none => none
        | some type =>
          if type = 1#32 ∨ type = 1001#32 ∨ type = 2001#32 ∨ type = 3001#32 then
            match rdF64 data 5 false, rdF64 data 13 false with
            | some x, some y => some ⟨⟨x, y⟩, ⟨x, y⟩⟩
            | _, _ => none
          else some .zero
      else if h ≠ 1#8 ∧ data.length ≥ 2 + 8 * d.toNat * 2 then
        let dims := d.toNat
        if dims ≥ 2 then
          match rdF64 data 2 false, rdF64 data 10 false, rdF64 data (2 + 8 * dims) false, rdF64 data (2 + 8 * dims + 8) false with
          | some a, some b, some c, some e => some ⟨⟨a, b⟩, ⟨c, e⟩⟩
          | _, _, _, _ => none
        else some .zero
      else some .zero
    else some .zero
  | _ => some .zero

/-- `tg_geobin_point`, tg.c:15907-15932. `center` is `tg_rect_center` (floating point arithmetic). -/
def tgGeobinPoint (center : Rect → Pt) (data : List Byte) : Option Pt :=
  match data with
  | h :: d :: _ :: _ =>
    if 1#8 ≤ h ∧ h ≤ 4#8 then
      if h = 1#8 ∧ data.length ≥ 21 then
        match rdU32 data 1 false with
        | none => none
        | some type =>
          if type = 1#32 ∨ type = 1001#32 ∨ type = 2001#32 ∨ type = 3001#32 then
            match rdF64 data 5 false, rdF64 data 13 false with
            | some x, some y => some ⟨x, y⟩
            | _, _ => none
          else some ⟨0, 0⟩
      else if h ≠ 1#8 ∧ data.length ≥ 2 + 8 * d.toNat * 2 then
        let dims := d.toNat
        if dims ≥ 2 then
          match rdF64 data 2 false, rdF64 data 10 false, rdF64 data (2 + 8 * dims) false, rdF64 data (2 + 8 * dims + 8) false with
          | some a, some b, some c, some e => some (center ⟨⟨a, b⟩, ⟨c, e⟩⟩)
          | _, _, _, _ => none
        else some (center .zero)
      else some ⟨0, 0⟩
    else some ⟨0, 0⟩
  | _ => some ⟨0, 0⟩

end Tg
