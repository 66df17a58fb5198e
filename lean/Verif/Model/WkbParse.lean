import Verif.Model.Geom
/-!
`tg_parse_wkb`: tg.c:13281-13955. The input is `data`, an object of exactly
`data.length` bytes; `len = data.length`.

Conventions: an access outside the object, a signed overflow, or a use of a
negative/out of range count is the outcome `R.ub`. Allocation is assumed to succeed.
Counts stored in `int` fields of the result (`ngeoms`, `ncoords`) are not truncated
in the model: reaching 2^31 needs more than 16 GB of input. The host is little endian.
The `ix` option only selects the index of the rings (see `Model/Series`), it does not
change any value seen here. Alignment of the fast path pointer is not modelled.
-/
namespace Tg

/-- Outcome of a parsing function that returns an index and, through a pointer, a value.
`fail none` is `PARSE_FAIL` (tg.c:13322); `fail (some i)` is an error object returned together
with a valid index. -/
inductive R (α : Type) where
  | ub
  | fail (i : Option Nat) (msg : String)
  | ok (i : Nat) (a : α)
deriving Repr

/-- `MAXDEPTH`, tg.c:6717. -/
def MAXDEPTH : Nat := 1024

/-- `wkb_invalid_err`, tg.c:13318-13320. -/
def invalidBinary : String := "invalid binary"

/-- `read_uint32(wkb+i, swap)`, tg.c:13285-13289; `none` if it leaves the object. -/
def rdU32 (data : List Byte) (i : Nat) (swap : Bool) : Option (BitVec 32) :=
  match data.drop i with
  | b0 :: b1 :: b2 :: b3 :: _ => some (rd32 swap b0 b1 b2 b3)
  | _ => none

/-- `read_double(wkb+i, swap)`, tg.c:13299-13301; `none` if it leaves the object. -/
def rdF64 (data : List Byte) (i : Nat) (swap : Bool) : Option F64 :=
  match data.drop i with
  | b0 :: b1 :: b2 :: b3 :: b4 :: b5 :: b6 :: b7 :: _ => some (rd64 swap b0 b1 b2 b3 b4 b5 b6 b7)
  | _ => none

/-- The macro `read_uint32(name)`, tg.c:13303-13308; `inv` is what `goto invalid` returns. -/
def readU32 {α : Type} (data : List Byte) (i : Nat) (swap : Bool) (inv : R α)
    (k : BitVec 32 → Nat → R α) : R α :=
  if i + 4 > data.length then inv else
  match rdU32 data i swap with
  | none => .ub
  | some v => k v (i + 4)

/-- The loop of the macro `read_posn`, tg.c:13312-13315: `dims` doubles from index `i`. -/
def readDoubles (data : List Byte) (swap : Bool) : Nat → Nat → Option (List F64)
  | 0, _ => some []
  | d + 1, i =>
    match rdF64 data i swap with
    | none => none
    | some x => (readDoubles data swap d (i + 8)).map (x :: ·)

/-- The position loop of `parse_wkb_posns`, tg.c:13342-13354: each position is the
list of its `dims` doubles (`posn[0..dims)`). -/
def posnLoop (data : List Byte) (swap : Bool) (dims : Nat) : Nat → Nat → R (List (List F64))
  | 0, i => .ok i []
  | c + 1, i =>
    if i + 8 * dims > data.length then .fail none invalidBinary else
    match readDoubles data swap dims i with
    | none => .ub
    | some p =>
      match posnLoop data swap dims c (i + 8 * dims) with
      | .ub => .ub
      | .fail j e => .fail j e
      | .ok j ps => .ok j (p :: ps)

/-- The points `*points = wkb+i` used in place by the fast path, tg.c:13338-13339. -/
def rawPoints (data : List Byte) : Nat → Nat → Option (List (List F64))
  | 0, _ => some []
  | c + 1, i =>
    match readDoubles data false 2 i with
    | none => none
    | some p => (rawPoints data c (i + 16)).map (p :: ·)

/-- `{posn[0], posn[1]}` as a point. -/
def ptOf : List F64 → Pt
  | x :: y :: _ => ⟨x, y⟩
  | _ => ⟨0#64, 0#64⟩

/-- `posn[2..dims)`, appended to `xcoords`, tg.c:13349-13353. -/
def extraOf (p : List F64) : List F64 := p.drop 2

/-- The "too short" message of `check_parse_posns`, tg.c:8104, 8109. -/
def shortMsg (ring : Bool) : String :=
  if ring then "rings must have three or more positions" else "lines must have two or more positions"

/-- `check_parse_posns` for BASE_LINE (`ring = false`) and BASE_RING, tg.c:8097-8121.
`none` when the positions are accepted. -/
def checkPosns (ring : Bool) (pts : List Pt) : Option String :=
  if ring then
    if pts.length < 3 then some (shortMsg ring)
    else match pts.head?, pts.getLast? with
      | some p0, some p1 =>
        if F64.feq p0.x p1.x && F64.feq p0.y p1.y then none
        else some "rings must have matching first and last positions"
      | _, _ => none
  else if pts.length < 2 then some (shortMsg ring) else none

/-- `*npoints = count` (an `int`) and `(*npoints)*2`, tg.c:13339, 13356, 13358: overflows
for 2^30 ≤ count < 3*2^30; larger counts become negative and are "too short". -/
def npointsCheck {α : Type} (ring : Bool) (count : Nat) (k : R α) : R α :=
  if 2^30 ≤ count ∧ count < 3 * 2^30 then .ub
  else if 3 * 2^30 ≤ count then .fail none (shortMsg ring)
  else k

/-- `parse_wkb_posns`, tg.c:13325-13365. Returns the positions with all their
coordinates; the caller keeps the first two in the series and the others in `xcoords`.
The fast path guard computes `count*2*8` in 32 bits. -/
def parsePosns (ring : Bool) (dims : Nat) (data : List Byte) (i : Nat) (swap : Bool) :
    R (List (List F64)) :=
  readU32 data i swap (.fail none invalidBinary) fun count i =>
    if count.toNat = 0 then .ok i []
    else if dims = 2 ∧ swap = false ∧ data.length - i ≥ (count.toNat * 16) % 2^32 then
      npointsCheck ring count.toNat <|
        match rawPoints data count.toNat i with
        | none => .ub
        | some ps =>
          match checkPosns ring (ps.map ptOf) with
          | some e => .fail none e
          | none => .ok (i + (count.toNat * 16) % 2^32) ps
    else
      match posnLoop data swap dims count.toNat i with
      | .ub => .ub
      | .fail j e => .fail j e
      | .ok j ps =>
        npointsCheck ring count.toNat <|
          match checkPosns ring (ps.map ptOf) with
          | some e => .fail none e
          | none => .ok j ps

/-- The ring loop of `parse_wkb_multi_posns`, tg.c:13376-13389. -/
def ringLoop (dims : Nat) (data : List Byte) (swap : Bool) : Nat → Nat → R (List (List (List F64)))
  | 0, i => .ok i []
  | c + 1, i =>
    match parsePosns true dims data i swap with
    | .ub => .ub
    | .fail j e => .fail j e
    | .ok j r =>
      match ringLoop dims data swap c j with
      | .ub => .ub
      | .fail j e => .fail j e
      | .ok j rs => .ok j (r :: rs)

/-- `dims = z ? m ? 4 : 3 : m ? 3 : 2`, tg.c:13408. -/
def dimsOf (z m : Bool) : Nat := 2 + (if z then 1 else 0) + (if m then 1 else 0)

/-- Flags given by the `_z`, `_m`, `_zm` constructors, tg.c:4335, 4350, 4367, 4803, 4821, 4839. -/
def zmFlags (z m : Bool) : Flags := { hasZ := z, hasM := m }

/-- `geom_new_empty`, tg.c:4296-4301. -/
def emptyFlags : Flags := { isEmpty := true }

/-- `parse_wkb_point`, tg.c:13403-13443. -/
def parsePoint (z m : Bool) (data : List Byte) (i : Nat) (swap : Bool) : R Geom :=
  let dims := dimsOf z m
  if i + 8 * dims > data.length then .fail none invalidBinary else
  match readDoubles data swap dims i with
  | none => .ub
  | some p =>
    if p.all F64.isNaN then .ok (i + 8 * dims) (.gpoint emptyFlags ⟨0#64, 0#64⟩ 0#64 0#64 none)
    else
      let pt := ptOf p
      let c := p.getD 2 0#64
      let d := p.getD 3 0#64
      .ok (i + 8 * dims) <|
        if z then (if m then .gpoint (zmFlags z m) pt c d none else .gpoint (zmFlags z m) pt c 0#64 none)
        else if m then .gpoint (zmFlags z m) pt 0#64 c none
        else .point {} pt

/-- `parse_wkb_linestring`, tg.c:13445-13497. -/
def parseLine (z m : Bool) (data : List Byte) (i : Nat) (swap : Bool) : R Geom :=
  match parsePosns false (dimsOf z m) data i swap with
  | .ub => .ub
  | .fail j e => .fail j e
  | .ok j ps =>
    .ok j <|
      if ps.length = 0 then .gline emptyFlags none [] none
      else if z || m then
        .gline (zmFlags z m) (some (ps.map ptOf)) (ps.flatMap extraOf) none
      else .line {} (ps.map ptOf)

/-- `tg_poly_new(rings[0], rings+1, n-1)`, tg.c:13390-13391, 3754-3789. -/
def polyOfRings : List (List Pt) → Option Poly
  | [] => none
  | r :: rs => some ⟨r, rs⟩

/-- `parse_wkb_multi_posns` and `parse_wkb_polygon`, tg.c:13367-13401, 13499-13554. -/
def parsePoly (z m : Bool) (data : List Byte) (i : Nat) (swap : Bool) : R Geom :=
  readU32 data i swap (.fail none invalidBinary) fun count i =>
    match ringLoop (dimsOf z m) data swap count.toNat i with
    | .ub => .ub
    | .fail j e => .fail j e
    | .ok j rs =>
      .ok j <|
        match polyOfRings (rs.map (·.map ptOf)) with
        | none => .gpoly emptyFlags none [] none
        | some pl =>
          if z || m then .gpoly (zmFlags z m) (some pl) (rs.flatMap (·.flatMap extraOf)) none
          else .poly {} pl

/-- `wkb_invalid_child_type`, tg.c:13281-13283. -/
def invalidChild : String := "invalid child type"

/-- `wkb_type_match`, tg.c:13559-13565. -/
def typeMatch (g : Geom) (t : GType) (z m : Bool) : Bool :=
  g.type == t && g.flags.hasZ == z && g.flags.hasM == m

/-- The extra coordinates taken from a child point, tg.c:13594-13605. -/
def pointExtra (z m : Bool) (g : Geom) : List F64 :=
  if z && m then [g.z, g.m] else if z then [g.z] else if m then [g.m] else []

/-- The type test on a child; a collection (`want = none`) accepts every child,
tg.c:13588, 13667, 13748. -/
def childGood (want : Option GType) (z m : Bool) (g : Geom) : Bool :=
  match want with
  | some t => typeMatch g t z m
  | none => true

/-- The child loop shared by the multi parsers and the collection parser,
tg.c:13581-13608, 13660-13683, 13741-13764, 13819-13830. `child` is the recursive call
`parse_wkb(.., depth+1, ..)`; `want` is the required child type (`none` for a collection,
which accepts every child). -/
def childLoop (child : Nat → R Geom) (want : Option GType) (z m : Bool) :
    Nat → Nat → R (List Geom)
  | 0, i => .ok i []
  | c + 1, i =>
    match child i with
    | .ub => .ub
    | .fail j e => .fail j e
    | .ok j g =>
      if childGood want z m g = false then .fail (some j) invalidChild else
      match childLoop child want z m c j with
      | .ub => .ub
      | .fail j e => .fail j e
      | .ok j gs => .ok j (g :: gs)

/-- The object built from the children by `tg_geom_new_multipoint{,_z,_m,_zm}` and the
other multi constructors, tg.c:13610-13629, 13684-13705, 13765-13786, 13831-13832. -/
def buildMulti (t : GType) (z m : Bool) (gs : List Geom) : Geom :=
  match t with
  | .multipoint => .mpoint (zmFlags z m) (some (gs.map Geom.pt)) (gs.flatMap (pointExtra z m)) none
  | .multilinestring =>
    .mline (zmFlags z m) (some (gs.map Geom.lineOf))
      (if z || m then gs.flatMap Geom.extraCoords else []) none
  | .multipolygon =>
    .mpoly (zmFlags z m) (some (gs.map Geom.polyOf))
      (if z || m then gs.flatMap Geom.extraCoords else []) none
  | _ => .coll {} true gs [] none

/-- `parse_wkb_multipoint`, `_multilinestring`, `_multipolygon`, `_geometrycollection`,
tg.c:13567-13850. A truncated count is reported together with the index (`invalid:` then
`fail:` then `return i`). -/
def parseMulti (child : Nat → R Geom) (t : GType) (want : Option GType) (z m : Bool)
    (data : List Byte) (i : Nat) (swap : Bool) : R Geom :=
  readU32 data i swap (.fail (some i) invalidBinary) fun count i =>
    match childLoop child want z m count.toNat i with
    | .ub => .ub
    | .fail j e => .fail j e
    | .ok j gs => .ok j (buildMulti t z m gs)

/-- Decoding of the type word in `switch (type)`, tg.c:13887-13917. -/
def decodeType (n : Nat) : Option (GType × Bool × Bool) :=
  let zm : Option (Bool × Bool) :=
    match n / 1000 with
    | 0 => some (false, false)
    | 1 => some (true, false)
    | 2 => some (false, true)
    | 3 => some (true, true)
    | _ => none
  let t : Option GType :=
    match n % 1000 with
    | 1 => some .point | 2 => some .linestring | 3 => some .polygon | 4 => some .multipoint
    | 5 => some .multilinestring | 6 => some .multipolygon | 7 => some .collection
    | _ => none
  match t, zm with
  | some t, some (z, m) => some (t, z, m)
  | _, _ => none

/-- The `switch (type)` of `parse_wkb`, tg.c:13886-13917. -/
def wkbDispatch (child : Nat → R Geom) (type : Nat) (data : List Byte) (i : Nat) (swap : Bool) :
    R Geom :=
  match decodeType type with
  | none => .fail none "invalid type"
  | some (.point, z, m) => parsePoint z m data i swap
  | some (.linestring, z, m) => parseLine z m data i swap
  | some (.polygon, z, m) => parsePoly z m data i swap
  | some (.multipoint, z, m) => parseMulti child .multipoint (some .point) z m data i swap
  | some (.multilinestring, z, m) =>
    parseMulti child .multilinestring (some .linestring) z m data i swap
  | some (.multipolygon, z, m) => parseMulti child .multipolygon (some .polygon) z m data i swap
  | some (.collection, _, _) => parseMulti child .collection none false false data i swap

/-- `parse_wkb` after the byte-order byte: the type word, optional SRID and dispatch,
tg.c:13872-13917. -/
def parseBody (child : Nat → R Geom) (data : List Byte) (i : Nat) (swap : Bool) : R Geom :=
  readU32 data i swap (.fail none invalidBinary) fun w i =>
    let type := (w &&& 0xFFFF#32).toNat
    if w &&& 0x20000000#32 ≠ 0#32 then
      readU32 data i swap (.fail none invalidBinary) fun _srid i =>
        wkbDispatch child type data i swap
    else wkbDispatch child type data i swap

/-- `parse_wkb`, tg.c:13852-13921. The first argument is `MAXDEPTH + 1 - depth`, so `0`
means `depth > MAXDEPTH`. -/
def parseWkb : Nat → List Byte → Nat → R Geom
  | 0, data, i =>
    if i = data.length then .fail none invalidBinary else
    match data.drop i with
    | [] => .ub
    | _ :: _ => .fail none invalidBinary
  | r + 1, data, i =>
    if i = data.length then .fail none invalidBinary else
    match data.drop i with
    | [] => .ub
    | b :: _ =>
      if b >>> 1 ≠ 0#8 then .fail none invalidBinary
      else parseBody (parseWkb r data) data (i + 1) (b == 0#8)

/-- What an API parse function returns: a geometry, or an error geometry with its message. -/
inductive Res where
  | ub
  | error (msg : String)
  | geom (g : Geom)
deriving Repr

/-- `tg_parse_wkb_ix`, tg.c:13943-13955. -/
def tgParseWkb (data : List Byte) : Res :=
  match parseWkb (MAXDEPTH + 1) data 0 with
  | .ub => .ub
  | .fail _ e => .error ("ParseError: " ++ e)
  | .ok _ g => .geom g

end Tg
