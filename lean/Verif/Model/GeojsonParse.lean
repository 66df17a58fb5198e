import Verif.Model.WktParse
import Verif.Model.JsonNav
import Verif.Model.JsonValid
/-!
`tg_parse_geojson`: tg.c:7842-8700, and the functions of the embedded json.c that only the parser uses (tg.c:7267-7276, 7447-7472, 7516-7534, 7578-7590).

`strtod` is a parameter `sd`: the double that is read from a C string and how many bytes of it were read.
Outcomes: `ub` for a member `xjson` that is stored into an object that is not a `struct tg_geom`, and for a loop or a recursion that has not ended after as many turns as
there are bytes. The theorems say that neither happens. The functions that move in the text (`Model/JsonNav`) cannot leave it.
Allocation succeeds. Counts are not truncated to `int`. The index option does not change what is seen here. The uninitialised `posn[2]`, `posn[3]` that are copied but not
used (tg.c:8075-8076) are not modelled.
-/
namespace Tg.Gp
open Json
open Wp (P Base checkBase dimFlags polyOf showBytes)

/-- `enum json_type`. -/
inductive JType where
  | null | false_ | number | string | true_ | array | object
deriving DecidableEq

/-- `json_type`, tg.c:7267-7276; everything that starts no value is `JSON_NULL`. -/
def jtype (j : Option J) : JType :=
  let b := head j
  if b == 0x22#8 then .string
  else if b == 0x2D#8 || (0x30#8 ≤ b && b ≤ 0x39#8) then .number
  else if b == 0x5B#8 then .array
  else if b == 0x66#8 then .false_
  else if b == 0x74#8 then .true_
  else if b == 0x7B#8 then .object
  else .null

/-- The bytes from a value to the end of the text: a bound for the turns of a loop that moves on in it. -/
def size : Option J → Nat
  | none => 0
  | some j => j.raw.length

/-- What `json_string_copy(j, str, n)` leaves in `str`, tg.c:7447-7472, as a C string. -/
def copyStr (j : Option J) (n : Nat) : List Byte :=
  let s := match j with
    | none => []
    | some i =>
      if isStr j then
        let body := ((rawOf j).drop 1).take (rawLen j - 2)
        if i.esc then unescape body else body
      else rawOf j
  (s.take (n - 1)).takeWhile (· != 0#8)

variable (sd : List Byte → F64 × Nat)

/-- `stod`, `parse_double_big`, `parse_double`, tg.c:7516-7534: what does not fit into a buffer of 512 bytes, or is not read completely, is 0. -/
def parseDouble (t : List Byte) : F64 := if 512 ≤ t.length then 0#64 else if (sd t).2 = t.length then (sd t).1 else 0#64

/-- `json_double` of a number, tg.c:7578-7590. -/
def jdouble (j : Option J) : F64 := parseDouble sd (rawOf j)

/-! ### `take_basic_geojson` -/

/-- What the loop of `take_basic_geojson` changes, tg.c:7862-7869. -/
structure Acc where
  target : Option J := none
  nullProps : Bool := false
  hasProps : Bool := false
  hasId : Bool := false
  extra : List Byte := []

/-- `buf_append_json_pair`, tg.c:7842-7855. -/
def addPair (extra : List Byte) (k v : Option J) : List Byte :=
  extra ++ ((if extra.length = 0 then 0x7B#8 else 0x2C#8) :: (rawOf k ++ 0x3A#8 :: rawOf v))

/-- The body of the loop over the members, tg.c:7873-7913. -/
def takeMember (target : String) (a : Acc) (k v : Option J) : P Acc :=
  if strEq k (txt "type") then .ok a
  else if strEq k (txt target) then .ok { a with target := ensure v }
  else if target = "geometry" then
    if strEq k (txt "properties") then
      if !a.hasProps then
        if jtype v = .null then .ok { a with nullProps := true, hasProps := true }
        else if jtype v = .object then
          .ok { a with hasProps := true, extra := if (first v).isSome then addPair a.extra k v else a.extra }
        else .err "'properties' must be an object or null"
      else .ok a
    else if strEq k (txt "id") then
      if a.hasId then .ok a
      else if jtype v ≠ .string ∧ jtype v ≠ .number then .err "'id' must be a string or number"
      else .ok { a with hasId := true, extra := addPair a.extra k v }
    else .ok { a with extra := addPair a.extra k v }
  else .ok { a with extra := addPair a.extra k v }

/-- The loop over the members, tg.c:7870-7916. -/
def takeLoop (target : String) : Acc → List (Option J × Option J) → P Acc
  | a, [] => .ok a
  | a, (k, v) :: r => (takeMember target a k v).bind fun a => takeLoop target a r

/-- What `take_basic_geojson` gives. -/
structure Basic where
  target : Option J
  flags : Flags
  extra : Option (List Byte)

/-- `take_basic_geojson`, tg.c:7858-7979, of an object. The extra members are a C string. -/
def takeBasic (json : Option J) (target : String) : P Basic :=
  (takeLoop target {} (pairs json)).bind fun a =>
  if a.target.isNone then .err ("missing '" ++ target ++ "'")
  else
    let flags : P Flags :=
      if target = "geometry" then
        if jtype a.target = .object then .ok { nullProps := a.nullProps }
        else if jtype a.target = .null then .ok { nullProps := a.nullProps, isEmpty := true, unlocated := true }
        else .err "'geometry' must be an object or null"
      else if jtype a.target ≠ .array then .err ("'" ++ target ++ "' must be an array")
      else .ok { isEmpty := (first a.target).isNone }
    flags.bind fun fl => .ok ⟨a.target, fl, if a.extra.length > 0 then some ((a.extra ++ [0x7D#8]).takeWhile (· != 0#8)) else none⟩

/-! ### Positions -/

/-- The loop over the numbers of a position, tg.c:8055-8069, 8134-8148. Of more than four numbers the others are ignored. -/
def numLoop (msg : String) : Nat → Option J → List F64 → P (List F64)
  | 0, _, _ => .ub
  | _ + 1, none, ps => .ok ps
  | f + 1, some v, ps =>
    if jtype (some v) ≠ .number then .err msg
    else numLoop msg f (next (some v)) (if ps.length < 4 then ps ++ [jdouble sd (some v)] else ps)

/-- `err_for_geojson_depth`, tg.c:8035-8043. -/
def depthErr (depth : Nat) : String :=
  if depth = 1 then "'coordinates' must be an array of positions"
  else if depth = 2 then "'coordinates' must be a two deep nested array of positions"
  else "'coordinates' must be a three deep nested array of positions"

/-- The loop over the positions in `parse_geojson_posns`, tg.c:8128-8167. Results: `dims` and the positions. -/
def posnLoop (depth : Nat) : Nat → Nat → Option J → P (Nat × List (List F64))
  | 0, _, _ => .ub
  | _ + 1, dims, none => .ok (dims, [])
  | f + 1, dims, some v =>
    if jtype (some v) ≠ .array then .err (depthErr depth)
    else
      (numLoop sd "each element in a position must be a number" (size (some v) + 1) (first (some v)) []).bind fun ps =>
      let dims := if dims = 0 then ps.length else dims
      if ps.length < 2 then .err "each position must have two or more numbers"
      else if ps.length ≠ dims then .err "each position must have the same number of dimensions"
      else (posnLoop depth f dims (next (some v))).bind fun r => .ok (r.1, ps :: r.2)

/-- `parse_geojson_posns`, tg.c:8124-8170. Results: `dims` and the positions; the callers keep the first two numbers of each in `posns` and the others in `xcoords`. -/
def parsePosns (base : Base) (depth dims : Nat) (coords : Option J) : P (Nat × List (List F64)) :=
  (posnLoop sd depth (size coords + 1) dims (first coords)).bind fun r =>
  match checkBase base (r.2.map ptOf) with
  | some e => .err e
  | none => .ok r

/-- The loop over nested arrays, in `parse_geojson_multi_posns` (tg.c:8221-8239), `parse_geojson_multilinestring` (tg.c:8346-8367) and `parse_geojson_multipolygon`
(tg.c:8407-8426); `inner` is what is done with each, `msg` the message for what is not an array. -/
def arrLoop {α : Type} (msg : String) (inner : Nat → Option J → P (Nat × α)) : Nat → Nat → Option J → P (Nat × List α)
  | 0, _, _ => .ub
  | _ + 1, dims, none => .ok (dims, [])
  | f + 1, dims, some v =>
    if jtype (some v) ≠ .array then .err msg
    else
      (inner dims (some v)).bind fun a =>
      (arrLoop msg inner f a.1 (next (some v))).bind fun r => .ok (r.1, a.2 :: r.2)

/-- `parse_geojson_multi_posns`, tg.c:8216-8252: the rings of a polygon. -/
def parseRings (depth dims : Nat) (coords : Option J) : P (Nat × List (List (List F64))) :=
  (arrLoop "'coordinates' must be a nested array" (parsePosns sd .ring depth) (size coords + 1) dims (first coords)).bind fun r =>
  if r.2 = [] then .err "polygons must have one or more rings" else .ok r

/-! ### The end of the parsing functions -/

/-- `a | b` -/
def orFlags (a b : Flags) : Flags :=
  ⟨a.hasZ || b.hasZ, a.hasM || b.hasM, a.isEmpty || b.isEmpty, a.isFeature || b.isFeature, a.isFeatureCol || b.isFeatureCol, a.nullProps || b.nullProps, a.unlocated || b.unlocated⟩

/-- `geom->head.flags |= flags` -/
def addFlags (g : Geom) (f : Flags) : Geom :=
  match g with
  | .point fl p => .point (orFlags fl f) p
  | .line fl l => .line (orFlags fl f) l
  | .poly fl p => .poly (orFlags fl f) p
  | .gpoint fl p z m x => .gpoint (orFlags fl f) p z m x
  | .gline fl l c x => .gline (orFlags fl f) l c x
  | .gpoly fl p c x => .gpoly (orFlags fl f) p c x
  | .mpoint fl p c x => .mpoint (orFlags fl f) p c x
  | .mline fl l c x => .mline (orFlags fl f) l c x
  | .mpoly fl p c x => .mpoly (orFlags fl f) p c x
  | .coll fl h gs c x => .coll (orFlags fl f) h gs c x
  | .err m => .err m

/-- `if (extra) geom->xjson = extra`. The member does not exist in a point, line, ring or polygon. -/
def setX (g : Geom) (x : Option (List Byte)) : P Geom :=
  match x with
  | none => .ok g
  | some x =>
    match g with
    | .gpoint fl p z m _ => .ok (.gpoint fl p z m (some x))
    | .gline fl l c _ => .ok (.gline fl l c (some x))
    | .gpoly fl p c _ => .ok (.gpoly fl p c (some x))
    | .mpoint fl p c _ => .ok (.mpoint fl p c (some x))
    | .mline fl l c _ => .ok (.mline fl l c (some x))
    | .mpoly fl p c _ => .ok (.mpoly fl p c (some x))
    | .coll fl h gs c _ => .ok (.coll fl h gs c (some x))
    | _ => .ub

/-- `PARSE_GEOJSON_BASIC_TAIL`, tg.c:8021-8033. -/
def finish (flags : Flags) (extra : Option (List Byte)) (g : Geom) : P Geom := setX (addFlags g flags) extra

/-- `geom->xjson` where `head.base == BASE_GEOM`. -/
def xjsonOf : Geom → Option (List Byte)
  | .gpoint _ _ _ _ x | .gline _ _ _ x | .gpoly _ _ _ x | .mpoint _ _ _ x | .mline _ _ _ x | .mpoly _ _ _ x | .coll _ _ _ _ x => x
  | _ => none

/-! ### The types -/

/-- `parse_geojson_point`, tg.c:8045-8095. -/
def parsePoint (json : Option J) (req : Bool) : P Geom :=
  (takeBasic json "coordinates").bind fun b =>
  if b.flags.isEmpty then finish b.flags b.extra (.gpoint emptyFlags ⟨0#64, 0#64⟩ 0#64 0#64 none)
  else
    (numLoop sd "'coordinates' must only contain numbers" (size b.target + 1) (first b.target) []).bind fun ps =>
    if ps.length < 2 then .err "'coordinates' must have two or more numbers"
    else
      finish b.flags b.extra <|
        if !req && b.extra.isNone && ps.length == 2 then .point {} (ptOf ps)
        else if ps.length = 2 then .gpoint {} (ptOf ps) 0#64 0#64 none
        else if ps.length = 3 then .gpoint (zmFlags true false) (ptOf ps) (ps.getD 2 0#64) 0#64 none
        else .gpoint (zmFlags true true) (ptOf ps) (ps.getD 2 0#64) (ps.getD 3 0#64) none

/-- `parse_geojson_linestring`, tg.c:8172-8213. -/
def parseLine (json : Option J) (req : Bool) : P Geom :=
  (takeBasic json "coordinates").bind fun b =>
  if b.flags.isEmpty then finish b.flags b.extra (.gline emptyFlags none [] none)
  else
    (parsePosns sd .line 1 0 b.target).bind fun r =>
    finish b.flags b.extra <|
      if !req && b.extra.isNone && r.1 == 2 then .line {} (r.2.map ptOf)
      else .gline (dimFlags r.1 false) (some (r.2.map ptOf)) (if r.1 = 2 then [] else r.2.flatMap extraOf) none

/-- `parse_geojson_polygon`, tg.c:8254-8300. -/
def parsePolygon (json : Option J) (req : Bool) : P Geom :=
  (takeBasic json "coordinates").bind fun b =>
  if b.flags.isEmpty then finish b.flags b.extra (.gpoly emptyFlags none [] none)
  else
    (parseRings sd 2 0 b.target).bind fun r =>
    finish b.flags b.extra <|
      if !req && b.extra.isNone && r.1 == 2 then .poly {} (polyOf r.2)
      else .gpoly (dimFlags r.1 false) (some (polyOf r.2)) (if r.1 = 2 then [] else r.2.flatMap (·.flatMap extraOf)) none

/-- `parse_geojson_multipoint`, tg.c:8302-8335. Without positions `dims` is 0, which selects the constructor with Z and M. -/
def parseMPoint (json : Option J) : P Geom :=
  (takeBasic json "coordinates").bind fun b =>
  (parsePosns sd .point 1 0 b.target).bind fun r =>
  finish b.flags b.extra (.mpoint (dimFlags r.1 false) (some (r.2.map ptOf)) (if r.1 = 2 then [] else r.2.flatMap extraOf) none)

/-- `parse_geojson_multilinestring`, tg.c:8337-8394. -/
def parseMLine (json : Option J) : P Geom :=
  (takeBasic json "coordinates").bind fun b =>
  (arrLoop (depthErr 2) (parsePosns sd .line 2) (size b.target + 1) 0 (first b.target)).bind fun r =>
  finish b.flags b.extra
    (.mline (dimFlags r.1 false) (some (r.2.map fun l => some (l.map ptOf))) (if r.1 = 2 then [] else r.2.flatMap (·.flatMap extraOf)) none)

/-- `parse_geojson_multipolygon`, tg.c:8396-8459. -/
def parseMPoly (json : Option J) : P Geom :=
  (takeBasic json "coordinates").bind fun b =>
  (arrLoop (depthErr 3) (parseRings sd 3) (size b.target + 1) 0 (first b.target)).bind fun r =>
  finish b.flags b.extra
    (.mpoly (dimFlags r.1 false) (some (r.2.map fun rs => some (polyOf rs))) (if r.1 = 2 then [] else r.2.flatMap (·.flatMap (·.flatMap extraOf))) none)

/-- The loop over the children of a collection, tg.c:8469-8493, 8560-8579; `chk` is the message for a child of the wrong kind. -/
def childLoop (child : Option J → P Geom) (chk : Geom → Option String) : Nat → Option J → P (List Geom)
  | 0, _ => .ub
  | _ + 1, none => .ok []
  | f + 1, some v =>
    (child (some v)).bind fun g =>
    match chk g with
    | some e => .err e
    | none => (childLoop child chk f (next (some v))).bind fun gs => .ok (g :: gs)

/-- The types that a member of a GeometryCollection and the geometry of a Feature can have. -/
def onlyGeoms : String := "the 'type' of Point, LineString, Polygon, MultiPoint, MultiLineString, MultiPolygon, or GeometryCollection"

/-- `parse_geojson_geometrycollection`, tg.c:8464-8504. -/
def parseColl (child : Option J → P Geom) (json : Option J) : P Geom :=
  (takeBasic json "geometries").bind fun b =>
  (childLoop child (fun g => if g.flags.isFeature || g.flags.isFeatureCol then some ("'geometries' must only contain objects with " ++ onlyGeoms) else none)
    (size b.target + 1) (first b.target)).bind fun gs =>
  finish b.flags b.extra (.coll {} true gs [] none)

/-- `parse_geojson_feature`, tg.c:8506-8553. -/
def parseFeature (child : Option J → Bool → P Geom) (json : Option J) : P Geom :=
  (takeBasic json "geometry").bind fun b =>
  (if b.flags.isEmpty then .ok (.gpoint emptyFlags ⟨0#64, 0#64⟩ 0#64 0#64 none) else child b.target b.extra.isSome).bind fun g =>
  if g.flags.isFeature || g.flags.isFeatureCol then .err ("'geometry' must only contain an object with " ++ onlyGeoms)
  else
    let g := addFlags g { isFeature := true }
    match xjsonOf g with
    | none => finish b.flags b.extra g
    | some x =>
      -- `[feature-extra,geometry-extra]`
      finish b.flags (some (0x5B#8 :: ((b.extra.getD (txt "{}")) ++ 0x2C#8 :: (x ++ [0x5D#8])))) g

/-- `parse_geojson_featurecollection`, tg.c:8555-8591. -/
def parseFeatureColl (child : Option J → P Geom) (json : Option J) : P Geom :=
  (takeBasic json "features").bind fun b =>
  (childLoop child (fun g => if g.flags.isFeature then none else some "'features' must only contain objects with the 'type' of Feature")
    (size b.target + 1) (first b.target)).bind fun gs =>
  finish b.flags b.extra (.coll { isFeatureCol := true } true gs [] none)

/-- `parse_geojson`, tg.c:8593-8628. The first argument bounds the recursion. -/
def parseGeojson : Nat → Option J → Bool → P Geom
  | 0, _, _ => .ub
  | d + 1, json, req =>
    if jtype json ≠ .object then .err "expected an object"
    else
      match objGet json (txt "type") with
      | none => .err "'type' is required"
      | some t =>
        let name := copyStr (some t) 24
        if name = txt "Point" then parsePoint sd json req
        else if name = txt "LineString" then parseLine sd json req
        else if name = txt "Polygon" then parsePolygon sd json req
        else if name = txt "MultiPoint" then parseMPoint sd json
        else if name = txt "MultiLineString" then parseMLine sd json
        else if name = txt "MultiPolygon" then parseMPoly sd json
        else if name = txt "GeometryCollection" then parseColl (fun j => parseGeojson d j false) json
        else if name = txt "Feature" then parseFeature (parseGeojson d) json
        else if name = txt "FeatureCollection" then parseFeatureColl (fun j => parseGeojson d j false) json
        else .err ("unknown type '" ++ showBytes name ++ "'")

/-- `tg_parse_geojsonn_ix`, tg.c:8682-8700. -/
def tgParseGeojson (data : List Byte) : Res :=
  match jsonValidn data with
  | none => .ub
  | some false => .error "ParseError: invalid json"
  | some true =>
    match parseGeojson sd (data.length + 1) (parse data) false with
    | .ub => .ub
    | .err e => .error ("ParseError: " ++ e)
    | .ok g => .geom g

end Tg.Gp
