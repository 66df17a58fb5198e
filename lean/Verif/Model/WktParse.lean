import Verif.Model.WkbParse
import Verif.Model.Number
/-!
`tg_parse_wkt`: tg.c:11916-12802.

A pointer into the text with the length that is left is the list of the bytes that are left. Every function gets the bytes of its slice and, in `after`, the bytes that
follow the slice in memory. Only the number conversion looks at `after`.

Outcomes: `ub` for a read outside the slice, a number conversion without a `)` to stop at, the use of a negative position, and a loop that has not ended
after as many turns as there are bytes. The theorems say that none of them happens. `strtod` is a parameter: the double that is read from the start of a byte string.
Allocation succeeds. Counts are not truncated to `int`: that needs a text of more than 2^31 bytes. The index option does not change what is seen here.
-/
namespace Tg.Wp

/-- Outcome of a parsing function. -/
inductive P (α : Type) where
  | ub
  | err (msg : String)
  | ok (a : α)

/-- The next step, unless there is none. -/
def P.bind {α β : Type} (x : P α) (k : α → P β) : P β :=
  match x with
  | .ub => .ub
  | .err e => .err e
  | .ok a => k a

/-- `wkt_invalid_err`, tg.c:11920-11923. -/
def invalidText : String := "invalid text"

/-- `isws`, tg.c:11925-11927. -/
def isWs (c : Byte) : Bool := c == 0x20#8 || c == 0x09#8 || c == 0x0A#8 || c == 0x0D#8

/-- `c >= '0' && c <= '9'`. -/
def isDigit (c : Byte) : Bool := decide (0x30#8 ≤ c) && decide (c ≤ 0x39#8)

/-- `isnum`, tg.c:11929-11931. -/
def isNum (c : Byte) : Bool := c == 0x2D#8 || isDigit c

/-- `wkt_trim_ws`, tg.c:11933-11938. -/
def trim (l : List Byte) : List Byte := l.dropWhile isWs

/-- What `wkt2type` returns. -/
inductive WType where
  | type (t : GType) (z m empty : Bool)
  | missing
  | badSpec
  | unknown (n : Nat)
deriving DecidableEq

/-- `if (c >= 'a' && c <= 'z') c -= 32`, tg.c:11960-11961, 12010. -/
def upper (c : Byte) : Byte := if decide (0x61#8 ≤ c) && decide (c ≤ 0x7A#8) then c - 32#8 else c

/-- The loop that fills `name`, tg.c:11951-11967. The name so far is in reverse. `none` is `goto bad_type`, `some none` is `return -1`. -/
def nameLoop : List Byte → List Byte → Nat → Option (Option (List Byte))
  | [], acc, _ => some (some acc.reverse)
  | b :: t, acc, nws =>
    if acc.length = 31 then none
    else if isWs b then
      if acc.head? == some 0x20#8 then nameLoop t acc nws
      else if 2 < nws + 1 then some none
      else nameLoop t (0x20#8 :: acc) (nws + 1)
    else nameLoop t (upper b :: acc) nws

/-- The end of the name: ` EMPTY`, then `ZM`, `Z` or `M` and a space, tg.c:11969-11996. Results: the name that is left, z, m, empty. -/
def nameEnd (name : List Byte) : List Byte × Bool × Bool × Bool :=
  let (name, empty) :=
    if 6 < name.length && name.drop (name.length - 6) == txt " EMPTY" then (name.take (name.length - 6), true) else (name, false)
  if 3 < name.length then
    let j := name.length
    let (j, z, m) :=
      if name[j-2]? == some 0x5A#8 && name[j-1]? == some 0x4D#8 then (j - 2, true, true)
      else if name[j-1]? == some 0x5A#8 then (j - 1, true, false)
      else if name[j-1]? == some 0x4D#8 then (j - 1, false, true)
      else (j, false, false)
    let j := if name[j-1]? == some 0x20#8 then j - 1 else j
    (name.take j, z, m, empty)
  else (name, false, false, empty)

/-- The comparisons with the names, tg.c:11998-12004; `strcmp` sees the name up to a null byte. -/
def nameType (name : List Byte) : Option GType :=
  if name = txt "POINT" then some .point
  else if name = txt "LINESTRING" then some .linestring
  else if name = txt "POLYGON" then some .polygon
  else if name = txt "MULTIPOINT" then some .multipoint
  else if name = txt "MULTILINESTRING" then some .multilinestring
  else if name = txt "MULTIPOLYGON" then some .multipolygon
  else if name = txt "GEOMETRYCOLLECTION" then some .collection
  else none

/-- `bad_type:`, tg.c:12006-12015. The length of the bad name; a length of 0 gives `-1`, which means a bad specifier. -/
def badType (l : List Byte) : WType :=
  let n := (l.takeWhile fun c => !isWs c && decide (0x41#8 ≤ upper c) && decide (upper c ≤ 0x5A#8)).length
  if n = 0 then .badSpec else .unknown n

/-- `wkt2type`, tg.c:11941-12013. -/
def wkt2type (l : List Byte) : WType :=
  match nameLoop l [] 0 with
  | none => badType l
  | some none => .badSpec
  | some (some name) =>
    let r := nameEnd name
    if r.1 = [] then .missing
    else
      let c := r.1.takeWhile (· != 0#8)
      match nameType c with
      | some t => .type t r.2.1 r.2.2.1 r.2.2.2
      | none => if c.contains 0x20#8 then .badSpec else badType l

/-- The loop of `wkt_balance_coords` after the first `(`, tg.c:12018-12037: what is inside and what comes after the closing `)`.
`none` is a negative result. -/
def balance : Nat → Nat → List Byte → Option (List Byte × List Byte)
  | _, _, [] => none
  | depth, maxdepth, b :: t =>
    if b = 0x28#8 then (balance (depth + 1) (maxdepth + 1) t).map fun r => (b :: r.1, r.2)
    else if b = 0x29#8 then
      if depth = 1 then (if MAXDEPTH < maxdepth then none else some ([], t))
      else (balance (depth - 1) maxdepth t).map fun r => (b :: r.1, r.2)
    else (balance depth maxdepth t).map fun r => (b :: r.1, r.2)

/-- The fraction in `wkt_vnumber`, tg.c:12052-12063. -/
def vFrac : List Byte → P (List Byte)
  | [] => .ok []
  | b :: t =>
    if b = 0x2E#8 then
      match t with
      | [] => .err invalidText
      | d :: u => if isDigit d then .ok (u.dropWhile isDigit) else .err invalidText
    else .ok (b :: t)

/-- The exponent in `wkt_vnumber`, tg.c:12064-12077. -/
def vExp : List Byte → P (List Byte)
  | [] => .ok []
  | b :: t =>
    if b = 0x65#8 ∨ b = 0x45#8 then
      match t with
      | [] => .err invalidText
      | s :: u =>
        match if s = 0x2B#8 ∨ s = 0x2D#8 then u else t with
        | [] => .err invalidText
        | d :: u => if isDigit d then .ok (u.dropWhile isDigit) else .err invalidText
    else .ok (b :: t)

/-- `wkt_vnumber`, tg.c:12036-12075: what is left after the number. The message is that of the callers. -/
def vnumber (l : List Byte) : P (List Byte) :=
  match l with
  | [] => .ub
  | b :: t =>
    -- sign
    if b = 0x2D#8 ∧ t = [] then .err invalidText
    else
      match if b = 0x2D#8 then t else l with
      | [] => .ub
      | c :: u =>
        -- int
        if !isDigit c && c != 0x2E#8 then .err invalidText
        else (vFrac ((c :: u).dropWhile isDigit)).bind vExp

/-- `strtod` at a position whose bytes up to the end of memory are `l`: it stops at a `)` at the latest. -/
def conv (sd : List Byte → F64) (l : List Byte) : P F64 := if 0x29#8 ∈ l then .ok (sd l) else .ub

/-- `err_for_wkt_posn`, tg.c:12081-12091. -/
def posnErr (dims : Nat) : String :=
  if dims = 2 then "each position must have two numbers"
  else if dims = 3 then "each position must have three numbers"
  else if dims = 4 then "each position must have four numbers"
  else "each position must have two to four numbers"

/-- `z ? m ? 4 : 3 : m ? 3 : 0`, tg.c:12097. -/
def dims0 (z m : Bool) : Nat := if z then (if m then 4 else 3) else if m then 3 else 0

variable (sd : List Byte → F64)

/-- The loop of `parse_wkt_point`, tg.c:12103-12119. -/
def pointLoop (dims : Nat) (after : List Byte) : Nat → List Byte → List F64 → P (List F64)
  | 0, _, _ => .ub
  | f + 1, l, ps =>
    (vnumber l).bind fun r =>
    if ps.length < 4 then
      (conv sd (l ++ after)).bind fun x =>
      match r with
      | [] => .ok (ps ++ [x])
      | c :: u =>
        if isWs c then
          match trim (c :: u) with
          | [] => .ok (ps ++ [x])
          | r' => pointLoop dims after f r' (ps ++ [x])
        else .err invalidText
    else .err (posnErr dims)

/-- `parse_wkt_point`, tg.c:12093-12145. -/
def parsePoint (z m : Bool) (s after : List Byte) : P Geom :=
  let dims := dims0 z m
  match trim s with
  | [] => .err (posnErr dims)
  | l =>
    (pointLoop sd dims after (l.length + 1) l []).bind fun ps =>
    if (if dims = 0 then ps.length < 2 else ps.length ≠ dims) then .err (posnErr dims)
    else
      let pt := ptOf ps
      .ok <|
        if ps.length = 2 then .point {} pt
        else if ps.length = 3 then
          if m then .gpoint (zmFlags false true) pt 0#64 (ps.getD 2 0#64) none else .gpoint (zmFlags true false) pt (ps.getD 2 0#64) 0#64 none
        else .gpoint (zmFlags true true) pt (ps.getD 2 0#64) (ps.getD 3 0#64) none

/-- The loop over the numbers of one position, tg.c:12176-12208. -/
def numLoop (dims : Nat) (after : List Byte) : Nat → List Byte → List F64 → P (List Byte × List F64)
  | 0, _, _ => .ub
  | f + 1, l, ps =>
    match l with
    | [] => .ok ([], ps)
    | b :: t =>
      if isNum b then
        (vnumber (b :: t)).bind fun r =>
        (conv sd (b :: t ++ after)).bind fun x =>
        if ps.length = 4 then .err (posnErr dims)
        else
          match r with
          | [] => .ok ([], ps ++ [x])
          | c :: u =>
            if isWs c then
              match trim u with
              | [] => .ok ([], ps ++ [x])
              | c' :: u' => if c' = 0x29#8 ∨ c' = 0x2C#8 then .ok (c' :: u', ps ++ [x]) else numLoop dims after f (c' :: u') (ps ++ [x])
            else .ok (c :: u, ps ++ [x])
      else .err invalidText

/-- What a character is expected for, `wkt_trim_ws(wkt, len, i+1)` after it, if `x` is set; tg.c:12168-12174, 12209-12215. -/
def expect (x : Bool) (c : Byte) (l : List Byte) : P (List Byte) :=
  if x then
    match l with
    | [] => .err invalidText
    | b :: t => if b = c then .ok (trim t) else .err invalidText
  else .ok l

/-- The comma between positions, tg.c:12216-12226. -/
def comma : List Byte → P (List Byte)
  | [] => .ok []
  | b :: t => if b = 0x2C#8 then (match trim t with | [] => .err invalidText | r => .ok r) else .err invalidText

/-- The loop over the positions in `parse_wkt_posns`, tg.c:12167-12243. Results: `dims` and the positions. -/
def posnLoop (xparens : Bool) (after : List Byte) : Nat → Nat → List Byte → P (Nat × List (List F64))
  | 0, _, _ => .ub
  | f + 1, dims, l =>
    match l with
    | [] => .ok (dims, [])
    | b :: t =>
      (expect xparens 0x28#8 (b :: t)).bind fun l1 =>
      (numLoop sd dims after (l1.length + 1) l1 []).bind fun r =>
      (expect xparens 0x29#8 r.1).bind fun l3 =>
      (comma l3).bind fun l4 =>
      if dims ≠ r.2.length ∧ ¬ (dims = 0 ∧ 2 ≤ r.2.length) then .err (posnErr dims)
      else (posnLoop xparens after f r.2.length l4).bind fun q => .ok (q.1, r.2 :: q.2)

/-- The kind of series, `enum base`. -/
inductive Base where
  | point | line | ring
deriving DecidableEq

/-- `check_parse_posns`, tg.c:8097-8121. -/
def checkBase (b : Base) (pts : List Pt) : Option String :=
  match b with
  | .point => none
  | .line => checkPosns false pts
  | .ring => checkPosns true pts

/-- `parse_wkt_posns` before the check at its end, tg.c:12150-12243. -/
def rawPosns (base : Base) (dims : Nat) (s after : List Byte) : P (Nat × List (List F64)) :=
  match trim s with
  | [] => .ok (dims, [])
  | b :: t => posnLoop sd (decide (base = Base.point) && b == 0x28#8) after (s.length + 1) dims (b :: t)

/-- `parse_wkt_posns`, tg.c:12147-12246. Results: `dims` and the positions; the callers keep the first two numbers of each in `posns` and the others in `xcoords`. -/
def parsePosns (base : Base) (dims : Nat) (s after : List Byte) : P (Nat × List (List F64)) :=
  (rawPosns sd base dims s after).bind fun r =>
  match checkBase base (r.2.map ptOf) with
  | some e => .err e
  | none => .ok r

/-- The loop over groups in parentheses, in `parse_wkt_multi_posns` (tg.c:12253-12284), `parse_wkt_multilinestring` (tg.c:12446-12480) and
`parse_wkt_multipolygon` (tg.c:12532-12564); `inner` is what is done with a group. A negative position from `wkt_balance_coords` is not checked for. -/
def groupLoop {α : Type} (inner : Nat → List Byte → List Byte → P (Nat × α)) (after : List Byte) : Nat → Nat → List Byte → P (Nat × List α)
  | 0, _, _ => .ub
  | f + 1, dims, l =>
    match l with
    | [] => .ok (dims, [])
    | b :: t =>
      if b = 0x28#8 then
        match balance 1 1 t with
        | none => .ub
        | some (grp, r) =>
          (inner dims grp (0x29#8 :: (r ++ after))).bind fun a =>
          match trim r with
          | [] => .ok (a.1, [a.2])
          | c :: u =>
            if c = 0x2C#8 then
              match trim u with
              | [] => .err invalidText
              | u' => (groupLoop inner after f a.1 u').bind fun q => .ok (q.1, a.2 :: q.2)
            else .err invalidText
      else .err invalidText

/-- `parse_wkt_multi_posns`, tg.c:12248-12302: the rings of a polygon. -/
def parseRings (dims : Nat) (s after : List Byte) : P (Nat × List (List (List F64))) :=
  (groupLoop (parsePosns sd .ring) after (s.length + 1) dims (trim s)).bind fun r =>
  if r.2 = [] then .err "polygons must have one or more rings" else .ok r

/-- The flags the constructors chosen by `switch (dims)` give, tg.c:12322-12337, 12358-12373, 12402-12419, 12481-12502, 12565-12586. -/
def dimFlags (dims : Nat) (m : Bool) : Flags :=
  if dims = 2 then {} else if dims = 3 then (if m then zmFlags false true else zmFlags true false) else zmFlags true true

/-- `parse_wkt_linestring`, tg.c:12304-12350. -/
def parseLine (z m : Bool) (s after : List Byte) : P Geom :=
  (parsePosns sd .line (dims0 z m) s after).bind fun r =>
  .ok <| if r.1 = 2 then .line {} (r.2.map ptOf) else .gline (dimFlags r.1 m) (some (r.2.map ptOf)) (r.2.flatMap extraOf) none

/-- `tg_poly_new(rings->data[0], rings->data+1, rings->len-1)`, tg.c:12295-12296, of a list that is not empty. -/
def polyOf (rs : List (List (List F64))) : Poly := (polyOfRings (rs.map (·.map ptOf))).getD ⟨[], []⟩

/-- `parse_wkt_polygon`, tg.c:12352-12388. -/
def parsePolygon (z m : Bool) (s after : List Byte) : P Geom :=
  (parseRings sd (dims0 z m) s after).bind fun r =>
  .ok <| if r.1 = 2 then .poly {} (polyOf r.2) else .gpoly (dimFlags r.1 m) (some (polyOf r.2)) (r.2.flatMap (·.flatMap extraOf)) none

/-- `parse_wkt_multipoint`, tg.c:12388-12434. Without positions `dims` can be 0, which selects the constructor with Z and M. -/
def parseMPoint (z m : Bool) (s after : List Byte) : P Geom :=
  (parsePosns sd .point (dims0 z m) s after).bind fun r =>
  .ok (.mpoint (dimFlags r.1 m) (some (r.2.map ptOf)) (r.2.flatMap extraOf) none)

/-- `parse_wkt_multilinestring`, tg.c:12436-12519. -/
def parseMLine (z m : Bool) (s after : List Byte) : P Geom :=
  (groupLoop (parsePosns sd .line) after (s.length + 1) (dims0 z m) (trim s)).bind fun r =>
  .ok (.mline (dimFlags r.1 m) (some (r.2.map fun l => some (l.map ptOf))) (r.2.flatMap (·.flatMap extraOf)) none)

/-- `parse_wkt_multipolygon`, tg.c:12521-12610. -/
def parseMPoly (z m : Bool) (s after : List Byte) : P Geom :=
  (groupLoop (parseRings sd) after (s.length + 1) (dims0 z m) (trim s)).bind fun r =>
  .ok (.mpoly (dimFlags r.1 m) (some (r.2.map fun rs => some (polyOf rs))) (r.2.flatMap (·.flatMap (·.flatMap extraOf))) none)

/-- `wkt_next_geometry`, tg.c:12612-12620: the bytes up to there, and the rest. -/
def nextGeometry : List Byte → Option (List Byte × List Byte)
  | [] => some ([], [])
  | b :: t =>
    if b = 0x2C#8 then some ([], b :: t)
    else if b = 0x28#8 then (balance 1 1 t).map fun r => (b :: (r.1 ++ [0x29#8]), r.2)
    else (nextGeometry t).map fun r => (b :: r.1, r.2)

/-- The loop of `parse_wkt_geometrycollection`, tg.c:12632-12658. Results: the commas and the children. -/
def collLoop (child : List Byte → List Byte → P Geom) (after : List Byte) : Nat → List Byte → P (Nat × List Geom)
  | 0, _ => .ub
  | f + 1, l =>
    match l with
    | [] => .ok (0, [])
    | b :: t =>
      match nextGeometry (b :: t) with
      | none => .ub
      | some (c, r) =>
        (if c = [] then .ok [] else (child c (r ++ after)).bind fun g => .ok [g]).bind fun gs =>
        match trim r with
        | [] => .ok (0, gs)
        | d :: u =>
          if d = 0x2C#8 then (collLoop child after f u).bind fun q => .ok (q.1 + 1, gs ++ q.2)
          else .err invalidText

/-- `parse_wkt_geometrycollection`, tg.c:12624-12679. -/
def parseColl (child : List Byte → List Byte → P Geom) (s after : List Byte) : P Geom :=
  (collLoop child after (s.length + 1) s).bind fun r =>
  if r.1 + 1 ≠ r.2.length then .err "missing type" else .ok (.coll {} true r.2 [] none)

/-- The constructors of empty geometries, tg.c:12705-12715. -/
def emptyGeom : GType → Geom
  | .point => .gpoint emptyFlags ⟨0#64, 0#64⟩ 0#64 0#64 none
  | .linestring => .gline emptyFlags none [] none
  | .polygon => .gpoly emptyFlags none [] none
  | .multipoint => .mpoint emptyFlags none [] none
  | .multilinestring => .mline emptyFlags none [] none
  | .multipolygon => .mpoly emptyFlags none [] none
  | .collection => .coll emptyFlags false [] [] none

/-- `while (e-1 > s && isws(wkt[e-1])) e--`, tg.c:12688, on the bytes between `s` and `e`: the first byte stays. -/
def trimEnd : List Byte → List Byte
  | [] => []
  | b :: t => b :: (t.reverse.dropWhile isWs).reverse

/-- The bytes printed by `%.*s`: as characters. -/
def showBytes (l : List Byte) : String := String.ofList ((l.takeWhile (· != 0#8)).map fun b => Char.ofNat b.toNat)

/-- `parse_wkt`, tg.c:12681-12742. The first argument bounds the recursion through collections. -/
def parseWkt : Nat → List Byte → List Byte → P Geom
  | 0, _, _ => .ub
  | d + 1, s, after =>
    if s = [] then .err "missing type"
    else
      let l := trim s
      let head := l.takeWhile (· != 0x28#8)
      let rest := l.dropWhile (· != 0x28#8)
      match wkt2type (trimEnd head) with
      | .missing => .err "missing type"
      | .badSpec => .err "invalid type specifier, expected 'Z', 'M', 'ZM', or 'EMPTY'"
      | .unknown n => .err ("unknown type '" ++ showBytes ((trimEnd head).take n) ++ "'")
      | .type t z m empty =>
        if empty then .ok (emptyGeom t)
        else
          match rest with
          | [] => .err invalidText
          | _ :: u =>
            match balance 1 1 u with
            | none => .err invalidText
            | some (grp, r) =>
              if r.any (fun c => !isWs c) then .err invalidText
              else
                let after := 0x29#8 :: (r ++ after)
                match t with
                | .point => parsePoint sd z m grp after
                | .linestring => parseLine sd z m grp after
                | .polygon => parsePolygon sd z m grp after
                | .multipoint => parseMPoint sd z m grp after
                | .multilinestring => parseMLine sd z m grp after
                | .multipolygon => parseMPoly sd z m grp after
                | .collection => parseColl (parseWkt d) grp after

/-- `tg_parse_wktn_ix`, tg.c:12790-12801. One level more than the parentheses allow. -/
def tgParseWkt (data : List Byte) : Res :=
  match parseWkt sd (MAXDEPTH + 1) data [] with
  | .ub => .ub
  | .err e => .error ("ParseError: " ++ e)
  | .ok g => .geom g

end Tg.Wp
