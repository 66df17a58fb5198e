import Verif.Model.WktParse
import Verif.Model.Hex
/-!
`tg_parse_ix`: tg.c:15383-15430. The GeoJSON parser is a parameter.
-/
namespace Tg

/-- The labels of `tg_parse_ix`. -/
inductive Fmt where
  | geojson | wkt | hex | wkb | geobin
deriving DecidableEq

/-- Outcome of the dispatch: `ub` for a character class function given a negative argument (`char` is signed), `null` for the early return. -/
inductive Det where
  | ub
  | null
  | fmt (f : Fmt)
deriving DecidableEq

/-- `isspace`, `isalpha` and `isxdigit` of the C locale, with the test given; the argument is a `char`, which is negative from 0x80 on. -/
def ctype (test : Nat → Bool) (c : Byte) : Option Bool := if c.toNat < 128 then some (test c.toNat) else none

/-- `isspace` -/
def cSpace (c : Byte) : Option Bool := ctype (fun n => n == 32 || (decide (9 ≤ n) && decide (n ≤ 13))) c
/-- `isalpha` -/
def cAlpha (c : Byte) : Option Bool := ctype (fun n => (decide (65 ≤ n) && decide (n ≤ 90)) || (decide (97 ≤ n) && decide (n ≤ 122))) c
/-- `isxdigit` -/
def cXdigit (c : Byte) : Option Bool :=
  ctype (fun n => (decide (48 ≤ n) && decide (n ≤ 57)) || (decide (65 ≤ n) && decide (n ≤ 70)) || (decide (97 ≤ n) && decide (n ≤ 102))) c

/-- The loop over the white space, tg.c:15392-15401. -/
def detectSpace : List Byte → Det
  | [] => .fmt .wkt
  | c :: t =>
    match cSpace c with
    | none => .ub
    | some true => detectSpace t
    | some false => if c = 0x7B#8 then .fmt .geojson else .fmt .wkt

/-- The loop that looks for something other than a hex digit, tg.c:15404-15414, on the bytes that are left of the first 16. -/
def detectHex : List Byte → Det
  | [] => .fmt .hex
  | c :: t =>
    match cXdigit c with
    | none => .ub
    | some true => detectHex t
    | some false => .fmt .wkt

/-- The dispatch of `tg_parse_ix`, tg.c:15384-15419. -/
def detect : List Byte → Det
  | [] => .null
  | c :: t =>
    if c = 0x7B#8 then .fmt .geojson
    else
      match cSpace c, cAlpha c, cXdigit c with
      | some sp, some al, some xd =>
        if sp then detectSpace t
        else if al || xd then detectHex ((c :: t).take 16)
        else if c = 0#8 ∨ c = 1#8 then .fmt .wkb
        else .fmt .geobin
      | _, _, _ => .ub

/-- What `tg_parse_ix` returns: NULL is `none`. -/
def tgParse (gj : List Byte → Res) (sd : List Byte → F64) (data : List Byte) : Option Res :=
  match detect data with
  | .ub => some .ub
  | .null => none
  | .fmt .geojson => some (gj data)
  | .fmt .wkt => some (Wp.tgParseWkt sd data)
  | .fmt .hex => some (tgParseHex data)
  | .fmt .wkb => some (tgParseWkb data)
  | .fmt .geobin => some (tgParseGeobin data)

end Tg
