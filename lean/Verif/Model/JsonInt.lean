import Verif.Model.GeojsonParse
import Verif.Spec.Double
import Mathlib.Data.Rat.Floor
/-!
`json_int64`, `json_int` and `json_uint64` of the embedded json.c with `parse_int64` and `parse_uint64`, tg.c:7536-7577 and 7592-7625, where `long long` has 64 bits and `int` has 32.
`strtod` is the parameter `sd` of `Model/GeojsonParse.lean`. `none` is a conversion of a double to an integer type that cannot hold it, which has no defined behavior
(C11 6.3.1.4).
-/
namespace Tg.Json

open Spec.Double

/-- `isspace` of the C library. -/
def isSpace (b : Byte) : Bool := b == 0x20#8 || (0x09#8 ≤ b && b ≤ 0x0D#8)

/-- The number that digits spell. -/
def digitsVal (ds : List Byte) : Nat := ds.foldl (fun n b => n * 10 + (b.toNat - 48)) 0

/-- The sign at the start of a string and the number of bytes it takes. -/
def signOf : List Byte → Bool × Nat
  | [] => (false, 0)
  | b :: _ => if b = 0x2D#8 then (true, 1) else if b = 0x2B#8 then (false, 1) else (false, 0)

/-- What `strtoll` and `strtoull` with base 10 read: white space, a sign, digits. The sign, the number before it is cut to the range of the type, and how many bytes are read. -/
def scanInt (t : List Byte) : Bool × Nat × Nat :=
  let ws := (t.takeWhile isSpace).length
  let r := t.drop ws
  let sg := signOf r
  let ds := (r.drop sg.2).takeWhile isDigit
  if ds = [] then (false, 0, 0) else (sg.1, digitsVal ds, ws + sg.2 + ds.length)

/-- `strtoll(t, &ptr, 10)`: the number and `ptr - t`. -/
def strtoll (t : List Byte) : Int × Nat :=
  let s := scanInt t
  (if s.1 then (if (s.2.1 : Int) > 2 ^ 63 then -2 ^ 63 else -(s.2.1 : Int)) else if (s.2.1 : Int) > 2 ^ 63 - 1 then 2 ^ 63 - 1 else s.2.1, s.2.2)

/-- `strtoull(t, &ptr, 10)`: a number in range is negated in the type `unsigned long long` if there is a minus sign. -/
def strtoull (t : List Byte) : Int × Nat :=
  let s := scanInt t
  (if (s.2.1 : Int) > 2 ^ 64 - 1 then 2 ^ 64 - 1 else if s.1 then (-(s.2.1 : Int)) % 2 ^ 64 else s.2.1, s.2.2)

/-- `y < (double)b`, for `b` that is a double. -/
def dLt (y : F64) (b : Int) : Bool := if expo y < 2047 then decide (val y < b) else !F64.isNaN y && neg y

/-- `y > (double)b`, for `b` that is a double. -/
def dGt (y : F64) (b : Int) : Bool := if expo y < 2047 then decide (val y > b) else !F64.isNaN y && !neg y

/-- The conversion of a double to an integer type with the numbers from `lo` to `hi`: the fraction is dropped. -/
def dCast (lo hi : Int) (y : F64) : Option Int :=
  if expo y < 2047 then
    let n := if val y < 0 then ⌈val y⌉ else ⌊val y⌋
    if lo ≤ n ∧ n ≤ hi then some n else none
  else none

/-- The end of `parse_int64`, tg.c:7550-7553. `(double)INT64_MAX` is `2 ^ 63`. -/
def clampI (y : F64) : Option Int := if dLt y (-2 ^ 63) then some (-2 ^ 63) else if dGt y (2 ^ 63) then some (2 ^ 63 - 1) else dCast (-2 ^ 63) (2 ^ 63 - 1) y

/-- The end of `parse_uint64`, tg.c:7573-7576. `(double)UINT64_MAX` is `2 ^ 64`. -/
def clampU (y : F64) : Option Int := if dLt y 0 then some 0 else if dGt y (2 ^ 64) then some (2 ^ 64 - 1) else dCast 0 (2 ^ 64 - 1) y

variable (sd : List Byte → F64 × Nat)

/-- `parse_int64`, tg.c:7536-7554. -/
def parseInt64 (t : List Byte) : Option Int :=
  if t.length = 0 then some 0
  else if t.length < 21 then
    if (strtoll t).2 = t.length then some (strtoll t).1
    else if (sd t).2 = t.length then clampI (sd t).1
    else clampI (Gp.parseDouble sd t)
  else clampI (Gp.parseDouble sd t)

/-- `parse_uint64`, tg.c:7556-7577. -/
def parseUint64 (t : List Byte) : Option Int :=
  if t.length = 0 then some 0
  else if t.length < 21 ∧ t.head? ≠ some 0x2D#8 then
    if (strtoull t).2 = t.length then some (strtoull t).1
    else if (sd t).2 = t.length then clampU (sd t).1
    else clampU (Gp.parseDouble sd t)
  else clampU (Gp.parseDouble sd t)

/-- The types that `json_int64` distinguishes. -/
inductive Kind where
  | true | string | number | other

/-- `json_int64`, tg.c:7592-7604. -/
def int64 (k : Kind) (raw : List Byte) : Option Int :=
  match k with
  | .true => some 1
  | .string => if raw.length < 2 then some 0 else parseInt64 sd ((raw.drop 1).take (raw.length - 2))
  | .number => parseInt64 sd raw
  | .other => some 0

/-- `json_int`, tg.c:7606-7611. -/
def int (k : Kind) (raw : List Byte) : Option Int :=
  match int64 sd k raw with
  | none => none
  | some x => some (if x < -2 ^ 31 then -2 ^ 31 else if x > 2 ^ 31 - 1 then 2 ^ 31 - 1 else x)

/-- `json_uint64`, tg.c:7613-7625. -/
def uint64 (k : Kind) (raw : List Byte) : Option Int :=
  match k with
  | .true => some 1
  | .string => if raw.length < 2 then some 0 else parseUint64 sd ((raw.drop 1).take (raw.length - 2))
  | .number => parseUint64 sd raw
  | .other => some 0

end Tg.Json
