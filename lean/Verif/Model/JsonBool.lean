import Verif.Model.JsonCompare
import Verif.Model.JsonInt
/-!
`json_double` and `json_bool` of the embedded json.c, tg.c:7578-7590 and 7627-7643. `strtod` is the parameter `sd` of `Model/GeojsonParse.lean`.
-/
namespace Tg.Json

/-- `json_double`, tg.c:7578-7590. -/
def double (sd : List Byte → F64 × Nat) (k : Kind) (raw : List Byte) : F64 :=
  match k with
  | .true => 0x3FF0000000000000#64
  | .string => if raw.length < 3 then 0#64 else Gp.parseDouble sd ((raw.drop 1).take (raw.length - 2))
  | .number => Gp.parseDouble sd raw
  | .other => 0#64

/-- The array `trues`, tg.c:7634. -/
def trues : List (List Byte) := [txt "1", txt "t", txt "T", txt "true", txt "TRUE", txt "True"]

/-- The loop of `json_bool`, tg.c:7635-7637. -/
def boolLoop (iesc : Bool) (raw : List Byte) : List (List Byte) → Option Bool
  | [] => some false
  | s :: ss =>
    match stringCompare true iesc raw s with
    | none => none
    | some r => if r = 0 then some true else boolLoop iesc raw ss

/-- `json_bool`, tg.c:7627-7643. `none` is a read outside of the string. -/
def bool (sd : List Byte → F64 × Nat) (k : Kind) (iesc : Bool) (raw : List Byte) : Option Bool :=
  match k with
  | .true => some true
  | .number => some (!F64.feq (double sd .number raw) 0#64)
  | .string => boolLoop iesc raw trues
  | .other => some false

end Tg.Json
