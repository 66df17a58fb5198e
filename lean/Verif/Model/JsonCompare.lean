import Verif.Model.JsonCopy
/-!
`json_raw_comparen` and `json_string_comparen` of the embedded json.c, tg.c:7282-7289 and 7386-7445. A value is given as in
`Model/JsonCopy.lean`.
-/
namespace Tg.Json

/-- `strncmp(a, b, n)` of the C library on arrays of at least `n` bytes: bytes are compared as `unsigned char` up to the first difference, a zero in both, or `n`. Only
the sign of the result is told by the standard. `none` is a read outside of an array. -/
def strncmp : Nat → List Byte → List Byte → Option Int
  | 0, _, _ => some 0
  | n + 1, x :: xs, y :: ys => if x < y then some (-1) else if y < x then some 1 else if x = 0#8 then some 0 else strncmp n xs ys
  | _ + 1, _, _ => none

/-- `strcmpn`, tg.c:7282-7289. -/
def strcmpn (a b : List Byte) : Option Int :=
  let n := if a.length < b.length then a.length else b.length
  match strncmp n a b with
  | none => none
  | some cmp => some (if cmp = 0 then (if a.length < b.length then -1 else if a.length > b.length then 1 else 0) else cmp)

/-- The body of the loop of `json_string_comparen` and what follows it, tg.c:7427-7440, for the values of `ch`; the second list is what is left of the C string at `sp`. -/
def cmpLoop : List Byte → List Byte → Int
  | [], sp => if sp ≠ [] then -1 else 0
  | _ :: _, [] => 1
  | ch :: cs, k :: sp => if ch > k then 1 else if ch < k then -1 else cmpLoop cs sp

/-- `json_string_comparen`, tg.c:7413-7441, and `json_raw_comparen`, tg.c:7386-7392, for values that are no strings. `str` is the bytes before the zero that ends the C string
at the pointer; `slen` is at most their number. The loop for escaped strings does not use `slen`. -/
def stringCompareN (isjsonstr iesc : Bool) (raw str : List Byte) (slen : Nat) : Option Int :=
  if !isjsonstr then strcmpn raw (str.take slen)
  else
    let rlen := if raw.length < 2 then 0 else raw.length - 2
    let raw := (raw.drop 1).take rlen
    if !iesc then strcmpn raw (str.take slen)
    else
      match utf8Loop raw (rlen + 1) 0 with
      | none => none
      | some chs => some (cmpLoop chs str)

/-- `json_string_compare`, tg.c:7443-7445. -/
def stringCompare (isjsonstr iesc : Bool) (raw str : List Byte) : Option Int := stringCompareN isjsonstr iesc raw str str.length

end Tg.Json
