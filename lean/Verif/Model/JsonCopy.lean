import Verif.Model.JsonNav
/-!
`json_string_copy` and `json_string_length` of the embedded json.c, tg.c:7336-7472, with the loop `for_each_utf8` over the places in the string.
A `struct json` is given by its kind (`json_type(json) == JSON_STRING`), the flag `IESC`, and the bytes `jraw(json)[0 .. json_raw_length(json))`; a read outside
of these, or outside of the string in the case of the loop, has no result.
-/
namespace Tg.Json

/-- `decode_hex(data)` at a place of the string, tg.c:7298-7301. -/
def hexAt (a : List Byte) (i : Nat) : Option Nat :=
  match a[i]?, a[i + 1]?, a[i + 2]?, a[i + 3]? with
  | some h1, some h2, some h3, some h4 => some (hex4 h1 h2 h3 h4)
  | _, _, _, _ => none

/-- `for_each_utf8`, tg.c:7339-7384, from the place `ii` on: the values of `ch` for which `f` is run. The first argument bounds the number of turns. `nn = 0` ends the loop. -/
def utf8Loop (a : List Byte) : Nat → Nat → Option (List Byte)
  | 0, _ => none
  | k + 1, ii =>
    if ii < a.length then
      match a[ii]? with
      | none => none
      | some c =>
        if c ≠ 0x5C#8 then (utf8Loop a k (ii + 1)).map (c :: ·)
        else if ii + 1 = a.length then some []
        else
          match a[ii + 1]? with
          | none => none
          | some c =>
            if c = 0x75#8 then
              if ii + 1 + 5 > a.length then some []
              else
                match hexAt a (ii + 1 + 1) with
                | none => none
                | some cp =>
                  if isSurr cp && (decide (a.length - (ii + 1 + 5) ≥ 6) && (a[ii + 1 + 5]? == some 0x5C#8 && a[ii + 1 + 5 + 1]? == some 0x75#8)) then
                    match hexAt a (ii + 1 + 5 + 2) with
                    | none => none
                    | some cp2 => (utf8Loop a k (ii + 1 + 5 + 6)).map (encodeCp (decodeCp cp cp2) ++ ·)
                  else (utf8Loop a k (ii + 1 + 5)).map (encodeCp cp ++ ·)
            else
              match escChr c with
              | some ch => (utf8Loop a k (ii + 1 + 1)).map (ch :: ·)
              | none => utf8Loop a k (ii + 1 + 1)
    else some []

/-- `if (count < n) str[count] = ch; count++;`, tg.c:7465-7466, for each of the bytes. `none` is a store outside of the block. -/
def copyLoop (n : Nat) : List Byte → List Byte → Nat → Option (List Byte × Nat)
  | [], str, count => some (str, count)
  | ch :: cs, str, count =>
    if count < n then
      if count < str.length then copyLoop n cs (str.set count ch) (count + 1) else none
    else copyLoop n cs str (count + 1)

/-- `json_string_copy(json, str, n)`, tg.c:7447-7472, for a block `str` of `n` bytes: the block afterwards and the result. -/
def stringCopy (isjsonstr iesc : Bool) (raw str : List Byte) : Option (List Byte × Nat) :=
  let n := str.length
  let len := if isjsonstr then (if raw.length < 2 then 0 else raw.length - 2) else raw.length
  let raw := if isjsonstr then raw.drop 1 else raw
  if !(isjsonstr && iesc) then
    if n = 0 then some (str, len)
    else
      let n := if n - 1 < len then n - 1 else len
      if n ≤ raw.length ∧ n < str.length then some (raw.take n ++ 0#8 :: str.drop (n + 1), len) else none
  else
    match utf8Loop (raw.take len) (len + 1) 0 with
    | none => none
    | some s =>
      match copyLoop n s str 0 with
      | none => none
      | some (str, count) =>
        if n > count then (if count < str.length then some (str.set count 0#8, count) else none)
        else if n > 0 then (if n - 1 < str.length then some (str.set (n - 1) 0#8, count) else none)
        else some (str, count)

/-- `json_string_length`, tg.c:7398-7411. -/
def stringLength (isjsonstr iesc : Bool) (raw : List Byte) : Option Nat :=
  if !isjsonstr then some raw.length
  else
    let len := if raw.length < 2 then 0 else raw.length - 2
    if !iesc then some len else (utf8Loop ((raw.drop 1).take len) (len + 1) 0).map (·.length)

end Tg.Json
