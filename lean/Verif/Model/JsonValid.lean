import Verif.Model.Bytes
/-!
The JSON validator of the embedded json.c (tg.c:6775-7086).

The C code passes `(data, dlen, i)`. Here the cursor `i` is the list of bytes from position `i`
to the end, so `i == dlen` is `l = []`, `i++` is `tail`, and `data[i]` on `[]` would be a read
outside the input (`ub`). The validators return `i` on success and `-(i+1)` on failure;
`V.pos l` and `V.neg l` stand for these two with `l` the bytes from position `i`.
-/
namespace Tg.Json

/-- Return value of the validator functions, see above. -/
inductive V where
  | ub
  | neg (l : List Byte)
  | pos (l : List Byte)
deriving Repr, DecidableEq

/-- The C expression `-(i+1)` for an `i` that may itself be a failure code: it turns
success positions into failure codes, and failure codes *back into positions*. -/
def V.flip : V → V
  | .ub => .ub
  | .neg l => .pos l
  | .pos l => .neg l

/-- `case ' ': case '\t': case '\n': case '\r'`. -/
def isWs (b : Byte) : Bool := b == 0x20 || b == 0x09 || b == 0x0A || b == 0x0D

/-- `>= '0' && <= '9'`. -/
def isDigit (b : Byte) : Bool := 0x30 ≤ b && b ≤ 0x39

/-- The hex digit test of `vesc`, tg.c:6823-6825. -/
def isHex (b : Byte) : Bool :=
  (0x30 ≤ b && b ≤ 0x39) || (0x61 ≤ b && b ≤ 0x66) || (0x41 ≤ b && b ≤ 0x46)

/-- `vutf8`, tg.c:6780-6809: the length of the sequence, or `none` for failure (`n == 0`). Outer
`none` is a read outside the input. -/
def vutf8 (l : List Byte) : Option (Option Nat) :=
  match l with
  | [] => none
  | b0 :: t =>
    let finish (cp n : Nat) : Option (Option Nat) :=
      if cp < 128 then some none
      else if cp ≥ 0x10FFFF then some none
      else if cp ≥ 0xD800 && cp ≤ 0xDFFF then some none
      else some (some n)
    if b0.toNat / 16 == 14 then
      if l.length < 3 then some none else
      match t with
      | b1 :: b2 :: _ =>
        if (b1.toNat / 64) ||| (b2.toNat / 64 * 4) ≠ 10 then some none
        else finish (b0.toNat % 16 * 4096 + b1.toNat % 64 * 64 + b2.toNat % 64) 3
      | _ => none
    else if b0.toNat / 8 == 30 then
      if l.length < 4 then some none else
      match t with
      | b1 :: b2 :: b3 :: _ =>
        if (b1.toNat / 64) ||| (b2.toNat / 64 * 4) ||| (b3.toNat / 64 * 16) ≠ 42 then some none
        else finish (b0.toNat % 8 * 262144 + b1.toNat % 64 * 4096 + b2.toNat % 64 * 64 + b3.toNat % 64) 4
      | _ => none
    else if b0.toNat / 32 == 6 then
      if l.length < 2 then some none else
      match t with
      | b1 :: _ =>
        if b1.toNat / 64 ≠ 2 then some none
        else finish (b0.toNat % 32 * 64 + b1.toNat % 64) 2
      | _ => none
    else some none

/-- The loop over the four hex digits of `vesc`, tg.c:6820-6826: `j` digits to go. -/
def vescHex : Nat → List Byte → V
  | 0, l => .pos l
  | _ + 1, [] => .neg []
  | j + 1, b :: t => if isHex b then vescHex j t else .neg (b :: t)

/-- `vesc`, tg.c:6811-6829. The cursor is at the backslash. -/
def vesc : List Byte → V
  | [] => .ub
  | _ :: [] => .neg []
  | _ :: b :: t =>
    if b == 0x22 || b == 0x5C || b == 0x2F || b == 0x62 || b == 0x66 || b == 0x6E ||
       b == 0x72 || b == 0x74 then .pos t
    else if b == 0x75 then vescHex 4 t
    else .neg (b :: t)

/-- The table `strtoksu`, tg.c:6849-6861: 0 ascii, 1 quote, 2 escape, 3-5 lead bytes of UTF-8
sequences, 6 error. -/
def strtoksu (b : Byte) : Nat :=
  if b < 0x20 then 6
  else if b < 0x80 then (if b == 0x22 then 1 else if b == 0x5C then 2 else 0)
  else if b < 0xC0 then 6
  else if b < 0xE0 then 3
  else if b < 0xF0 then 4
  else if b < 0xF8 then 5
  else 6

/-- `vstring`, tg.c:6863-6883, with a bound on the number of iterations (one per character). The
final `return -(i+1)` is reached with a negative `i` when `vesc` fails. -/
def vstringN : Nat → List Byte → V
  | 0, _ => .ub
  | _ + 1, [] => .neg []
  | n + 1, b :: t =>
    if strtoksu b = 0 then vstringN n t
    else if b == 0x22 then .pos t
    else if b > 0x7F then
      match vutf8 (b :: t) with
      | none => .ub
      | some none => .neg (b :: t)
      | some (some k) => vstringN n ((b :: t).drop k)
    else if b == 0x5C then
      match vesc (b :: t) with
      | .ub => .ub
      | .pos l => vstringN n l
      | .neg l => V.flip (.neg l)
    else .neg (b :: t)

/-- `vstring`. -/
def vstring (l : List Byte) : V := vstringN (l.length + 1) l

/-- `for (; i < dlen; i++) { if digit continue; break; }`. -/
def skipDigits : List Byte → List Byte
  | [] => []
  | b :: t => if isDigit b then skipDigits t else b :: t

/-- The exponent part of `vnumber`, tg.c:6915-6928. -/
def vexp (l : List Byte) : V :=
  match l with
  | [] => .pos []
  | b :: t =>
    if b == 0x65 || b == 0x45 then
      match t with
      | [] => .neg []
      | s :: t' =>
        let l2 := if s == 0x2B || s == 0x2D then t' else t
        match l2 with
        | [] => .neg []
        | d :: t2 => if isDigit d then .pos (skipDigits t2) else .neg (d :: t2)
    else .pos l

/-- The fraction and exponent of `vnumber`, tg.c:6903-6929. -/
def vfrac (l : List Byte) : V :=
  match l with
  | [] => .pos []
  | b :: t =>
    if b == 0x2E then
      match t with
      | [] => .neg []
      | d :: t2 => if isDigit d then vexp (skipDigits t2) else .neg (d :: t2)
    else vexp l

/-- The integer part of `vnumber`, tg.c:6894-6901. -/
def vint (l : List Byte) : V :=
  match l with
  | [] => .ub
  | b :: t => if b == 0x30 then vfrac t else vfrac (skipDigits l)

/-- `vnumber`, tg.c:6885-6929. The cursor is at the first character (the C function is called with
the next position and starts with `i--`). -/
def vnumber (l : List Byte) : V :=
  match l with
  | [] => .ub
  | b :: t =>
    if b == 0x2D then
      match t with
      | [] => .neg []
      | d :: _ => if isDigit d then vint t else .neg t
    else vint l

/-- `vtrue`, `vfalse`, `vnull`, tg.c:6931-6945: the remaining letters. -/
def vlit (w l : List Byte) : V := if w.isPrefixOf l then .pos (l.drop w.length) else .neg l

/-- `vcolon`, tg.c:6946-6957. -/
def vcolon : List Byte → V
  | [] => .neg []
  | b :: t => if b == 0x3A then .pos t else if isWs b then vcolon t else .neg (b :: t)

/-- `vcomma`, tg.c:6959-6971: stays at the comma or at the end character. -/
def vcomma (e : Byte) : List Byte → V
  | [] => .neg []
  | b :: t =>
    if b == 0x2C then .pos (b :: t) else if isWs b then vcomma e t
    else if b == e then .pos (b :: t) else .neg (b :: t)

/-- The element loop of `varray`, tg.c:6981-6985, with a bound on the number of elements. `child` is
`vany` at the next depth. -/
def arrLoop (child : List Byte → V) : Nat → List Byte → V
  | 0, _ => .ub
  | _ + 1, [] => .neg []
  | n + 1, b :: t =>
    match child (b :: t) with
    | .ub => .ub
    | .neg l => .neg l
    | .pos l =>
      match vcomma 0x5D l with
      | .ub => .ub
      | .neg l => .neg l
      | .pos [] => .ub
      | .pos (c :: t') => if c == 0x5D then .pos t' else arrLoop child n t'

/-- `varray`, tg.c:6975-6989. (Leaving the element loop at the end of the input gives a failure with a position
one past the end; the position of a failure is not used.) -/
def varray (child : List Byte → V) : List Byte → V
  | [] => .neg []
  | b :: t =>
    if isWs b then varray child t
    else if b == 0x5D then .pos t
    else arrLoop child ((b :: t).length + 1) (b :: t)

/-- `vkey`, tg.c:6991-6997. -/
def vkey : List Byte → V
  | [] => .neg []
  | b :: t =>
    if strtoksu b = 0 then vkey t
    else if b == 0x22 then .pos t
    else vstring (b :: t)

/-- The white space loop between a comma and the next key of `vobject`, tg.c:7012-7019. The cursor of the
result is after the opening quote. -/
def nextKey : List Byte → V
  | [] => .neg []
  | b :: t => if isWs b then nextKey t else if b == 0x22 then .pos t else .neg (b :: t)

/-- The member loop of `vobject` from the label `key`, tg.c:7004-7019, with a bound on the number of
members. The cursor is after the opening quote. -/
def objLoop (child : List Byte → V) : Nat → List Byte → V
  | 0, _ => .ub
  | n + 1, l =>
    match vkey l with
    | .ub => .ub
    | .neg l => .neg l
    | .pos l =>
    match vcolon l with
    | .ub => .ub
    | .neg l => .neg l
    | .pos l =>
    match child l with
    | .ub => .ub
    | .neg l => .neg l
    | .pos l =>
    match vcomma 0x7D l with
    | .ub => .ub
    | .neg l => .neg l
    | .pos [] => .ub
    | .pos (c :: t) =>
      if c == 0x7D then .pos t else
      match nextKey t with
      | .ub => .ub
      | .neg l => .neg l
      | .pos l => objLoop child n l

/-- `vobject`, tg.c:6999-7026. -/
def vobject (child : List Byte → V) : List Byte → V
  | [] => .neg []
  | b :: t =>
    if b == 0x22 then objLoop child (t.length + 1) t
    else if isWs b then vobject child t
    else if b == 0x7D then .pos t
    else .neg (b :: t)

/-- The body of `vany` below the depth check, tg.c:7030-7046. -/
def vanyBody (child : List Byte → V) : List Byte → V
  | [] => .neg []
  | b :: t =>
    if isWs b then vanyBody child t
    else if b == 0x7B then vobject child t
    else if b == 0x5B then varray child t
    else if b == 0x22 then vstring t
    else if b == 0x74 then vlit [0x72, 0x75, 0x65] t
    else if b == 0x66 then vlit [0x61, 0x6C, 0x73, 0x65] t
    else if b == 0x6E then vlit [0x75, 0x6C, 0x6C] t
    else if b == 0x2D || isDigit b then vnumber (b :: t)
    else .neg (b :: t)

/-- `vany`, tg.c:7028-7046. The first argument is `JSON_MAXDEPTH + 1 - depth`. -/
def vany : Nat → List Byte → V
  | 0, l => .neg l
  | r + 1, l => vanyBody (vany r) l

/-- The trailing white space loop of `vpayload`, tg.c:7054-7060. -/
def vtail : List Byte → V
  | [] => .pos []
  | b :: t => if isWs b then vtail t else .neg (b :: t)

/-- `vpayload`, tg.c:7048-7064. -/
def vpayload : List Byte → V
  | [] => .neg []
  | b :: t =>
    if isWs b then vpayload t
    else
      match vany 1024 (b :: t) with
      | .ub => .ub
      | .neg l => .neg l
      | .pos l => vtail l

/-- `json_validn`, tg.c:7067-7082; `none` if the validator misbehaves. Valid when the position is
positive. -/
def jsonValidn (data : List Byte) : Option Bool :=
  match vpayload data with
  | .ub => none
  | .neg _ => some false
  | .pos l => some (l.length < data.length)

end Tg.Json
