import Verif.Model.Number
/-!
Navigation in a JSON text: the functions of the embedded json.c that the GeoJSON writer uses (tg.c:7088-7503).

`struct json` holds a pointer into the text, the end of the text, a length and flags (tg.c:7091-7098). Here the two pointers are the bytes from the one to the other. A `struct json` with
NULL pointers is `none`. The unrolled loops `for8`, `for16` are loops over the bytes. The bytes that are passed over are kept where the code looks back.
-/
namespace Tg.Json

/-- A non-NULL `struct json`, tg.c:7091-7098: the bytes from `raw` to `end`, `len` (0 = not known yet), and the flag `IESC`. -/
structure J where
  raw : List Byte
  len : Nat
  esc : Bool
deriving DecidableEq, Repr

/-- `count_string` after the opening quote, tg.c:7106-7133: the number of bytes passed, and whether a backslash was seen. -/
def countStr (e esc : Bool) : List Byte → Nat × Bool
  | [] => (0, esc)
  | b :: t =>
    if b == 0x22#8 then
      if e then ((countStr false esc t).1 + 1, (countStr false esc t).2) else (1, esc)
    else if b == 0x5C#8 then ((countStr (!e) true t).1 + 1, (countStr (!e) true t).2)
    else ((countStr false esc t).1 + 1, (countStr false esc t).2)

/-- `numtoks[b] != 0`, tg.c:7141-7147: `+ - .`, digits, `e`, `E`. -/
def numTok (b : Byte) : Bool :=
  b == 0x2B#8 || b == 0x2D#8 || b == 0x2E#8 || (0x30#8 ≤ b && b ≤ 0x39#8) || b == 0x45#8 || b == 0x65#8

/-- `count_nested` after the opening bracket, tg.c:7168-7206. `inStr`: between the quotes of a string; `k`: `depth - 1`; `rev`: the bytes before, last first.
A quote ends the string unless an odd number of backslashes stands before it. (The loop that counts them does not look at the first byte, which is a bracket.) -/
def countNest (inStr : Bool) (k : Nat) (rev : List Byte) : List Byte → Nat
  | [] => 0
  | b :: t =>
    if inStr then
      if b == 0x22#8 && (rev.takeWhile (· == 0x5C#8)).length % 2 == 0 then countNest false k (b :: rev) t + 1
      else countNest true k (b :: rev) t + 1
    else if b == 0x22#8 then countNest true k (b :: rev) t + 1
    else if b == 0x5B#8 || b == 0x7B#8 then countNest false (k + 1) (b :: rev) t + 1
    else if b == 0x5D#8 || b == 0x7D#8 then
      match k with
      | 0 => 1
      | k + 1 => countNest false k (b :: rev) t + 1
    else countNest false k (b :: rev) t + 1

/-- `count_nested`, tg.c:7168-7202; the text has at least the bracket. -/
def nestLen : List Byte → Nat
  | [] => 1
  | b :: t => countNest false 0 [b] t + 1

/-- `peek_any`, tg.c:7209-7224, with `take_string` (tg.c:7135-7139), `take_number` (tg.c:7149-7159), `take_literal` (tg.c:7204-7207). -/
def peekAny : List Byte → Option J
  | [] => none
  | b :: t =>
    if b == 0x7D#8 || b == 0x5D#8 then none
    else if b == 0x7B#8 || b == 0x5B#8 then some ⟨b :: t, 0, false⟩
    else if b == 0x22#8 then some ⟨b :: t, (countStr false false t).1 + 1, (countStr false false t).2⟩
    else if b == 0x6E#8 || b == 0x74#8 then some ⟨b :: t, min (t.length + 1) 4, false⟩
    else if b == 0x66#8 then some ⟨b :: t, min (t.length + 1) 5, false⟩
    else if b == 0x2D#8 || (0x30#8 ≤ b && b ≤ 0x39#8) then some ⟨b :: t, (t.takeWhile numTok).length + 1, false⟩
    else peekAny t

/-- `json_first`, tg.c:7226-7231. -/
def first : Option J → Option J
  | some ⟨b :: t, _, _⟩ => if b == 0x7B#8 || b == 0x5B#8 then peekAny t else none
  | _ => none

/-- `json_raw_length`, tg.c:7261-7265. -/
def rawLen : Option J → Nat
  | none => 0
  | some j => if j.len ≠ 0 then j.len else if j.raw ≠ [] then nestLen j.raw else 0

/-- `json_next`, tg.c:7233-7239. -/
def next : Option J → Option J
  | none => none
  | some j => if j.raw = [] then none else peekAny (j.raw.drop (rawLen (some j)))

/-- `json_parse` (`json_parsen` with `strlen`), tg.c:7241-7251. -/
def parse : List Byte → Option J
  | [] => none
  | b :: t => if b == 0x5B#8 || b == 0x7B#8 then some ⟨b :: t, 0, false⟩ else peekAny (b :: t)

/-- `json_ensure`, tg.c:7278-7280. -/
def ensure : Option J → Option J
  | none => none
  | some j => some { j with len := rawLen (some j) }

/-- The first byte, by which `json_type` (tg.c:7267-7276) tells the type. -/
def head (j : Option J) : Byte := match j with
  | some ⟨b :: _, _, _⟩ => b
  | _ => 0#8

/-- `json_type(j) == JSON_OBJECT`, `JSON_ARRAY`, `JSON_STRING`. -/
def isObj (j : Option J) : Bool := head j == 0x7B#8
def isArr (j : Option J) : Bool := head j == 0x5B#8
def isStr (j : Option J) : Bool := head j == 0x22#8

/-- The bytes `json_raw(j)[0 .. json_raw_length(j))`. -/
def rawOf (j : Option J) : List Byte := match j with
  | none => []
  | some j => j.raw.take (rawLen (some j))

/-- `hextoks`, tg.c:7291-7296. -/
def hexVal (b : Byte) : Nat :=
  if 0x30 ≤ b.toNat ∧ b.toNat ≤ 0x39 then b.toNat - 0x30
  else if 0x41 ≤ b.toNat ∧ b.toNat ≤ 0x46 then b.toNat - 0x41 + 10
  else if 0x61 ≤ b.toNat ∧ b.toNat ≤ 0x66 then b.toNat - 0x61 + 10
  else 0

/-- `decode_hex`, tg.c:7298-7301. -/
def hex4 (a b c d : Byte) : Nat := hexVal a * 4096 + hexVal b * 256 + hexVal c * 16 + hexVal d

/-- `is_surrogate`, tg.c:7303-7305. -/
def isSurr (cp : Nat) : Bool := 55296 < cp && cp < 57344

/-- `decode_codepoint`, tg.c:7307-7311. The `|` there is not an addition. -/
def decodeCp (cp1 cp2 : Nat) : Nat :=
  if 55296 < cp1 && cp1 < 56320 && 56320 < cp2 && cp2 < 57344 then ((cp1 - 55296) * 1024) ||| ((cp2 - 56320) + 65536) else 65533

/-- `encode_codepoint`, tg.c:7313-7335. -/
def encodeCp (cp : Nat) : List Byte :=
  let b (n : Nat) : Byte := BitVec.ofNat 8 n
  if cp < 128 then [b cp]
  else if cp < 2048 then [b (192 + cp / 64), b (128 + cp % 64)]
  else
    let cp := if 1114111 < cp || isSurr cp then 65533 else cp
    if cp < 65536 then [b (224 + cp / 4096), b (128 + cp / 64 % 64), b (128 + cp % 64)]
    else [b (240 + cp / 262144), b (128 + cp / 4096 % 64), b (128 + cp / 64 % 64), b (128 + cp % 64)]

/-- The character of a short escape, tg.c:7351-7359. -/
def escChr (c : Byte) : Option Byte :=
  if c == 0x5C#8 || c == 0x2F#8 || c == 0x22#8 then some c
  else if c == 0x62#8 then some 0x08#8
  else if c == 0x66#8 then some 0x0C#8
  else if c == 0x6E#8 then some 0x0A#8
  else if c == 0x72#8 then some 0x0D#8
  else if c == 0x74#8 then some 0x09#8
  else none

/-- The bytes that `for_each_utf8` yields, tg.c:7340-7384. -/
def unescape : List Byte → List Byte
  | [] => []
  | 0x5C#8 :: 0x75#8 :: h1 :: h2 :: h3 :: h4 :: 0x5C#8 :: 0x75#8 :: g1 :: g2 :: g3 :: g4 :: t =>
    if isSurr (hex4 h1 h2 h3 h4) then encodeCp (decodeCp (hex4 h1 h2 h3 h4) (hex4 g1 g2 g3 g4)) ++ unescape t
    else encodeCp (hex4 h1 h2 h3 h4) ++ unescape (0x5C#8 :: 0x75#8 :: g1 :: g2 :: g3 :: g4 :: t)
  | 0x5C#8 :: 0x75#8 :: h1 :: h2 :: h3 :: h4 :: t => encodeCp (hex4 h1 h2 h3 h4) ++ unescape t
  | 0x5C#8 :: 0x75#8 :: _ => []
  | 0x5C#8 :: c :: t => (escChr c).toList ++ unescape t
  | 0x5C#8 :: [] => []
  | b :: t => b :: unescape t

/-- `json_string_compare(j, key) == 0`, tg.c:7413-7445. A key is a C string, so `strncmp` on equal lengths finds equality only of equal bytes. -/
def strEq (j : Option J) (key : List Byte) : Bool :=
  if !isStr j then rawOf j == key
  else
    let body := ((rawOf j).drop 1).take (rawLen j - 2)
    match j with
    | some j => if j.esc then unescape body == key else body == key
    | none => false

/-- The loop of `json_object_getn`, tg.c:7499-7510. Every turn moves on in the text, so as many turns as there are bytes are enough (`objGet_fuel`). -/
def objGetLoop : Nat → List Byte → Option J → Option J
  | 0, _, _ => none
  | _ + 1, _, none => none
  | f + 1, key, some j => if strEq (some j) key then next (some j) else objGetLoop f key (next (next (some j)))

/-- `json_object_get`, tg.c:7498-7514. -/
def objGet (j : Option J) (key : List Byte) : Option J :=
  if isObj j then objGetLoop ((match j with | some j => j.raw.length | none => 0) + 1) key (first j) else none

/-- The loop `key = json_first(j), val = json_next(key); while (json_exists(key)) { ...; key = json_next(val); val = json_next(key); }` over the pairs of an object,
tg.c:11783-11801: the pairs it sees. As many turns as there are bytes are enough (`pairs_fuel`). -/
def pairsLoop : Nat → Option J → List (Option J × Option J)
  | 0, _ => []
  | _ + 1, none => []
  | f + 1, some k => (some k, next (some k)) :: pairsLoop f (next (next (some k)))

/-- All pairs. -/
def pairs (j : Option J) : List (Option J × Option J) :=
  pairsLoop ((match j with | some j => j.raw.length | none => 0) + 1) (first j)

end Tg.Json
