import Verif.Model.JsonValid
import Verif.Model.JsonNav
/-!
`json_escapen` of the embedded json.c, tg.c:7645-7717: the string token of a text, written to a buffer of given size.
-/
namespace Tg.Json

/-- `struct jesc_buf`, tg.c:7645-7649. `esc` is the block of the caller and the place in it. -/
structure JescBuf where
  mem : List Byte
  pos : Nat
  esclen : Nat
  count : Nat

/-- `jesc_append`, tg.c:7651-7657. `none` is a store outside the block. -/
def jescAppend (b : JescBuf) (ch : Byte) : Option JescBuf :=
  if b.esclen > 1 then
    if b.pos < b.mem.length then some ⟨b.mem.set b.pos ch, b.pos + 1, b.esclen - 1, b.count + 1⟩ else none
  else some { b with count := b.count + 1 }

/-- Several calls of `jesc_append`: `jesc_append2`, tg.c:7658-7661, and the loop over `cpbuf`, tg.c:7701-7703. -/
def jescAppends (b : JescBuf) : List Byte → Option JescBuf
  | [] => some b
  | ch :: cs =>
    match jescAppend b ch with
    | none => none
    | some b => jescAppends b cs

/-- `hexchars[x]`, tg.c:7663. -/
def hexChar (x : Nat) : Byte := if x < 10 then BitVec.ofNat 8 (0x30 + x) else BitVec.ofNat 8 (0x61 + (x - 10))

/-- What `jesc_append_ux` appends for `\u`, tg.c:7665-7670. -/
def jescUx (x : Nat) : List Byte :=
  [0x5C#8, 0x75#8, hexChar (x / 4096 % 16), hexChar (x / 256 % 16), hexChar (x / 16 % 16), hexChar (x % 16)]

/-- The `cp` that `vutf8` computes when it returns `n`, tg.c:6785-6799. -/
def vutf8Cp : Nat → List Byte → Nat
  | 3, b0 :: b1 :: b2 :: _ => b0.toNat % 16 * 4096 + b1.toNat % 64 * 64 + b2.toNat % 64
  | 4, b0 :: b1 :: b2 :: b3 :: _ => b0.toNat % 8 * 262144 + b1.toNat % 64 * 4096 + b2.toNat % 64 * 64 + b3.toNat % 64
  | 2, b0 :: b1 :: _ => b0.toNat % 32 * 64 + b1.toNat % 64
  | _, _ => 0

/-- The body of the loop of `json_escapen`, tg.c:7678-7707: what is appended for the bytes from `str[i]` on, and by how much more than one `i` grows.
`none` is a read outside the text. -/
def jescBody (c : Byte) (t : List Byte) : Option (List Byte × Nat) :=
  if c.toNat < 0x20 then
    if c = 0x0A#8 then some ([0x5C#8, 0x6E#8], 0)
    else if c = 0x08#8 then some ([0x5C#8, 0x62#8], 0)
    else if c = 0x0C#8 then some ([0x5C#8, 0x66#8], 0)
    else if c = 0x0D#8 then some ([0x5C#8, 0x72#8], 0)
    else if c = 0x09#8 then some ([0x5C#8, 0x74#8], 0)
    else some (jescUx c.toNat, 0)
  else if c = 0x3E#8 ∨ c = 0x3C#8 ∨ c = 0x26#8 then some (jescUx c.toNat, 0)
  else if c = 0x5C#8 then some ([0x5C#8, 0x5C#8], 0)
  else if c = 0x22#8 then some ([0x5C#8, 0x22#8], 0)
  else if c.toNat > 127 then
    match vutf8 (c :: t) with
    | none => none
    | some none => some (encodeCp 0xFFFD, 0)
    | some (some n) => some (encodeCp (vutf8Cp n (c :: t)), n - 1)
  else some ([c], 0)

/-- The loop of `json_escapen`, tg.c:7677-7708. The number is how many bytes are still to be passed over. -/
def jescLoop : Nat → List Byte → JescBuf → Option JescBuf
  | _, [], b => some b
  | k + 1, _ :: t, b => jescLoop k t b
  | 0, c :: t, b =>
    match jescBody c t with
    | none => none
    | some (out, skip) =>
      match jescAppends b out with
      | none => none
      | some b => jescLoop skip t b

/-- `json_escapen(str, len, esc, n)`, tg.c:7672-7717: the bytes of `esc` afterwards and the result. `esc` has `n` bytes. -/
def jsonEscapen (str : List Byte) (esc : List Byte) : Option (List Byte × Nat) :=
  match jescAppend ⟨esc, 0, esc.length, 0⟩ 0x22#8 with
  | none => none
  | some b =>
    match jescLoop 0 str b with
    | none => none
    | some b =>
      match jescAppend b 0x22#8 with
      | none => none
      | some b =>
        if b.esclen > 0 then
          if b.pos < b.mem.length then some (b.mem.set b.pos 0#8, b.count) else none
        else some (b.mem, b.count)

end Tg.Json
