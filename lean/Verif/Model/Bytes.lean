/-!
Bytes, machine words and the bit patterns of doubles, as used by the codecs of
`/repo/tg.c`.
-/
namespace Tg

/-- `uint8_t` -/
abbrev Byte := BitVec 8

/-- A `double`, seen as its 64-bit pattern: `union raw_double`, tg.c:8708-8711.
The codecs never compute with coordinates, they only move these bits. -/
abbrev F64 := BitVec 64

/-- Bit pattern of `+0.0`. -/
abbrev F64.zero : F64 := 0#64

/-- Bit pattern of the C macro `NAN` converted to double (quiet NaN, payload 0)
on the targets tg supports. Only "is a NaN" matters to the theorems. -/
abbrev F64.nan : F64 := 0x7ff8000000000000#64

/-- `isnan(x)` on the bit pattern (IEEE 754 binary64: exponent all ones,
fraction not zero). -/
def F64.isNaN (x : F64) : Bool :=
  (x &&& 0x7ff0000000000000#64) == 0x7ff0000000000000#64 &&
  (x &&& 0x000fffffffffffff#64) != 0#64

/-- `x == y` on bit patterns (IEEE 754: false if either is a NaN, the two zeros
are equal, otherwise the patterns are equal). -/
def F64.feq (x y : F64) : Bool :=
  !F64.isNaN x && !F64.isNaN y &&
  (x == y || ((x ||| y) &&& 0x7fffffffffffffff#64) == 0#64)

/-- `write_uint32le` as the list of bytes it emits, tg.c:8732-8736:
`for (i = 0; i < 4; i++) write_byte(wr, x>>(i*8))`. -/
def le32 (x : BitVec 32) : List Byte :=
  [(x >>> 0).setWidth 8, (x >>> 8).setWidth 8, (x >>> 16).setWidth 8, (x >>> 24).setWidth 8]

/-- `write_uint64le` / `write_doublele` as the list of bytes it emits, tg.c:8738-8746. -/
def le64 (x : BitVec 64) : List Byte :=
  [(x >>> 0).setWidth 8, (x >>> 8).setWidth 8, (x >>> 16).setWidth 8, (x >>> 24).setWidth 8,
   (x >>> 32).setWidth 8, (x >>> 40).setWidth 8, (x >>> 48).setWidth 8, (x >>> 56).setWidth 8]

/-- Byte `k` of a word. -/
abbrev byteAt {w : Nat} (x : BitVec w) (k : Nat) : Byte := x.extractLsb' (8 * k) 8

/-- `__builtin_bswap32` (compiler builtin: reverses the four bytes). -/
def bswap32 (x : BitVec 32) : BitVec 32 :=
  ((byteAt x 3).setWidth 32 <<< 0) ||| ((byteAt x 2).setWidth 32 <<< 8) |||
  ((byteAt x 1).setWidth 32 <<< 16) ||| ((byteAt x 0).setWidth 32 <<< 24)

/-- `__builtin_bswap64` (compiler builtin: reverses the eight bytes). -/
def bswap64 (x : BitVec 64) : BitVec 64 :=
  ((byteAt x 7).setWidth 64 <<< 0) ||| ((byteAt x 6).setWidth 64 <<< 8) |||
  ((byteAt x 5).setWidth 64 <<< 16) ||| ((byteAt x 4).setWidth 64 <<< 24) |||
  ((byteAt x 3).setWidth 64 <<< 32) ||| ((byteAt x 2).setWidth 64 <<< 40) |||
  ((byteAt x 1).setWidth 64 <<< 48) ||| ((byteAt x 0).setWidth 64 <<< 56)

/-- The value part of `read_uint32`, tg.c:13285-13289 (host little endian). -/
def rd32 (swap : Bool) (b0 b1 b2 b3 : Byte) : BitVec 32 :=
  let x := (b0.setWidth 32 <<< 0) ||| (b1.setWidth 32 <<< 8) |||
           (b2.setWidth 32 <<< 16) ||| (b3.setWidth 32 <<< 24)
  if swap then bswap32 x else x

/-- The value part of `read_uint64` / `read_double`, tg.c:13291-13301. -/
def rd64 (swap : Bool) (b0 b1 b2 b3 b4 b5 b6 b7 : Byte) : BitVec 64 :=
  let x := (b0.setWidth 64 <<< 0) ||| (b1.setWidth 64 <<< 8) |||
           (b2.setWidth 64 <<< 16) ||| (b3.setWidth 64 <<< 24) |||
           (b4.setWidth 64 <<< 32) ||| (b5.setWidth 64 <<< 40) |||
           (b6.setWidth 64 <<< 48) ||| (b7.setWidth 64 <<< 56)
  if swap then bswap64 x else x

end Tg
