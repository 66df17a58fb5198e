import Verif.Model.Bytes
/-!
`struct writer` (tg.c:8702-8757): output into a caller supplied buffer of `n` bytes.
-/
namespace Tg

/-- `struct writer`, tg.c:8702-8706. `dst` is the whole memory object the caller
passed (its length is the size of that object; the caller promises `n ≤ dst.length`,
and `dst = []` for NULL). `ub` records that a store outside the object, or a signed
overflow, has happened. `count` is a `size_t`; encodings of 2^64 bytes or more are
not considered. -/
structure Wr where
  dst : List Byte
  n : Nat
  count : Nat
  ub : Bool
deriving Repr, DecidableEq

/-- The store `wr->dst[i] = b`: undefined behaviour outside the object. -/
def Wr.store (w : Wr) (i : Nat) (b : Byte) : Wr :=
  if i < w.dst.length then { w with dst := w.dst.set i b } else { w with ub := true }

/-- `write_byte` (and `write_char`), tg.c:8721-8730. -/
def Wr.byte (w : Wr) (b : Byte) : Wr :=
  let w1 := if w.count < w.n then w.store w.count b else w
  { w1 with count := w1.count + 1 }

/-- A sequence of `write_byte` calls: the loops of `write_uint32le`, `write_uint64le`,
`write_doublele`, `write_string`, `write_stringn`, tg.c:8732-8757. -/
def Wr.bytes (w : Wr) (bs : List Byte) : Wr := bs.foldl Wr.byte w

/-- `memcpy(wr->dst + wr->count, src, k); wr->count += k` with no check of its own. -/
def Wr.memcpy (w : Wr) (bs : List Byte) : Wr :=
  let r := bs.foldl (fun (s : Wr × Nat) b => (s.1.store s.2 b, s.2 + 1)) (w, w.count)
  { r.1 with count := w.count + bs.length }

/-- `wr->count += k` without storing anything. -/
def Wr.skip (w : Wr) (k : Nat) : Wr := { w with count := w.count + k }

/-- A signed `int` expression that overflows. -/
def Wr.overflow (w : Wr) : Wr := { w with ub := true }

/-- `write_nullterm`, tg.c:8713-8719. -/
def Wr.nullterm (w : Wr) : Wr :=
  if w.n > w.count then w.store w.count 0#8
  else if w.n > 0 then w.store (w.n - 1) 0#8
  else w

end Tg
