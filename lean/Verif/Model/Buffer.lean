import Verif.Model.Bytes
/-!
Growable vectors and buffers: `def_vec` (tg.c:7981-8005) and `struct tg_buf` (tg.c:1436-1480), with `grow_cap` (tg.c:900-902).

A block of memory is the list of what it holds. `tg_realloc` is given by each call's outcome (`Realloc`): `none` is NULL; otherwise the new block, of
which the part beyond the old one holds anything. Sizes in bytes are computed in `size_t` (64 bits). Writing outside the block is `none`.
-/
namespace Tg.Buffer

/-- The outcome of a call of `tg_realloc`, given the old block and the new size in bytes. -/
abbrev Realloc (β : Type) := List β → Nat → Option (List β)

/-- `size_t` arithmetic -/
def sizeT (n : Nat) : Nat := n % 2 ^ 64

/-- `grow_cap`, tg.c:900-902. `cap * 1.25` is a product of doubles converted back; it is exact, before the conversion truncates, up to 2^50. -/
def growCap (cap init : Nat) : Nat := if cap = 0 then init else if cap < 1000 then sizeT (cap * 2) else cap * 5 / 4

/-- The `struct` of `def_vec`, tg.c:7981-7986. -/
structure Vec (β : Type) where
  data : List β := []
  len : Nat := 0
  cap : Nat := 0

/-- `vec->data[vec->len++] = f`, tg.c:7995. -/
def Vec.put {β : Type} (v : Vec β) (f : β) : Option (Vec β × Bool) :=
  if v.len < v.data.length then some ({ v with data := v.data.set v.len f, len := v.len + 1 }, true) else none

/-- The append of `def_vec`, tg.c:7987-7997; `size` is `sizeof(type)`. -/
def Vec.append {β : Type} (start size : Nat) (re : Realloc β) (v : Vec β) (f : β) : Option (Vec β × Bool) :=
  if v.len = v.cap then
    let cap := growCap v.cap start
    match re v.data (sizeT (cap * size)) with
    | none => some (v, false)
    | some data => Vec.put { v with data := data, cap := cap } f
  else v.put f

/-- A history of appends; the result also says which succeeded. -/
def Vec.appends {β : Type} (start size : Nat) : List (Realloc β × β) → Vec β → Option (Vec β × List Bool)
  | [], v => some (v, [])
  | (re, f) :: rest, v =>
    match v.append start size re f with
    | none => none
    | some (v, ok) =>
      match Vec.appends start size rest v with
      | none => none
      | some (v, oks) => some (v, ok :: oks)

/-- `struct tg_buf`, tg.c:1436-1439. -/
structure Buf where
  data : List Byte := []
  len : Nat := 0
  cap : Nat := 0

/-- The loop of `tg_buf_ensure`, tg.c:1441-1453, with a bound on the number of iterations; `none` if it is reached. -/
def ensureLoop (blen len : Nat) : Nat → Nat → Option Nat
  | 0, _ => none
  | fuel + 1, cap =>
    let cap := growCap cap 16
    if cap - blen < len then ensureLoop blen len fuel cap else some cap

/-- `tg_buf_ensure`, tg.c:1441-1453. -/
def Buf.ensure (re : Realloc Byte) (b : Buf) (len : Nat) : Option (Buf × Bool) :=
  if b.cap - b.len ≥ len then some (b, true)
  else
    match ensureLoop b.len len (len + b.len + 20) b.cap with
    | none => none
    | some cap =>
      match re b.data (sizeT (cap + 1)) with
      | none => some (b, false)
      | some data => if cap < data.length then some ({ b with data := data.set cap 0, cap := cap }, true) else none

/-- `memcpy(buf->data+buf->len, bytes, nbytes)`, and the new length. -/
def Buf.put (b : Buf) (bytes : List Byte) : Option Buf :=
  if b.len + bytes.length ≤ b.data.length then
    some { b with data := b.data.take b.len ++ bytes ++ b.data.drop (b.len + bytes.length), len := b.len + bytes.length }
  else none

/-- `tg_buf_append_bytes`, tg.c:1463-1470; `tg_buf_append_byte`, tg.c:1457-1461, is the case of one byte. -/
def Buf.append (re : Realloc Byte) (b : Buf) (bytes : List Byte) : Option (Buf × Bool) :=
  match b.ensure re bytes.length with
  | none => none
  | some (b, false) => some (b, false)
  | some (b, true) =>
    match b.put bytes with
    | none => none
    | some b => some (b, true)

/-- `tg_buf_trunc`, tg.c:1472-1480. `realloc` to size zero is left open by C: `none`. -/
def Buf.trunc (re : Realloc Byte) (b : Buf) : Option (Buf × Bool) :=
  if b.cap - b.len > 8 then
    if b.len = 0 then none
    else match re b.data (sizeT b.len) with
      | none => some (b, false)
      | some data => some ({ b with data := data, cap := b.len }, true)
  else some (b, true)

/-- Calls on a buffer. -/
inductive BufOp where
  | append (re : Realloc Byte) (bytes : List Byte)
  | trunc (re : Realloc Byte)

def Buf.step (b : Buf) : BufOp → Option (Buf × Bool)
  | .append re bytes => b.append re bytes
  | .trunc re => b.trunc re

/-- A history of calls. -/
def Buf.steps : List BufOp → Buf → Option (Buf × List Bool)
  | [], b => some (b, [])
  | op :: rest, b =>
    match b.step op with
    | none => none
    | some (b, ok) =>
      match Buf.steps rest b with
      | none => none
      | some (b, oks) => some (b, ok :: oks)

end Tg.Buffer
