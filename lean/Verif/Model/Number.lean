import Verif.Model.Writer
/-!
How a coordinate becomes text: `write_string_double` (tg.c:11325-11337) and `fp_utoa` of the embedded fp.c (tg.c:11001-11015, 11121-11242).

`d2s_buffered` (Ryu), the conversion of a double to the shortest decimal in scientific notation, is the parameter `d2s`, a C string without its terminator. It is modelled in
`Model/Ryu.lean` (C65). Of the formats only `'f'` and `'g'` are used by tg.
-/
namespace Tg

/-- A C string literal, without its terminator. -/
def txt (s : String) : List Byte := s.toList.map fun c => BitVec.ofNat 8 c.toNat

/-- `isnormal(x)` on the bit pattern: the exponent is neither 0 nor all ones. -/
def F64.isNormal (x : F64) : Bool :=
  (x &&& 0x7ff0000000000000#64) != 0#64 && (x &&& 0x7ff0000000000000#64) != 0x7ff0000000000000#64

/-- `struct fp_writer`, tg.c:11001-11005. It writes into the object of `w` from index `base` on, at most `n` bytes. -/
structure Fw where
  w : Wr
  base : Nat
  n : Nat
  count : Nat

/-- `fp_write_char`, tg.c:11012-11015. -/
def Fw.char (fw : Fw) (b : Byte) : Fw :=
  { fw with w := if fw.count < fw.n then fw.w.store (fw.base + fw.count) b else fw.w, count := fw.count + 1 }

/-- `while (*p) fp_write_char(&wr, *(p++))`. -/
def Fw.chars (fw : Fw) (bs : List Byte) : Fw := bs.foldl Fw.char fw

/-- `fp_write_nullterm`, tg.c:11007-11010. -/
def Fw.nullterm (fw : Fw) : Fw :=
  { fw with w := if fw.n > fw.count then fw.w.store (fw.base + fw.count) 0#8 else if fw.n > 0 then fw.w.store (fw.base + (fw.n - 1)) 0#8 else fw.w }

/-- The loop that finds the last `e` or `E`, tg.c:11160-11167: what is before it and what is after it. -/
def splitE : List Byte → Option (List Byte × List Byte)
  | [] => none
  | b :: t =>
    match splitE t with
    | some (m, x) => some (b :: m, x)
    | none => if b == 0x45#8 || b == 0x65#8 then some ([], t) else none

/-- `atoi` on a string of digits: the digits up to the first other character. -/
def atoiDigits (acc : Nat) : List Byte → Nat
  | [] => acc
  | b :: t => if 0x30#8 ≤ b && b ≤ 0x39#8 then atoiDigits (acc * 10 + (b.toNat - 48)) t else acc

/-- `atoi` (C library), without leading white space. -/
def atoi : List Byte → Int
  | [] => 0
  | b :: t => if b == 0x2D#8 then - (atoiDigits 0 t : Int) else if b == 0x2B#8 then atoiDigits 0 t else atoiDigits 0 (b :: t)

/-- `for (i < en) write *p ? *(p++) : '0'`, tg.c:11208-11214; the second result is `p`. -/
def fpInt : Nat → List Byte → Fw → Fw × List Byte
  | 0, p, fw => (fw, p)
  | k + 1, [], fw => fpInt k [] (fw.char 0x30#8)
  | k + 1, b :: p, fw => fpInt k p (fw.char b)

/-- The digits without exponent: `d` the first digit, `r` the rest of the mantissa from the point on, tg.c:11192-11218. -/
def fpFixed (en : Int) (d : Byte) (r : List Byte) (fw : Fw) : Fw :=
  if en < 0 then
    -- tg.c:11193-11204
    ((((fw.char 0x30#8).char 0x2E#8).chars (List.replicate (en.natAbs - 1) 0x30#8)).char d).chars (r.drop 1)
  else
    -- tg.c:11206-11218
    let q := fpInt en.toNat (r.drop 1) (fw.char d)
    if q.2 ≠ [] ∧ q.2 ≠ [0x30#8] then (q.1.char 0x2E#8).chars q.2 else q.1

/-- `fp_utoa` for the formats `'f'` (`g = false`) and `'g'` (`g = true`), tg.c:11121-11242; `buf` is the text from `d2s_buffered`. -/
def fpUtoa (g : Bool) (buf : List Byte) (fw0 : Fw) : Fw :=
  let neg := buf.head? == some 0x2D#8
  let p := if neg then buf.tail else buf
  let fw := if neg then fw0.char 0x2D#8 else fw0
  match splitE p with
  -- tg.c:11168-11179
  | none =>
    let c := p.headD 0#8
    (fw.chars (if c == 0x69#8 || c == 0x49#8 then txt "Infinity" else if c == 0x6E#8 || c == 0x4E#8 then txt "NaN" else [])).nullterm
  | some ([], _) => { fw with w := fw.w.overflow }      -- reads past the terminator
  | some (d :: r, x) =>
    let fw := (fpFixed (atoi x) d r fw).nullterm
    -- tg.c:11220-11239
    if g && buf.length < fw.count then
      (((({ fw with count := 0 } : Fw).chars ((if neg then [0x2D#8] else []) ++ (d :: r))).char 0x65#8).chars x).nullterm
    else fw

/-- `write_string_double`, tg.c:11325-11337; `fixed` is `print_fixed_floats`. -/
def Wr.double (fixed : Bool) (d2s : F64 → List Byte) (x : F64) (w : Wr) : Wr :=
  if !x.isNormal then w.byte 0x30#8 else
  let dstsz := if w.count < w.n then w.n - w.count else 0
  let fw := fpUtoa (!fixed) (d2s x) ⟨w, w.count, dstsz, 0⟩
  { fw.w with count := w.count + fw.count }

end Tg
