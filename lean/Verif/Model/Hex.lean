import Verif.Model.WkbWrite
import Verif.Model.Geobin
/-!
`tg_geom_hex` (tg.c:14461-14486) and `tg_parse_hexn_ix` (tg.c:14491-14556).
-/
namespace Tg

/-- `hexchars`, tg.c:14465: the bytes of "0123456789ABCDEF". -/
def hexchars : List Byte := [48, 49, 50, 51, 52, 53, 54, 55, 56, 57, 65, 66, 67, 68, 69, 70]

/-- `dst[k] = hexchars[x]` guarded by `k < n`. -/
def hexStore (n k : Nat) (x : Byte) (w : Wr) : Wr :=
  if k < n then
    match hexchars[x.toNat]? with
    | none => w.overflow
    | some c => w.store k c
  else w

/-- The body of the loop of `tg_geom_hex`, tg.c:14474-14478; a read outside the object is `ub`. -/
def hexStep (n i j : Nat) (w : Wr) : Wr :=
  if i < n then
    match w.dst[i]? with
    | none => w.overflow
    | some ch => hexStore n (j - 1) ((ch >>> 4) &&& 15#8) (hexStore n j (ch &&& 15#8) w)
  else w

/-- The loop of `tg_geom_hex`, tg.c:14473-14482: `i` and `j` go down by 1 and 2. -/
def hexLoop (n : Nat) : Nat → Nat → Wr → Wr
  | 0, j, w => hexStep n 0 j w
  | i + 1, j, w => hexLoop n i (j - 2) (hexStep n (i + 1) j w)

/-- `tg_geom_hex`, tg.c:14461-14486. -/
def tgGeomHex (g : Geom) (dst : List Byte) (n : Nat) : Wr :=
  let w := tgGeomWkb g dst n
  let count := w.count
  if count = 0 then
    { (if n > 0 then w.store 0 0#8 else w) with count := 0 }
  else
    let w := hexLoop n (count - 1) (count * 2 - 1) w
    let w := if count * 2 < n then w.store (count * 2) 0#8
      else if n > 0 then w.store (n - 1) 0#8 else w
    { w with count := count * 2 }

/-- `hextoks`, tg.c:14494-14499. The initialiser has 121 entries, the others are zero. -/
def hextoks : List Byte :=
  List.replicate 48 0 ++ [1, 2, 3, 4, 5, 6, 7, 8, 9, 10] ++ List.replicate 7 0 ++ [11, 12, 13, 14, 15, 16] ++
  List.replicate 26 0 ++ [11, 12, 13, 14, 15, 16] ++ List.replicate 153 0

/-- Outcome of the loop of `parse_hex`. -/
inductive HexRes where
  | ub
  | invalid
  | ok (bs : List Byte)
deriving Repr, DecidableEq

/-- The loop of `parse_hex`, tg.c:14512-14518, on the text from position `i` on. `acc` is `dst[0..j)`, `cap` the size of
`dst`. A store past `dst` or a read past the text is `ub`. -/
def hexDecode (cap : Nat) : List Byte → List Byte → HexRes
  | [], acc => .ok acc
  | [_], _ => .ub
  | c0 :: c1 :: rest, acc =>
    match hextoks[c0.toNat]?, hextoks[c1.toNat]? with
    | some b0, some b1 =>
      if b0 = 0#8 ∨ b1 = 0#8 then .invalid
      else if acc.length < cap then hexDecode cap rest (acc ++ [((b0 - 1#8) <<< 4) ||| (b1 - 1#8)])
      else .ub
    | _, _ => .ub

/-- `parse_hex` and `tg_parse_hexn_ix`, tg.c:14491-14556. Allocation is assumed to succeed. -/
def tgParseHex (hex : List Byte) : Res :=
  let len := hex.length
  if len = 0 ∨ len % 2 = 1 then .error ("ParseError: " ++ invalidBinary) else
  let cap := if len / 2 > 128 then len / 2 else 128
  match hexDecode cap hex [] with
  | .ub => .ub
  | .invalid => .error ("ParseError: " ++ invalidBinary)
  | .ok bs =>
    match bs with
    | [] => .ub
    | b :: _ =>
      if 2#8 ≤ b ∧ b ≤ 4#8 then
        match parseGeobin (MAXDEPTH + 1) bs 0 with
        | .ub => .ub
        | .fail _ e => .error ("ParseError: " ++ e)
        | .ok _ g => .geom g
      else
        match parseWkb (MAXDEPTH + 1) bs 0 with
        | .ub => .ub
        | .fail _ e => .error ("ParseError: " ++ e)
        | .ok _ g => .geom g

end Tg
