import Verif.Model.Ieee
/-! The conversion of coordinates to 32-bit floats for indexes (without TG_IXFLOAT64). -/
namespace Tg.S.Fp

variable (F : Fp)

/-- `fnext0`, tg.c:1512-1518; `dir` is 1 for `true`. -/
def next0 (d : ℚ) (dir : Bool) : ℚ := F.mul d (if decide (d < 0) == dir then 1 - 1 / 8388608 else 1 + 1 / 8388608)

/-- Not a part of the code: keeps the numbers in a range where doubles have no infinities. -/
def clamp (x : ℚ) : ℚ := max (-(2 ^ 1000)) (min x (2 ^ 1000))

/-- `fdown`, `fup` and the assignments to floats (tg.c:1520-1535), the conversion of points (tg.c:1580-1585) and back (tg.c:1588-1595). `r` is the
conversion of a double to float. -/
def ix32 (r : ℚ → ℚ) : Ix ℚ ℚ where
  down x := r (F.next0 (clamp x) false)
  up x := r (F.next0 (clamp x) true)
  near x := r (F.fl (clamp x))
  wide x := x

end Tg.S.Fp
