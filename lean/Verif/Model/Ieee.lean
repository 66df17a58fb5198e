import Verif.Spec.Double
import Verif.Model.Exact
import Verif.Model.Orient
import Mathlib.Data.Rat.Floor
/-!
The arithmetic of the predicates on segments with doubles: the value of each operation is rounded, in the order in which the code performs them.

A coordinate is a rational number here, the value of a double. There is no sign of zero, which none of the operations depends on, and there are no
infinities and NaNs: `rnd` and `div0` are arbitrary functions where the result of an operation would be one, so a theorem for all of them says that
this does not matter. Assumed of the compiler: `FLT_EVAL_METHOD` is 0 and no two operations are contracted to one.
-/
namespace Tg.S

open Tg.Spec.Double

/-- Rounding to the nearest double; the value that stands for a division by zero. -/
structure Fp where
  rnd : ℚ → F64
  div0 : ℚ → ℚ
  /-- the number of stripes, see `Arith` -/
  ns : List (Pt ℚ) → Nat

namespace Fp
variable (F : Fp)

def fl (q : ℚ) : ℚ := val (F.rnd q)

/-! The operations of a C double: `a + b`, `a - b`, `a * b`, `a / b`. -/
def add (a b : ℚ) : ℚ := F.fl (a + b)
def sub (a b : ℚ) : ℚ := F.fl (a - b)
def mul (a b : ℚ) : ℚ := F.fl (a * b)
def div (a b : ℚ) : ℚ := if b = 0 then F.div0 a else F.fl (a / b)

end Fp

/-- The next double upwards, by its bits: away from zero if it is not negative. -/
def bitsUp (x : F64) : F64 := if x.toNat % 2 ^ 63 = 0 then 1#64 else if neg x then x - 1#64 else x + 1#64

/-- The next double downwards. -/
def bitsDown (x : F64) : F64 := if x.toNat % 2 ^ 63 = 0 then BitVec.ofNat 64 (2 ^ 63 + 1) else if neg x then x + 1#64 else x - 1#64

namespace Fp
variable (F : Fp)

/-- `nexttoward(y, INFINITY)` for the value of a double. -/
def up (y : ℚ) : ℚ := val (bitsUp (F.rnd y))

/-- `nexttoward(y, -INFINITY)` -/
def down (y : ℚ) : ℚ := val (bitsDown (F.rnd y))

/-- The end of `collinear`, tg.c:857-875. -/
def cross0 (p1 p2 p3 : Pt ℚ) : Bool :=
  let cx1 := F.sub p3.x p1.x
  let cy1 := F.sub p3.y p1.y
  let cx2 := F.sub p2.x p1.x
  let cy2 := F.sub p2.y p1.y
  let s1 := F.mul cx1 cy2
  let s2 := F.mul cy1 cx2
  let s3 := F.sub (F.div s1 cy2) cx1
  let s4 := F.sub (F.div s2 cx2) cy1
  let s1 := if s3 < 0 then F.down s1 else if s3 > 0 then F.up s1 else s1
  let s2 := if s4 < 0 then F.down s2 else if s4 > 0 then F.up s2 else s2
  feq (F.sub s1 s2) 0

/-- tg.c:1246 -/
def slopeGe (p a b : Pt ℚ) : Bool := decide (F.div (F.sub p.y a.y) (F.sub p.x a.x) ≥ F.div (F.sub b.y a.y) (F.sub b.x a.x))

/-- `collinear`, tg.c:836-876. -/
def collinear (p1 p2 p3 : Pt ℚ) : Bool :=
  S.collinear ⟨F.cross0, id, F.slopeGe, fun _ _ => false, fun _ => 0, fun _ _ _ _ => none⟩ p1 p2 p3

/-- `point_on_segment`, tg.c:1167-1172 (`tg_segment_covers_point`). -/
def onSeg (p : Pt ℚ) (s : Seg ℚ) : Bool := if !s.rect.coversPt p then false else F.collinear s.a s.b p

/-- The arithmetic of `tg_segment_intersects_segment`, tg.c:1387-1418. -/
def segX (sa sb : Seg ℚ) : Bool :=
  let a := sa.a
  let b := sa.b
  let c := sb.a
  let d := sb.b
  let cmpx := F.sub c.x a.x
  let cmpy := F.sub c.y a.y
  let rx := F.sub b.x a.x
  let ry := F.sub b.y a.y
  let cmpxr := F.sub (F.mul cmpx ry) (F.mul cmpy rx)
  if feq cmpxr 0 then
    if (!(decide (F.sub c.x a.x ≤ 0) != decide (F.sub c.x b.x ≤ 0))) || (decide (F.sub c.y a.y ≤ 0) != decide (F.sub c.y b.y ≤ 0)) then
      F.onSeg c sa || F.onSeg d sa || F.onSeg a sb || F.onSeg b sb
    else true
  else
    let sx := F.sub d.x c.x
    let sy := F.sub d.y c.y
    let rxs := F.sub (F.mul rx sy) (F.mul ry sx)
    if feq rxs 0 then false
    else
      let cmpxs := F.sub (F.mul cmpx sy) (F.mul cmpy sx)
      let rxsr := F.div 1 rxs
      let t := F.mul cmpxs rxsr
      let u := F.mul cmpxr rxsr
      if !(decide (t ≥ 0) && decide (t ≤ 1) && decide (u ≥ 0) && decide (u ≤ 1)) then false else true

/-- `(int)((y - rect.min.y) / height * (double)nstripes)`, tg.c:1678, 1698-1699, 2700-2701; `none` if the value is not in the range of `int`. A
height of zero gives a NaN. -/
def stripe (lo hi : ℚ) (n : Nat) (y : ℚ) : Option Int :=
  let height := F.sub hi lo
  if height = 0 then none
  else
    let i := truncInt (F.mul (F.div (F.sub y lo) height) (F.fl n))
    if -2 ^ 31 ≤ i ∧ i < 2 ^ 31 then some i else none

/-- The arithmetic of the predicates. -/
def arith : Arith ℚ where
  cross0 := F.cross0
  next := F.up
  slopeGe := F.slopeGe
  segX := F.segX
  nstripes := F.ns
  stripe := F.stripe

end Fp
end Tg.S
