import Mathlib.Algebra.Order.Field.Basic
import Mathlib.Algebra.Order.Floor.Defs
import Verif.Model.RingRing
import Verif.Model.Multi
/-!
The arithmetic of the predicates on segments, written out, over an ordered field in place of doubles: no rounding. `ε` stands for the distance
to the next double (`nexttoward`), `ns` for the number of stripes.
-/
namespace Tg.S

variable {K : Type*} [Field K] [LinearOrder K]

/-- The end of `collinear`, tg.c:857-875. The corrections with `nexttoward` (tg.c:863-874) are made when `s1 / cy2 - cx1` is
not zero, which does not happen without rounding as `cy2` and `cx2` are not zero here; they are kept, with `ε` for the step. -/
def exactCross0 (ε : K) (p1 p2 p3 : Pt K) : Bool :=
  let cx1 := p3.x - p1.x
  let cy1 := p3.y - p1.y
  let cx2 := p2.x - p1.x
  let cy2 := p2.y - p1.y
  let s1 := cx1 * cy2
  let s2 := cy1 * cx2
  let s3 := s1 / cy2 - cx1
  let s4 := s2 / cx2 - cy1
  let s1 := if s3 < 0 then s1 - ε else if s3 > 0 then s1 + ε else s1
  let s2 := if s4 < 0 then s2 - ε else if s4 > 0 then s2 + ε else s2
  feq (s1 - s2) 0

/-- tg.c:1246 -/
def exactSlopeGe (p a b : Pt K) : Bool := decide ((p.y - a.y) / (p.x - a.x) ≥ (b.y - a.y) / (b.x - a.x))

/-- `collinear` with exact arithmetic, tg.c:836-876. -/
def exactCollinear (ε : K) (p1 p2 p3 : Pt K) : Bool :=
  collinear ⟨exactCross0 ε, id, exactSlopeGe, fun _ _ => false, fun _ => 0, fun _ _ _ _ => none⟩ p1 p2 p3

/-- `point_on_segment`, tg.c:1167-1172 (`tg_segment_covers_point`). -/
def exactOnSeg (ε : K) (p : Pt K) (s : Seg K) : Bool :=
  if !s.rect.coversPt p then false else exactCollinear ε s.a s.b p

/-- `tg_segment_covers_segment`, tg.c:1280-1283. -/
def exactCoversSeg (ε : K) (a b : Seg K) : Bool := exactOnSeg ε b.a a && exactOnSeg ε b.b a

/-- The arithmetic of `tg_segment_intersects_segment`, tg.c:1387-1418. -/
def exactSegX (ε : K) (sa sb : Seg K) : Bool :=
  let a := sa.a
  let b := sa.b
  let c := sb.a
  let d := sb.b
  let cmpx := c.x - a.x
  let cmpy := c.y - a.y
  let rx := b.x - a.x
  let ry := b.y - a.y
  let cmpxr := cmpx * ry - cmpy * rx
  if feq cmpxr 0 then
    if (!(decide (c.x - a.x ≤ 0) != decide (c.x - b.x ≤ 0))) || (decide (c.y - a.y ≤ 0) != decide (c.y - b.y ≤ 0)) then
      exactOnSeg ε c sa || exactOnSeg ε d sa || exactOnSeg ε a sb || exactOnSeg ε b sb
    else true
  else
    let sx := d.x - c.x
    let sy := d.y - c.y
    let rxs := rx * sy - ry * sx
    if feq rxs 0 then false
    else
      let cmpxs := cmpx * sy - cmpy * sx
      let rxsr := 1 / rxs
      let t := cmpxs * rxsr
      let u := cmpxr * rxsr
      if !(decide (t ≥ 0) && decide (t ≤ 1) && decide (u ≥ 0) && decide (u ≤ 1)) then false else true

/-- `(int)x` -/
def truncInt [FloorRing K] (x : K) : Int := if 0 ≤ x then ⌊x⌋ else ⌈x⌉

/-- The exact arithmetic. A height of zero gives `0.0 / 0.0`, a NaN, which does not convert to `int`. -/
def exact [FloorRing K] (ε : K) (ns : List (Pt K) → Nat) : Arith K where
  cross0 := exactCross0 ε
  next y := y + ε
  slopeGe := exactSlopeGe
  segX := exactSegX ε
  nstripes := ns
  stripe lo hi n y := if hi - lo = 0 then none else some (truncInt ((y - lo) / (hi - lo) * n))

/-- The arithmetic of the Hilbert key, tg.c:1770-1775, 4510-4511. A width of zero gives a NaN. -/
def exactH [FloorRing K] : HArith K where
  center r := ⟨(r.hi.x + r.lo.x) / 2, (r.hi.y + r.lo.y) / 2⟩
  cell lo hi v :=
    if hi - lo = 0 then none
    else
      let i := truncInt ((v - lo) / (hi - lo) * 0xFFFF)
      if 0 ≤ i ∧ i < 2 ^ 32 then some (BitVec.ofNat 32 i.toNat) else none

/-- Index rectangles with the coordinates as they are (TG_IXFLOAT64), tg.c:1539-1564. -/
def Ix.exact : Ix K K := ⟨id, id, id, id⟩

end Tg.S
