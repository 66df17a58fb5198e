import Verif.Model.Ieee
import Mathlib.Analysis.Real.Sqrt
/-!
The distances between points, segments and rectangles. `Ops` are the operations of doubles; the functions are the same for exact arithmetic and for doubles.
NaN is not modelled.
-/
namespace Tg.S

/-- The operations that the functions use. -/
structure Ops (α : Type*) where
  add : α → α → α
  sub : α → α → α
  mul : α → α → α
  div : α → α → α
  sqrt : α → α

section
variable {α : Type*} [LinearOrder α] [Zero α] [One α] (o : Ops α)

/-- `fclamp0`, tg.c:824-826. `fmin0` and `fmax0` (tg.c:769-817) are the smaller and the larger number. -/
def clamp01 (f : α) : α := min (max f 0) 1

/-- `tg_point_distance_segment`, tg.c:14668-14679. -/
def ptSegDist (p : Pt α) (s : Seg α) : α :=
  let a := o.sub p.x s.a.x
  let b := o.sub p.y s.a.y
  let c := o.sub s.b.x s.a.x
  let d := o.sub s.b.y s.a.y
  let e := o.add (o.mul c c) (o.mul d d)
  let f := if e ≠ 0 then o.div (o.add (o.mul a c) (o.mul b d)) e else 0
  let g := clamp01 f
  let dx := o.sub p.x (o.add s.a.x (o.mul g c))
  let dy := o.sub p.y (o.add s.a.y (o.mul g d))
  o.sqrt (o.add (o.mul dx dx) (o.mul dy dy))

/-- `tg_rect_distance_rect`, tg.c:14681-14685. -/
def rectDist (a b : Rect α) : α :=
  let dx := max (o.sub (max a.lo.x b.lo.x) (min a.hi.x b.hi.x)) 0
  let dy := max (o.sub (max a.lo.y b.lo.y) (min a.hi.y b.hi.y)) 0
  o.sqrt (o.add (o.mul dx dx) (o.mul dy dy))

/-- `tg_point_distance_rect`, tg.c:14687-14689. -/
def ptRectDist (p : Pt α) (r : Rect α) : α := rectDist o ⟨p, p⟩ r

/-- `tg_point_distance_point`, tg.c:14691-14693. -/
def ptDist (a b : Pt α) : α :=
  o.sqrt (o.add (o.mul (o.sub a.x b.x) (o.sub a.x b.x)) (o.mul (o.sub a.y b.y) (o.sub a.y b.y)))

end

/-- Exact arithmetic. -/
noncomputable def Ops.real : Ops ℝ := ⟨(· + ·), (· - ·), (· * ·), (· / ·), Real.sqrt⟩

/-- Doubles; `sq` is the function `sqrt` of the C library. -/
def Fp.ops (F : Fp) (sq : ℚ → ℚ) : Ops ℚ := ⟨F.add, F.sub, F.mul, F.div, sq⟩

end Tg.S
