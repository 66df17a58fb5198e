import Verif.Model.Ieee
import Verif.Model.Relate
/-!
Orientation and convexity, and the arithmetic of the relations of rings, with doubles: the same as in `Model/Orient` and `Model/Relate`, with each
operation rounded.
-/
namespace Tg.S.Fp

variable (F : Fp)

/-- `step_calc_clockwise`, tg.c:1963-1965. -/
def clock (s : OState ℚ) (t : Pt ℚ × Pt ℚ × Pt ℚ) : OState ℚ :=
  { s with cwc := F.add s.cwc (F.mul (F.sub t.2.1.x t.1.x) (F.add t.2.1.y t.1.y)) }

/-- `z_cross_product`, tg.c:1968. -/
def zCross (t : Pt ℚ × Pt ℚ × Pt ℚ) : ℚ :=
  F.sub (F.mul (F.sub t.2.1.x t.1.x) (F.sub t.2.2.y t.2.1.y)) (F.mul (F.sub t.2.1.y t.1.y) (F.sub t.2.2.x t.2.1.x))

/-- `step_calc_concave`, tg.c:1967-1985. The second component says whether the code jumps. -/
def conc (s : OState ℚ) (t : Pt ℚ × Pt ℚ × Pt ℚ) : OState ℚ × Bool :=
  let z := F.zCross t
  if s.dir = 0 then ({ s with dir := if z < 0 then -1 else 1 }, false)
  else if z < 0 then (if s.dir = 1 then ({ s with concave := true }, true) else (s, false))
  else if z > 0 then (if s.dir = -1 then ({ s with concave := true }, true) else (s, false))
  else (s, false)

/-- A loop of the convex section, see `Model/Orient`. -/
def convexLoop (gather : Nat → Option (Pt ℚ × Pt ℚ × Pt ℚ)) : Nat → Nat → OState ℚ → Option (OState ℚ × Nat)
  | 0, i, s => some (s, i)
  | k + 1, i, s =>
    match gather i with
    | none => none
    | some t =>
      match F.conc (F.clock s t) t with
      | (s, true) => some (s, i + 1)
      | (s, false) => convexLoop gather k (i + 1) s

/-- A loop of the concave section. -/
def concaveLoop (gather : Nat → Option (Pt ℚ × Pt ℚ × Pt ℚ)) : Nat → Nat → OState ℚ → Option (OState ℚ × Nat)
  | 0, i, s => some (s, i)
  | k + 1, i, s =>
    match gather i with
    | none => none
    | some t => concaveLoop gather k (i + 1) (F.clock s t)

/-- `process_points` (area, orientation, convexity), tg.c:1885-2099, with doubles. -/
def orient (pts : List (Pt ℚ)) : Option (Orient ℚ) :=
  let n := pts.length
  if n < 2 then some ⟨false, false, 0⟩
  else
    match F.convexLoop (gatherNoWrap pts) (n - 3) 0 ⟨0, 0, false⟩ with
    | none => none
    | some (s, i) =>
      match F.convexLoop (gatherWrap pts) (n - i) i s with
      | none => none
      | some (s, i) =>
        match F.concaveLoop (gatherNoWrap pts) (n - 3 - i) i s with
        | none => none
        | some (s, i) =>
          match F.concaveLoop (gatherWrap pts) (n - i) i s with
          | none => none
          | some (s, _) => some ⟨!s.concave, decide (s.cwc > 0), |F.div s.cwc 2|⟩

/-- `tg_ring_area`, tg.c:14598-14602. -/
def ringArea (pts : List (Pt ℚ)) : Option ℚ := if pts.length < 3 then some 0 else (F.orient pts).map (·.area)

/-- `tg_ring_clockwise`, tg.c:2814-2817. -/
def ringClockwise (pts : List (Pt ℚ)) : Option Bool := (F.orient pts).map (·.clockwise)

/-- `tg_ring_convex`, tg.c:2804-2807. -/
def ringConvex (pts : List (Pt ℚ)) : Option Bool := (F.orient pts).map (·.convex)

/-- `rect_area` (tg.c:3137-3139) and the sign of the sum over a closed chain of four edges (tg.c:2948-2958). -/
def rarith : RArith ℚ where
  area r := F.mul (F.sub r.hi.x r.lo.x) (F.sub r.hi.y r.lo.y)
  clockwise l := decide (0 < (l.zip (l.drop 1)).foldl (fun cwc ab => F.add cwc (F.mul (F.sub ab.2.x ab.1.x) (F.add ab.2.y ab.1.y))) 0)

end Tg.S.Fp
