import Mathlib.Algebra.Order.Field.Basic
import Mathlib.Algebra.Order.AbsoluteValue.Basic
import Verif.Model.Series
/-!
Area, orientation and convexity: the other half of `process_points` (tg.c:1885-2099, see `Model/Series` for rectangle and index), over an
ordered field in place of doubles: no rounding.
-/
namespace Tg.S

variable {K : Type*} [Field K] [LinearOrder K]

/-- `step_gather_abc_nowrap`, tg.c:1916-1921; `none` if it reads outside the points. -/
def gatherNoWrap (pts : List (Pt K)) (i : Nat) : Option (Pt K × Pt K × Pt K) :=
  match pts[i]?, pts[i + 1]?, pts[i + 2]? with
  | some a, some b, some c => some (a, b, c)
  | _, _, _ => none

/-- `step_gather_abc_wrap`, tg.c:1923-1936. -/
def gatherWrap (pts : List (Pt K)) (i : Nat) : Option (Pt K × Pt K × Pt K) :=
  let n := pts.length
  let (jb, jc) := if i + 2 < n then (i + 1, i + 2) else if i + 1 = n then (0, 1) else (i + 1, 0)
  match pts[i]?, pts[jb]?, pts[jc]? with
  | some a, some b, some c => some (a, b, c)
  | _, _, _ => none

/-- `cwc`, `dir`, `concave` -/
structure OState (K : Type*) where
  cwc : K
  dir : Int
  concave : Bool

/-- `step_calc_clockwise`, tg.c:1963-1965. -/
def OState.clock (s : OState K) (t : Pt K × Pt K × Pt K) : OState K :=
  { s with cwc := s.cwc + (t.2.1.x - t.1.x) * (t.2.1.y + t.1.y) }

/-- `z_cross_product`, tg.c:1968. -/
def zCross (t : Pt K × Pt K × Pt K) : K :=
  (t.2.1.x - t.1.x) * (t.2.2.y - t.2.1.y) - (t.2.1.y - t.1.y) * (t.2.2.x - t.2.1.x)

/-- `step_calc_concave`, tg.c:1967-1985. The second component says whether the code jumps. -/
def OState.conc (s : OState K) (t : Pt K × Pt K × Pt K) : OState K × Bool :=
  let z := zCross t
  if s.dir = 0 then ({ s with dir := if z < 0 then -1 else 1 }, false)
  else if z < 0 then (if s.dir = 1 then ({ s with concave := true }, true) else (s, false))
  else if z > 0 then (if s.dir = -1 then ({ s with concave := true }, true) else (s, false))
  else (s, false)

/-- A loop of the convex section: `k` steps from `i`; ends early, with `i` moved on, on a jump. -/
def convexLoop (gather : Nat → Option (Pt K × Pt K × Pt K)) : Nat → Nat → OState K → Option (OState K × Nat)
  | 0, i, s => some (s, i)
  | k + 1, i, s =>
    match gather i with
    | none => none
    | some t =>
      match (s.clock t).conc t with
      | (s, true) => some (s, i + 1)
      | (s, false) => convexLoop gather k (i + 1) s

/-- A loop of the concave section. -/
def concaveLoop (gather : Nat → Option (Pt K × Pt K × Pt K)) : Nat → Nat → OState K → Option (OState K × Nat)
  | 0, i, s => some (s, i)
  | k + 1, i, s =>
    match gather i with
    | none => none
    | some t => concaveLoop gather k (i + 1) (s.clock t)

/-- Result: convex, clockwise, area. -/
structure Orient (K : Type*) where
  convex : Bool
  clockwise : Bool
  area : K

/-- `process_points` (area, orientation, convexity), tg.c:1885-2099. A jump out of the first loop goes to the second one (`lconcave0`, `lconcave1`),
a jump out of the second one to the concave section (`lconcave`). The same with and without index. -/
def orient (pts : List (Pt K)) : Option (Orient K) :=
  let n := pts.length
  if n < 2 then some ⟨false, false, 0⟩
  else
    match convexLoop (gatherNoWrap pts) (n - 3) 0 ⟨0, 0, false⟩ with
    | none => none
    | some (s, i) =>
      match convexLoop (gatherWrap pts) (n - i) i s with
      | none => none
      | some (s, i) =>
        match concaveLoop (gatherNoWrap pts) (n - 3 - i) i s with
        | none => none
        | some (s, i) =>
          match concaveLoop (gatherWrap pts) (n - i) i s with
          | none => none
          | some (s, _) => some ⟨!s.concave, decide (s.cwc > 0), |s.cwc / 2|⟩

/-- `tg_ring_area`, tg.c:14598-14602, with `tg_ring_empty` (tg.c:3090-3093) for a ring. -/
def ringArea (pts : List (Pt K)) : Option K := if pts.length < 3 then some 0 else (orient pts).map (·.area)

/-- `tg_ring_clockwise`, tg.c:2814-2817. -/
def ringClockwise (pts : List (Pt K)) : Option Bool := (orient pts).map (·.clockwise)

/-- `tg_ring_convex`, tg.c:2804-2807. -/
def ringConvex (pts : List (Pt K)) : Option Bool := (orient pts).map (·.convex)

end Tg.S
