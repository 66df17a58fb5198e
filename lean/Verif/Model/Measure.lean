import Verif.Model.Distance
import Verif.Model.Orient
import Verif.Model.Line
import Mathlib.Analysis.SpecialFunctions.Trigonometric.Basic
/-! The length of lines and rings, and the score of Polsby and Popper. The numbers of the score are exact; `M_PI` is `π`. -/
namespace Tg.S

section
variable {α β : Type*} [LinearOrder α] [LinearOrder β] [Zero α] (o : Ops α)

/-- `length`, tg.c:878-880. -/
def length (a b : Pt α) : α :=
  o.sqrt (o.add (o.mul (o.sub a.x b.x) (o.sub a.x b.x)) (o.mul (o.sub a.y b.y) (o.sub a.y b.y)))

/-- The loop of `tg_ring_perimeter`, tg.c:14609-14613, from `i`, `k` times; `none` is a read behind the points. -/
def perimeterLoop (points : List (Pt α)) : Nat → Nat → α → Option α
  | 0, _, perim => some perim
  | k + 1, i, perim =>
    match points[i]?, points[i + 1]? with
    | some a, some b => perimeterLoop points k (i + 1) (o.add perim (length o a b))
    | _, _ => none

/-- `tg_ring_perimeter`, tg.c:14605-14615. -/
def ringPerimeter (r : Ring α β) : Option α := if ringEmpty r then some 0 else perimeterLoop o r.points r.nsegs 0 0

/-- `tg_line_length`, tg.c:15360-15362. -/
def lineLength (l : Ring α β) : Option α := ringPerimeter o l

end

variable {β : Type*} [LinearOrder β]

/-- `tg_ring_area`, tg.c:14598-14602, of a ring or a line; `process_points` has computed the area from the points. -/
noncomputable def seriesArea (r : Ring ℝ β) : Option ℝ := if ringEmpty r then some 0 else (orient (r.points.take r.npoints)).map (·.area)

/-- `tg_ring_polsby_popper_score`, tg.c:14617-14632. -/
noncomputable def ringScore (r : Ring ℝ β) : Option ℝ :=
  match ringPerimeter Ops.real r, seriesArea r with
  | some perim, some area => some (if perim > 0 then (area * Real.pi * 4) / (perim * perim) else 0)
  | _, _ => none

/-- `tg_line_polsby_popper_score`, tg.c:14634-14637. -/
noncomputable def lineScore (l : Ring ℝ β) : Option ℝ := ringScore l

end Tg.S
