import Verif.Model.Distance
import Mathlib.Analysis.SpecialFunctions.Trigonometric.Basic
/-!
`tg_circle_new_ix`: the points of a circle, with doubles or in exact arithmetic. `sin`, `cos` and the quotient `M_PI / 180.0` are parameters.
-/
namespace Tg.S

structure Trig (α : Type*) where
  cos : α → α
  sin : α → α
  perDegree : α

/-- What happens: a call of `tg_ring_new_ix` with these points, a write behind the end of the array, or a call with points that are not set. -/
inductive Circle (α : Type*) where
  | ring (pts : List (Pt α))
  | wild (i : Nat)
  | unset

section
variable {α : Type*} [LinearOrder α] [Zero α] [OfNat α 360] (o : Ops α) (T : Trig α)

/-- The point for the angle `th`, tg.c:14650-14653; `radius` is after tg.c:14643. -/
def circlePt (center : Pt α) (radius th : α) : Pt α :=
  let radians := o.mul T.perDegree th
  ⟨o.add center.x (o.mul radius (T.cos radians)), o.add center.y (o.mul radius (T.sin radians))⟩

/-- The loop, tg.c:14648-14655; `buf` is the array, with `none` where it is not set. The first number bounds the number of turns. -/
def circleLoop (pt : α → Pt α) (step : α) : Nat → Nat → α → List (Option (Pt α)) → Option (Circle α ⊕ List (Option (Pt α)))
  | 0, _, _, _ => none
  | fuel + 1, i, th, buf =>
    if th ≤ 360 then
      if i < buf.length then circleLoop pt step fuel (i + 1) (o.add th step) (buf.set i (some (pt th)))
      else some (.inl (.wild i))
    else some (.inr buf)

/-- `tg_circle_new_ix` (tg.c:14639-14662) up to the call of `tg_ring_new_ix`, if the allocation succeeds; `dbl` is the conversion of an `int`. `none` is
the overflow of `steps--`, or that the loop has not ended. -/
def circleNew (dbl : Nat → α) (center : Pt α) (radius : α) (steps : Int) (fuel : Nat) : Option (Circle α) :=
  if steps - 1 < -2 ^ 31 then none
  else
    let n := (if steps - 1 < 3 then 3 else steps - 1).toNat
    let radius := if radius < 0 then 0 else radius
    match circleLoop o (circlePt o T center radius) (o.div 360 (dbl n)) fuel 0 0 (List.replicate (n + 1) none) with
    | none => none
    | some (.inl c) => some c
    | some (.inr buf) =>
      match (buf.set n (buf[0]?.getD none)).mapM id with
      | none => some .unset
      | some pts => some (.ring pts)

end

/-- With doubles. -/
abbrev Fp.circleNew (F : Fp) (T : Trig ℚ) := S.circleNew (F.ops id) T fun n => F.fl n

@[inherit_doc Fp.circleNew] abbrev Fp.circlePt (F : Fp) (T : Trig ℚ) := S.circlePt (F.ops id) T

/-- The functions of exact arithmetic. -/
noncomputable def Trig.real : Trig ℝ := ⟨Real.cos, Real.sin, Real.pi / 180⟩

/-- In exact arithmetic. -/
noncomputable abbrev realCircle := S.circleNew Ops.real Trig.real fun n => (n : ℝ)

end Tg.S
