import Verif.Spec.Shape
import Verif.Model.Predicates
import Verif.Model.IndexOpt
import Verif.Model.IeeeOrient
/-! What it means that a geometry is made of a shape, for any arithmetic. -/
namespace Tg.S

variable {K β : Type*} [Field K] [LinearOrder K] [IsStrictOrderedRing K] [LinearOrder β]

/-- How the constructors compute: the conversion to index coordinates, the arithmetic of rings, and of their flags `convex` and `clockwise`. -/
structure Maker (K β : Type*) where
  f : Ix K β
  A : Arith K
  convex : List (Pt K) → Option Bool
  clockwise : List (Pt K) → Option Bool

/-- The constructors with doubles. -/
def Fp.maker (F : Fp) (f : Ix ℚ β) : Maker ℚ β := ⟨f, F.arith, F.ringConvex, F.ringClockwise⟩

variable (C : Maker K β)

/-- The ring is made of the points, with its flags. -/
structure FBy (s : Series K) (r : FRing K β) : Prop where
  ok : 2 ≤ s.e.spread ∧ s.e.spread ≤ 4096
  made : newIx C.f C.A s.e s.pts true s.ix = some r.ring
  convex : C.convex s.pts = some r.convex
  clockwise : C.clockwise s.pts = some r.clockwise

/-- The polygon is made of the series. -/
def PolyBy (ext : Series K) (holes : List (Series K)) : PolyS K β → Prop
  | .ring r => holes = [] ∧ FBy C ext r
  | .poly e hs => FBy C ext e ∧ List.Forall₂ (FBy C) holes hs

/-- The geometry is made of the simple shape. -/
def AShape.By : AShape K → Atom K β → Prop
  | .point p, .point q => q = p
  | .line s, .line l => (2 ≤ s.e.spread ∧ s.e.spread ≤ 4096) ∧ newIx C.f C.A s.e s.pts false s.ix = some l
  | .poly ext holes, .poly q => PolyBy C ext holes q
  | _, _ => False

mutual
/-- The geometry is made of the shape; the flag of a collection without children is free. -/
def Shape.By (H : HArith K) (Q : Qsort) : Shape K → Geo K β → Prop
  | .null, .null => True
  | .empty, .empty => True
  | .atom a, .atom b => a.By C b
  | .coll cs, .multi flag gs rect ix ixg =>
    (flag = true → gs = []) ∧ multiNew C.f H Q Geo.rect gs = some ⟨gs, rect, ix, ixg⟩ ∧ Shape.ByAll H Q cs gs
  | _, _ => False

/-- The geometries are made of the shapes. -/
def Shape.ByAll (H : HArith K) (Q : Qsort) : List (Shape K) → List (Geo K β) → Prop
  | [], [] => True
  | c :: cs, g :: gs => c.By H Q g ∧ Shape.ByAll H Q cs gs
  | _, _ => False
end

end Tg.S
