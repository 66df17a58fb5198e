import Verif.Spec.Region
import Verif.Model.IndexOpt
/-! Shapes: what a geometry is made of, and the set of points that it stands for. -/
namespace Tg.S

/-- The points of a line or ring, and what else is given to the constructor: the environment and the index option. -/
structure Series (K : Type*) where
  e : Env
  ix : BitVec 32
  pts : List (Pt K)

/-- The simple shapes. -/
inductive AShape (K : Type*) where
  | point (p : Pt K)
  | line (s : Series K)
  | poly (ext : Series K) (holes : List (Series K))

/-- All shapes. -/
inductive Shape (K : Type*) where
  | null
  | empty
  | atom (a : AShape K)
  | coll (cs : List (Shape K))

variable {K : Type*} [Field K] [LinearOrder K] [IsStrictOrderedRing K]

/-- The segments of the ring. -/
def Series.segs (s : Series K) : List (Seg K) := segments s.pts true

/-- The points of the shape. A polygon has the closed region of its exterior without the insides of its holes. -/
def AShape.Has : AShape K → Pt K → Prop
  | .point p, w => w = p
  | .line s, w => OnBoundary (edges s.pts) w
  | .poly ext holes, w => InRegion ext.segs w ∧ ∀ h ∈ holes, ¬ Inside h.segs w

mutual
/-- The points of the shape. -/
def Shape.Has : Shape K → Pt K → Prop
  | .null, _ => False
  | .empty, _ => False
  | .atom a, w => a.Has w
  | .coll cs, w => Shape.SomeHas cs w

/-- The points of the union. -/
def Shape.SomeHas : List (Shape K) → Pt K → Prop
  | [], _ => False
  | c :: cs, w => c.Has w ∨ Shape.SomeHas cs w
end

/-- A set with all segments between its points. -/
def ConvexSet (S : Pt K → Prop) : Prop := ∀ p q w, S p → S q → OnSeg ⟨p, q⟩ w → S w

/-- From each point outside of the set a path of segments leads, outside of the set, out of any rectangle. -/
def Escapes (S : Pt K → Prop) : Prop :=
  ∀ w, ¬ S w → ∀ R : Rect K, ∃ path : List (Pt K), path.head? = some w ∧ (∀ s ∈ edges path, ∀ u, OnSeg s u → ¬ S u) ∧ ∃ u ∈ path, ¬ R.Has u

/-- The rings of the shape, exteriors and holes. -/
def AShape.rings : AShape K → List (Series K)
  | .point _ => []
  | .line _ => []
  | .poly ext holes => ext :: holes

/-- The vertices of the shape, of a polygon those of its exterior. -/
def AShape.verts : AShape K → List (Pt K)
  | .point p => [p]
  | .line s => s.pts
  | .poly ext _ => ext.pts

mutual
/-- The simple shapes of a shape. -/
def Shape.atoms : Shape K → List (AShape K)
  | .null => []
  | .empty => []
  | .atom a => [a]
  | .coll cs => Shape.allAtoms cs

/-- The simple shapes of a list of shapes. -/
def Shape.allAtoms : List (Shape K) → List (AShape K)
  | [] => []
  | c :: cs => c.atoms ++ Shape.allAtoms cs
end

/-- The rings of a shape. -/
def Shape.rings (s : Shape K) : List (Series K) := s.atoms.flatMap AShape.rings

/-- The vertices of a shape. -/
def Shape.verts (s : Shape K) : List (Pt K) := s.atoms.flatMap AShape.verts

end Tg.S
