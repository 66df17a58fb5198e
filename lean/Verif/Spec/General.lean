import Verif.Spec.Interior
/-! General position: no vertex of one shape is on a segment of the other. -/
namespace Tg.S

variable {K : Type*} [Field K] [LinearOrder K] [IsStrictOrderedRing K]

/-- All vertices of the shape, with those of the holes. -/
def AShape.nodes : AShape K → List (Pt K)
  | .point p => [p]
  | .line s => s.pts
  | .poly ext holes => (ext :: holes).flatMap Series.pts

/-- All segments of the shape, with those of the holes. -/
def AShape.sides : AShape K → List (Seg K)
  | .point _ => []
  | .line s => edges s.pts
  | .poly ext holes => (ext :: holes).flatMap Series.segs

/-- No vertex of one of the shapes is on a segment of the other. The segments may cross. -/
def AShape.General (x y : AShape K) : Prop := (∀ p ∈ x.nodes, ¬ OnBoundary y.sides p) ∧ ∀ p ∈ y.nodes, ¬ OnBoundary x.sides p

/-- The same for all simple parts. -/
def Shape.General (a b : Shape K) : Prop := ∀ x ∈ a.atoms, ∀ y ∈ b.atoms, x.General y

/-- All vertices of the parts. -/
def Shape.nodes (s : Shape K) : List (Pt K) := s.atoms.flatMap AShape.nodes

end Tg.S
