import Mathlib.Algebra.Order.Field.Basic
import Mathlib.Algebra.BigOperators.Group.List.Basic
import Verif.Spec.Series
/-! Points of segments, over an ordered field. -/
namespace Tg.S

/-- The list of points closed by its first one. -/
def closeUp {α : Type*} (c : List (Pt α)) : List (Pt α) := c ++ c.take 1

variable {K : Type*} [Field K] [LinearOrder K]

/-- The point lies on the closed segment. -/
def OnSeg (s : Seg K) (p : Pt K) : Prop :=
  ∃ t : K, 0 ≤ t ∧ t ≤ 1 ∧ p.x = s.a.x + t * (s.b.x - s.a.x) ∧ p.y = s.a.y + t * (s.b.y - s.a.y)

/-- The closed segments have a point in common. -/
def Share (s t : Seg K) : Prop := ∃ p : Pt K, OnSeg s p ∧ OnSeg t p

/-- The horizontal ray from the point to the right crosses the segment without its upper end: a point of the segment at the same height is
strictly to the right, and the height is at least the lower end and below the upper one. -/
def Crosses (s : Seg K) (p : Pt K) : Prop :=
  min s.a.y s.b.y ≤ p.y ∧ p.y < max s.a.y s.b.y ∧ ∃ x, p.x < x ∧ OnSeg s ⟨x, p.y⟩

/-- Twice the signed area of the polygon with these vertices, counter-clockwise positive. -/
def shoelace (c : List (Pt K)) : K := ((edges (closeUp c)).map fun s => s.a.x * s.b.y - s.b.x * s.a.y).sum

/-- The direction of the turn `a`, `b`, `c`: positive to the left. -/
def turn (a b c : Pt K) : K := (b.x - a.x) * (c.y - b.y) - (b.y - a.y) * (c.x - b.x)

/-- The turns of a chain. -/
def chainTurns : List (Pt K) → List K
  | a :: b :: c :: rest => turn a b c :: chainTurns (b :: c :: rest)
  | _ => []

/-- The turns of a polygon, starting at the second vertex. -/
def turns (c : List (Pt K)) : List K := chainTurns (c ++ c.take 2)

end Tg.S
