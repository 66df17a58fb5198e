import Verif.Spec.MadeBy
import Verif.Spec.General
import Verif.Model.Ieee
import Verif.Spec.Double
/-! Vertices that two shapes have in common. -/
namespace Tg.S

variable {K : Type*} [LinearOrder K]

/-- A horizontal or vertical line, through none of the points, separates the points of the two lists. -/
def Beside (l m : List (Pt K)) : Prop :=
  (∀ p ∈ l, ∀ q ∈ m, p.x < q.x) ∨ (∀ p ∈ l, ∀ q ∈ m, q.x < p.x) ∨ (∀ p ∈ l, ∀ q ∈ m, p.y < q.y) ∨ ∀ p ∈ l, ∀ q ∈ m, q.y < p.y

/-- One of the segments of the ring that end at the point has a part that is below the top of the ring by a millionth of its height. -/
def Below (pts : List (Pt ℚ)) (v : Pt ℚ) : Prop :=
  ∃ s ∈ segments pts true, (v = s.a ∨ v = s.b) ∧ ∃ hi ∈ pts, ∃ lo ∈ pts, (∀ p ∈ pts, lo.y ≤ p.y ∧ p.y ≤ hi.y) ∧ min s.a.y s.b.y ≤ hi.y - (hi.y - lo.y) / 2 ^ 20

/-- A double that is zero or in the range of the normal floats. -/
def Plain (q : ℚ) : Prop := (∃ x : F64, Spec.Double.IsFinite x ∧ Spec.Double.val x = q) ∧ (q = 0 ∨ 2 ^ (-125 : ℤ) ≤ |q| ∧ |q| ≤ 2 ^ (126 : ℤ))

/-- What is needed of a ring: three points or more, the last of which is the first. -/
def Closed (s : Series K) : Prop := 3 ≤ s.pts.length ∧ s.pts.getLast? = s.pts.head?

/-- `v` is a vertex of `x`, the coordinates are such doubles, rings are closed, `v` is not at the very top of the exterior, and each hole is out of the way:
a vertex of `y` is beside it, or `y` is a point that is a vertex of it. -/
structure Vertex (x y : AShape ℚ) (v : Pt ℚ) : Prop where
  mem : v ∈ x.verts
  plain : ∀ p ∈ x.nodes, Plain p.x ∧ Plain p.y
  line : ∀ s, x = .line s → 2 ≤ s.pts.length
  closed : ∀ s ∈ x.rings, Closed s
  below : ∀ e hs, x = .poly e hs → Below e.pts v
  holes : ∀ e hs, x = .poly e hs → ∀ h ∈ hs, (∃ w ∈ y.verts, Beside h.pts [w]) ∨ ∃ p, y = .point p ∧ p ∈ h.pts ∧ Below h.pts p

end Tg.S
