import Verif.Spec.MarginShape
/-! Two shapes whose vertices and segments are not too near to those of the other. -/
namespace Tg.S

/-- The segments of the shape, of a polygon those of its exterior. -/
def AShape.rim : AShape ℚ → List (Seg ℚ)
  | .point _ => []
  | .line s => edges s.pts
  | .poly ext _ => ext.segs

/-- At each vertex of the ring, the next one is away from the line through it and the one before, or a side there is parallel to an axis. -/
def TurnsClear (M : ℚ) (pts : List (Pt ℚ)) : Prop :=
  ∀ i a b c, (pts ++ pts.take 2)[i]? = some a → (pts ++ pts.take 2)[i + 1]? = some b → (pts ++ pts.take 2)[i + 2]? = some c →
    Off M ⟨a, b⟩ c ∨ a.x = b.x ∨ a.y = b.y ∨ b.x = c.x ∨ b.y = c.y

/-- Usual doubles, rings that are closed, and holes whose turns are clear. -/
def AShape.Sound (M : ℚ) : AShape ℚ → Prop
  | .point p => UsualPt M p
  | .line s => ∀ q ∈ s.pts, UsualPt M q
  | .poly ext holes => (∀ s ∈ ext :: holes, Closed s ∧ ∀ q ∈ s.pts, UsualPt M q) ∧ ∀ h ∈ holes, TurnsClear M h.pts

/-- The least rectangle with the points. -/
def BoxOf (l : List (Pt ℚ)) (R : Rect ℚ) : Prop := (∀ v ∈ l, R.Has v) ∧ ∀ T : Rect ℚ, (∀ v ∈ l, T.Has v) → R.Le T

/-- If the box of the first points is strictly within that of the others, then one of its sides is shorter by a part of `2 ^ -48`: the rounded areas tell
which is the larger. -/
def BoxTells (l m : List (Pt ℚ)) : Prop :=
  ∀ R S : Rect ℚ, BoxOf l R → BoxOf m S → S.lo.x < R.lo.x → R.hi.x < S.hi.x → S.lo.y < R.lo.y → R.hi.y < S.hi.y →
    R.hi.x - R.lo.x ≤ (1 - 1 / 2 ^ 48) * (S.hi.x - S.lo.x) ∨ R.hi.y - R.lo.y ≤ (1 - 1 / 2 ^ 48) * (S.hi.y - S.lo.y)

/-- The vertices of each are clear of the segments of the other, the segments are apart, and the boxes of two exteriors tell. The holes of the one
do not have to be apart from the holes of the other. -/
structure AShape.Apart (M : ℚ) (x y : AShape ℚ) : Prop where
  left : ∀ p ∈ y.verts, x.ClearOf M p
  right : ∀ p ∈ x.verts, y.ClearOf M p
  rim_sides : ∀ u ∈ x.rim, ∀ v ∈ y.sides, S.Apart M u v
  sides_rim : ∀ u ∈ x.sides, ∀ v ∈ y.rim, S.Apart M u v
  boxes : ∀ e h e' h', x = .poly e h → y = .poly e' h' → BoxTells e.pts e'.pts ∧ BoxTells e'.pts e.pts

/-- The same for all simple parts. -/
def Shape.Apart (M : ℚ) (a b : Shape ℚ) : Prop := ∀ x ∈ a.atoms, ∀ y ∈ b.atoms, x.Apart M y

end Tg.S
