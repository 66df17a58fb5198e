import Verif.Spec.MarginMeet
import Verif.Spec.General
/-! A polygon and a shape whose vertices and segments are not too near to those of the other, in general position. -/
namespace Tg.S

/-- Usual doubles, rings that are closed, and an exterior whose turns are clear. -/
def PolySound (M : ℚ) (ext : Series ℚ) (holes : List (Series ℚ)) : Prop :=
  (∀ s ∈ ext :: holes, Closed s ∧ ∀ q ∈ s.pts, UsualPt M q) ∧ TurnsClear M ext.pts

/-- The same for a shape of any kind. -/
def AShape.Firmly (M : ℚ) : AShape ℚ → Prop
  | .poly ext holes => PolySound M ext holes
  | .line s => ∀ q ∈ s.pts, UsualPt M q
  | .point p => UsualPt M p

/-- All vertices of each, with those of holes, are clear of the segments of the other and not on them. The segments are apart; they may cross. -/
structure AShape.Aside (M : ℚ) (x y : AShape ℚ) : Prop where
  left : ∀ p ∈ y.nodes, x.ClearOf M p
  right : ∀ p ∈ x.nodes, y.ClearOf M p
  apart : ∀ u ∈ x.sides, ∀ v ∈ y.sides, S.Apart M u v
  general : x.General y

/-- In addition, the boxes of the holes of the first and the box of the exterior of the other tell. -/
structure AShape.Away (M : ℚ) (x y : AShape ℚ) : Prop extends x.Aside M y where
  boxes : ∀ e hs e' hs', x = .poly e hs → y = .poly e' hs' → ∀ h ∈ hs, BoxTells h.pts e'.pts ∧ BoxTells e'.pts h.pts

end Tg.S
