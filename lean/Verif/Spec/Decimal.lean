import Verif.Spec.MarginShape
import Verif.Spec.Interior
import Verif.Spec.Move
/-! Coordinates as they are written: decimals, before they are rounded to doubles. -/
namespace Tg.S

/-- A decimal of at most 15 digits, `k` of them after the point, of absolute value at most `M`. -/
def Dec (k M : ℕ) (x : ℚ) : Prop := (∃ n : ℤ, |n| < 10 ^ 15 ∧ x = n / 10 ^ k) ∧ |x| ≤ M

def DecPt (k M : ℕ) (p : Pt ℚ) : Prop := Dec k M p.x ∧ Dec k M p.y

/-- The point is away from the line of the segment. For a point in the rectangle of the segment it is enough that the distance is more than `M / 2 ^ 43`. -/
def OffDec (M : ℚ) (s : Seg ℚ) (p : Pt ℚ) : Prop :=
  M * ((|s.b.x - s.a.x| + |s.b.y - s.a.y|) + (|p.x - s.a.x| + |p.y - s.a.y|)) / 2 ^ 45 < |cross s p|

/-- As `Clear`, for points that are going to be rounded. -/
def ClearDec (M : ℚ) (s : Seg ℚ) (p : Pt ℚ) : Prop :=
  OffDec M s p ∨ p = s.a ∨ p = s.b ∨ s.a.x = s.b.x ∨ s.a.y = s.b.y ∨ (¬ InBox s p ∧ (p.x < s.a.x ∧ p.x < s.b.x → p.y ≠ max s.a.y s.b.y))

/-- As `Apart`, for segments that are going to be rounded. -/
def ApartDec (M : ℚ) (s t : Seg ℚ) : Prop :=
  (OffDec M s t.a ∧ OffDec M s t.b ∧ OffDec M t s.a ∧ OffDec M t s.b) ∨ (s.a = t.a ∨ s.a = t.b ∨ s.b = t.a ∨ s.b = t.b) ∨ ∀ p, ¬ (InBox s p ∧ InBox t p)

/-- The point is above the ring, or below its top by two millionths of its height. -/
def NotTopDec (pts : List (Pt ℚ)) (p : Pt ℚ) : Prop :=
  ∃ hi ∈ pts, ∃ lo ∈ pts, (∀ q ∈ pts, lo.y ≤ q.y ∧ q.y ≤ hi.y) ∧ (hi.y < p.y ∨ p.y ≤ hi.y - (hi.y - lo.y) / 2 ^ 19)

/-- A closed ring of decimals, and the point is clear of each of its segments. -/
structure RingDec (k M : ℕ) (s : Series ℚ) (p : Pt ℚ) : Prop where
  closed : Closed s
  dec : ∀ q ∈ s.pts, DecPt k M q
  clear : ∀ t ∈ segments s.pts true, ClearDec M t p
  top : NotTopDec s.pts p

/-- The point is clear of the segments of the shape. -/
def AShape.ClearDec (k M : ℕ) (p : Pt ℚ) : AShape ℚ → Prop
  | .point q => DecPt k M q
  | .line s => (∀ q ∈ s.pts, DecPt k M q) ∧ ∀ t ∈ edges s.pts, S.ClearDec M t p
  | .poly ext holes => ∀ s ∈ ext :: holes, RingDec k M s p

/-- A function of the coordinates, for both coordinates of a point. -/
def Pt.each (f : ℚ → ℚ) (p : Pt ℚ) : Pt ℚ := ⟨f p.x, f p.y⟩

end Tg.S
