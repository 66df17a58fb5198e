import Verif.Spec.Plane
/-! The region bounded by a closed chain of segments, by the even-odd rule. -/
namespace Tg.S

variable {K : Type*} [Field K] [LinearOrder K]

open Classical in
/-- The number of segments crossed by the ray from `p` to the right. -/
noncomputable def ncross (es : List (Seg K)) (p : Pt K) : Nat := es.countP fun s => Crosses s p

/-- `p` is on one of the segments. -/
def OnBoundary (es : List (Seg K)) (p : Pt K) : Prop := ∃ s ∈ es, OnSeg s p

/-- `p` is inside: not on the boundary, and an odd number of crossings. -/
def Inside (es : List (Seg K)) (p : Pt K) : Prop := ¬ OnBoundary es p ∧ ncross es p % 2 = 1

/-- The closed region. -/
def InRegion (es : List (Seg K)) (p : Pt K) : Prop := OnBoundary es p ∨ Inside es p

end Tg.S
