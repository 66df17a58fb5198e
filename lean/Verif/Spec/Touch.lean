import Verif.Spec.Shape
/-! Rings whose segments meet in vertices only. -/
namespace Tg.S

variable {K : Type*} [Field K] [LinearOrder K] [IsStrictOrderedRing K]

/-- Two segments of the ring meet in vertices only. -/
def SimpleRing (pts : List (Pt K)) : Prop :=
  ∀ (i j : Nat) (s t : Seg K), i < j → (segments pts true)[i]? = some s → (segments pts true)[j]? = some t → ∀ z, OnSeg s z → OnSeg t z → z ∈ pts

end Tg.S
