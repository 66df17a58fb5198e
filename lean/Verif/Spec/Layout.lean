import Mathlib.Data.List.Pairwise
/-! Parts of a block of memory. -/
namespace Tg.Spec

/-- Parts, each with its start and its size, that lie in order and without overlap in a block. -/
def Fit (size : Nat) (parts : List (Nat × Nat)) : Prop :=
  (∀ p ∈ parts, p.1 + p.2 ≤ size) ∧ parts.Pairwise fun p q => p.1 + p.2 ≤ q.1

end Tg.Spec
