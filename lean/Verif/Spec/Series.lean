import Verif.Lemmas.Series
/-! What the series of points stand for: the segments of a line or ring, boxes, and visiting a list with a callback that can stop. -/
namespace Tg.S

variable {α : Type*} [LinearOrder α]

/-- The segments between consecutive points. -/
def edges : List (Pt α) → List (Seg α)
  | a :: b :: rest => ⟨a, b⟩ :: edges (b :: rest)
  | _ => []

/-- The segments of a line, or of a ring, which is closed with a last segment if the last point is not the first one. -/
def segments (pts : List (Pt α)) (closed : Bool) : List (Seg α) :=
  if !closed then edges pts
  else if pts.length < 3 then []
  else if pts.getLast? = pts.head? then edges pts
  else edges (pts ++ pts.take 1)

/-- The box of a segment contains the point. -/
def InBox (s : Seg α) (p : Pt α) : Prop :=
  (s.a.x ≤ p.x ∨ s.b.x ≤ p.x) ∧ (p.x ≤ s.a.x ∨ p.x ≤ s.b.x) ∧ (s.a.y ≤ p.y ∨ s.b.y ≤ p.y) ∧ (p.y ≤ s.a.y ∨ p.y ≤ s.b.y)

/-- The rectangle and the box of the segment share a point. -/
def Meets (q : Rect α) (s : Seg α) : Prop := ∃ p : Pt α, q.Has p ∧ InBox s p

/-- Visit a list, stopping at the first `false`. -/
def visit {γ σ : Type*} (f : γ → σ → σ × Bool) : List γ → σ → σ
  | [], st => st
  | x :: xs, st => if (f x st).2 then visit f xs (f x st).1 else (f x st).1

end Tg.S
