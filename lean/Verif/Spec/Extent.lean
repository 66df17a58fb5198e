import Verif.Model.Rect
/-! The points of a geometry, and the order of doubles, for the rectangle of a geometry. -/
namespace Tg

/-- The bits without the sign. -/
def F64.mag (b : F64) : Nat := b.toNat % 2 ^ 63

/-- Not a NaN. -/
def F64.Num (b : F64) : Prop := F64.mag b ≤ 0x7ff0000000000000

/-- Doubles that are not NaN are ordered like these integers; zero and minus zero are equal. -/
def F64.val (b : F64) : Int := if b.toNat < 2 ^ 63 then F64.mag b else - F64.mag b

def Pt.Num (p : Pt) : Prop := F64.Num p.x ∧ F64.Num p.y

def Rect.Num (r : Rect) : Prop := r.min.Num ∧ r.max.Num

/-- The point is in the rectangle. -/
def Rect.Holds (r : Rect) (p : Pt) : Prop :=
  F64.val r.min.x ≤ F64.val p.x ∧ F64.val p.x ≤ F64.val r.max.x ∧ F64.val r.min.y ≤ F64.val p.y ∧ F64.val p.y ≤ F64.val r.max.y

/-- The rectangle is within the other. -/
def Rect.Within (r t : Rect) : Prop :=
  F64.val t.min.x ≤ F64.val r.min.x ∧ F64.val r.max.x ≤ F64.val t.max.x ∧ F64.val t.min.y ≤ F64.val r.min.y ∧ F64.val r.max.y ≤ F64.val t.max.y

/-- The least rectangle that holds the points. -/
structure Rect.IsHull (r : Rect) (ps : List Pt) : Prop where
  num : r.Num
  holds : ∀ p ∈ ps, r.Holds p
  least : ∀ t : Rect, (∀ p ∈ ps, t.Holds p) → r.Within t

/-- The points of a line or ring; one with fewer than two points is empty. -/
def seriesPts (o : List Pt) (pts : List Pt) : List Pt := if pts.length < 2 then o else pts

/-- One or none. -/
def orPts {α : Type} (o : List Pt) (f : α → List Pt) : Option α → List Pt
  | none => o
  | some a => f a

mutual
/-- The points of a geometry (those of the exterior for polygons), where an empty part counts as the points `o`. -/
def Geom.pts (o : List Pt) : Geom → List Pt
  | .point _ p => [p]
  | .line _ pts => seriesPts o pts
  | .poly _ pl => seriesPts o pl.ext
  | .gpoint _ p _ _ _ => [p]
  | .gline _ l _ _ => orPts o (seriesPts o) l
  | .gpoly _ p _ _ => orPts o (fun pl => seriesPts o pl.ext) p
  | .mpoint _ ps _ _ => orPts o (fun ps => if ps = [] then o else ps) ps
  | .mline _ ls _ _ => orPts o (fun ls => if ls = [] then o else ls.flatMap (orPts o (seriesPts o))) ls
  | .mpoly _ ps _ _ => orPts o (fun ps => if ps = [] then o else ps.flatMap (orPts o fun pl => seriesPts o pl.ext)) ps
  | .coll _ hasMulti gs _ _ => if hasMulti ∧ gs ≠ [] then Geom.listPts o gs else o
  | .err _ => o
/-- The points of the members. -/
def Geom.listPts (o : List Pt) : List Geom → List Pt
  | [] => []
  | g :: gs => Geom.pts o g ++ Geom.listPts o gs
end

/-- The points of a geometry. -/
abbrev Geom.points (g : Geom) : List Pt := g.pts []

/-- `fmin0`, `fmax0` and the rectangle of rings work on numbers as they should; on NaN, and in the choice between zeros of different sign, they
may be anything. -/
structure Platform.Ok (P : Platform) : Prop where
  fmin : ∀ a b, F64.Num a → F64.Num b → F64.Num (P.fmin a b) ∧ F64.val (P.fmin a b) = min (F64.val a) (F64.val b)
  fmax : ∀ a b, F64.Num a → F64.Num b → F64.Num (P.fmax a b) ∧ F64.val (P.fmax a b) = max (F64.val a) (F64.val b)
  /-- property C19 -/
  ring : ∀ l : List Pt, 2 ≤ l.length → (∀ p ∈ l, p.Num) → (P.ringRect l).IsHull l
  ring0 : ∀ l : List Pt, l.length < 2 → P.ringRect l = .zero

end Tg
