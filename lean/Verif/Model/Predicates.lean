import Verif.Model.Multi
import Verif.Model.Relate
/-!
The predicates on geometries: points (tg.c:1051-1161), lines (tg.c:3379-3608), polygons (tg.c:3828-4228), and the dispatch over the types
(tg.c:5473-6506, 14976-15005).

The answers are `none` if the code reads outside of an object, or if `tg_line_covers_line` does not end within `fuel` iterations of its loop. Not
modelled: pointers to lines, rings and holes that are NULL in a geometry that is not flagged `IS_EMPTY`; extra coordinates and JSON, which
the predicates do not look at.
-/
namespace Tg.S

variable {α β : Type*} [LinearOrder α] [LinearOrder β]

/-! ### Objects -/

/-- `struct tg_ring` with its flags `convex` and `clockwise`. -/
structure FRing (α β : Type*) where
  ring : Ring α β
  convex : Bool
  clockwise : Bool

/-- `struct tg_poly`: a ring (`BASE_RING`), which is what `tg_poly_new` makes if there are no holes, or a ring with holes (`BASE_POLY`). -/
inductive PolyS (α β : Type*) where
  | ring (r : FRing α β)
  | poly (ext : FRing α β) (holes : List (FRing α β))

/-- `tg_poly_exterior`, tg.c:3833-3839. -/
def PolyS.ext : PolyS α β → FRing α β
  | .ring r => r
  | .poly e _ => e

/-- `tg_poly_num_holes` and `tg_poly_hole_at`, tg.c:3845-3861. -/
def PolyS.holes : PolyS α β → List (FRing α β)
  | .ring _ => []
  | .poly _ hs => hs

/-- The simple geometries. -/
inductive Atom (α β : Type*) where
  | point (p : Pt α)
  | line (l : Ring α β)
  | poly (p : PolyS α β)

/-- `struct tg_geom`. `atom` stands for `BASE_POINT`, `BASE_LINE`, `BASE_RING`, `BASE_POLY` and for `BASE_GEOM` of type point, linestring or polygon
that is not flagged `IS_EMPTY`: the two switches of each function do the same with them. `empty` is a `BASE_GEOM` of one of these types that is
flagged. A multi has the flag, the children, the rectangle and the index; a `multi` pointer that is NULL has no children. -/
inductive Geo (α β : Type*) where
  | null
  | empty
  | atom (a : Atom α β)
  | multi (flag : Bool) (children : List (Geo α β)) (rect : Rect α) (index : Option (Index β)) (ixgeoms : List Nat)

/-- The parameters of the predicates: conversion to index coordinates, arithmetic, and the bound for the loop of `tg_line_covers_line`. -/
structure Par (α β : Type*) where
  f : Ix α β
  A : Arith α
  R : RArith α
  fuel : Nat

variable (P : Par α β)

/-! ### Loops -/

/-- `for (...) if (P(x)) return true; return false;` -/
def anyOf {γ : Type*} (t : γ → Option Bool) : List γ → Option Bool
  | [] => some false
  | x :: xs =>
    match t x with
    | none => none
    | some true => some true
    | some false => anyOf t xs

/-- `for (...) if (!P(x)) return false; return true;` -/
def allOf {γ : Type*} (t : γ → Option Bool) : List γ → Option Bool
  | [] => some true
  | x :: xs =>
    match t x with
    | none => none
    | some false => some false
    | some true => allOf t xs

/-- `!x` -/
def notM (x : Option Bool) : Option Bool := x.map (!·)

/-- `x && y` -/
def andM (x y : Option Bool) : Option Bool :=
  match x with
  | none => none
  | some false => some false
  | some true => y

/-! ### Points -/

/-- `tg_point_covers_rect`, tg.c:1085-1087. -/
def ptCoversRect (p : Pt α) (r : Rect α) : Bool := pteq r.lo p && pteq r.hi p

/-- `tg_point_covers_line`, `tg_point_contains_line`, tg.c:1097-1105. -/
def ptCoversLine (p : Pt α) (l : Ring α β) : Bool := !ringEmpty l && ptCoversRect p l.rect

/-- `tg_point_touches_line`, tg.c:1115-1123. -/
def ptTouchesLine (p : Pt α) (l : Ring α β) : Option Bool :=
  if l.nsegs = 0 then some false
  else
    match segAt l.points 0, segAt l.points (l.nsegs - 1) with
    | some s0, some sN => some (pteq p s0.a || pteq p sN.b)
    | _, _ => none

/-- `tg_poly_empty`, tg.c:3874-3876. -/
def polyEmpty (p : PolyS α β) : Bool := ringEmpty p.ext.ring

/-- `tg_poly_rect`, tg.c:3880-3882. -/
def polyRect (p : PolyS α β) : Rect α := p.ext.ring.rect

/-- `tg_point_covers_poly`, tg.c:1127-1130. -/
def ptCoversPoly (p : Pt α) (q : PolyS α β) : Bool := !polyEmpty q && ptCoversRect p (polyRect q)

/-- `tg_point_touches_poly`, tg.c:1146-1161. -/
def ptTouchesPoly (p : Pt α) (q : PolyS α β) : Option Bool :=
  anyOf (fun r : FRing α β => lineCoversPt P.f P.A r.ring p) (q.ext :: q.holes)

/-! ### Lines -/

/-- `tg_line_contains_point`, tg.c:3420-3431. -/
def lineContainsPt (l : Ring α β) (p : Pt α) : Option Bool :=
  match lineCoversPt P.f P.A l p with
  | none => none
  | some false => some false
  | some true =>
    match segAt l.points 0, segAt l.points (l.nsegs - 1) with
    | some s0, some sN => some (!(pteq p s0.a || pteq p sN.b))
    | _, _ => none

/-- `tg_line_intersects_line`: `line_intersects_line` with `SI_INTERSECTS`, tg.c:3551-3586. -/
def lineXLine (a b : Ring α β) : Option Bool :=
  (ringRingSearch P.f P.A a b (fun _ _ _ _ _ => (true, false)) false).map (·.1)

/-- `segment_touches0`, tg.c:3524-3540. -/
def segTouches0 (A : Arith α) (seg : Seg α) (a b : Pt α) : Bool :=
  if !segCoversPt A seg a then false
  else if !collinear A seg.a seg.b b then true
  else if pteq seg.a a then !segCoversPt A ⟨a, b⟩ seg.b
  else if pteq seg.b a then !segCoversPt A ⟨a, b⟩ seg.a
  else false

/-- `any_touching`, tg.c:3542-3549. -/
def anyTouching (A : Arith α) (a : Seg α) (ai an : Nat) (b : Seg α) (bi bn : Nat) : Bool :=
  (ai == 0 && segTouches0 A b a.a a.b) || (ai + 1 == an && segTouches0 A b a.b a.a) ||
  (bi == 0 && segTouches0 A a b.a b.b) || (bi + 1 == bn && segTouches0 A a b.b b.a)

/-- `tg_line_touches_line`: `line_intersects_line` with `SI_TOUCHES`, tg.c:3551-3590. -/
def lineTouchesLine (a b : Ring α β) : Option Bool :=
  (ringRingSearch P.f P.A a b
    (fun s i t j _ => if anyTouching P.A s i a.nsegs t j b.nsegs then (true, true) else (false, false)) false).map (·.1)

/-- `rect_to_ring`, tg.c:1813-1825, with `tg_rect_point_at`, tg.c:1332-1347: the corners, starting at `min`, counterclockwise. -/
def rectToRing (r : Rect α) : Ring α β where
  points := [r.lo, ⟨r.hi.x, r.lo.y⟩, r.hi, ⟨r.lo.x, r.hi.y⟩, r.lo]
  npoints := 5
  nsegs := 4
  closed := true
  rect := r
  index := none
  ystripes := none

/-- `tg_line_covers_poly`, tg.c:3594-3607. -/
def lineCoversPoly (l : Ring α β) (p : PolyS α β) : Option Bool :=
  if ringEmpty l || polyEmpty p then some false
  else if !feq (polyRect p).lo.x (polyRect p).hi.x && !feq (polyRect p).lo.y (polyRect p).hi.y then some false
  else lineCoversLine P.A P.fuel l (rectToRing (polyRect p))

/-! ### Polygons -/

/-- `.hit` of `tg_ring_contains_point`. -/
def hit (r : FRing α β) (p : Pt α) (edge : Bool) : Option Bool := (ringContainsPoint P.f P.A r.ring p edge).map (·.1)

/-- `poly_contains_point`, tg.c:3884-3907. -/
def polyHasPt (q : PolyS α β) (p : Pt α) (edge : Bool) : Option Bool :=
  match q with
  | .ring r => hit P r p edge
  | .poly ext holes =>
    if ringEmpty ext.ring then some false
    else andM (hit P ext p edge) (notM (anyOf (fun h => hit P h p (!edge)) holes))

/-- `tg_ring_contains_line` with the flags of the ring. -/
def hasLine (r : FRing α β) (l : Ring α β) (edge boundaries : Bool) : Option Bool :=
  ringHasLine P.f P.A P.R r.convex r.clockwise r.ring l edge boundaries

/-- `tg_ring_contains_ring` with the flags of the ring. -/
def hasRing (a b : FRing α β) (edge : Bool) : Option Bool := ringHasRing P.f P.A P.R a.convex a.clockwise a.ring b.ring edge

/-- `tg_poly_covers_line`, tg.c:3957-3971. -/
def polyCoversLine (a : PolyS α β) (b : Ring α β) : Option Bool :=
  if polyEmpty a || ringEmpty b then some false
  else andM (hasLine P a.ext b true false) (notM (anyOf (fun h : FRing α β => ringXLine P.f P.A h.ring b false) a.holes))

/-- `tg_poly_contains_line`, tg.c:3973-3987. -/
def polyContainsLine (a : PolyS α β) (b : Ring α β) : Option Bool :=
  if polyEmpty a || ringEmpty b then some false
  else andM (hasLine P a.ext b false true) (notM (anyOf (fun h : FRing α β => ringXLine P.f P.A h.ring b false) a.holes))

/-- `tg_poly_intersects_line`, tg.c:3991-4011. -/
def polyXLine (a : PolyS α β) (b : Ring α β) : Option Bool :=
  match a with
  | .ring r => ringXLine P.f P.A r.ring b true
  | .poly ext holes =>
    if ringEmpty ext.ring || ringEmpty b then some false
    else andM (ringXLine P.f P.A ext.ring b true) (notM (anyOf (fun h => hasLine P h b false false) holes))

/-- `tg_poly_covers_poly`, tg.c:4015-4065: a hole that meets the other polygon has to be in a hole of it. -/
def polyCoversPoly (a b : PolyS α β) : Option Bool :=
  match a, b with
  | .ring r, .ring s => hasRing P r s true
  | _, _ =>
    if polyEmpty a || polyEmpty b then some false
    else andM (hasRing P a.ext b.ext true) (allOf (fun h : FRing α β =>
      match ringXRing P.f P.A P.R h.ring b.ext.ring false with
      | none => none
      | some false => some true
      | some true => anyOf (fun k => hasRing P k h true) b.holes) a.holes)

/-- `tg_poly_intersects_poly`, tg.c:4073-4109. -/
def polyXPoly (a b : PolyS α β) : Option Bool :=
  match a, b with
  | .ring r, .ring s => ringXRing P.f P.A P.R r.ring s.ring true
  | _, _ =>
    if polyEmpty a || polyEmpty b then some false
    else andM (ringXRing P.f P.A P.R b.ext.ring a.ext.ring true)
      (andM (notM (anyOf (fun h => hasRing P h b.ext false) a.holes)) (notM (anyOf (fun h => hasRing P h a.ext false) b.holes)))

/-- The first hole for which the test holds, with the answer given for it, else the rest of the function. -/
def inHole (t : FRing α β → Option Bool) (ans : FRing α β → Option Bool) (rest : Option Bool) : List (FRing α β) → Option Bool
  | [] => rest
  | h :: hs =>
    match t h with
    | none => none
    | some true => ans h
    | some false => inHole t ans rest hs

/-- The points of a line or ring, `tg_line_point_at`. -/
def ptsOf (r : Ring α β) : List (Pt α) := r.points.take r.npoints

/-- `tg_poly_touches_line`, tg.c:4111-4155. -/
def polyTouchesLine (a : PolyS α β) (b : Ring α β) : Option Bool :=
  if !(polyRect a).intersects b.rect then some false
  else inHole (fun h => hasLine P h b true false) (fun h => anyOf (fun p => lineCoversPt P.f P.A h.ring p) (ptsOf b))
    (andM (anyOf (fun p => lineCoversPt P.f P.A a.ext.ring p) (ptsOf b))
      (notM (anySeg b.points (fun s => ringXSeg P.f P.A a.ext.ring s false) (List.range b.nsegs)))) a.holes

/-- The loop over the segments of `b`, tg.c:4200-4212: the number of segments that meet `a` but not its inside; `some none` if the function returns
false. -/
def countTouches (a : Ring α β) (points : List (Pt α)) : List Nat → Nat → Option (Option Nat)
  | [], n => some (some n)
  | i :: is, n =>
    match segAt points i with
    | none => none
    | some s =>
      match ringXSeg P.f P.A a s true, ringXSeg P.f P.A a s false with
      | some x0, some x1 =>
        if x0 && !x1 then countTouches a points is (n + 1) else if x0 || x1 then some none else countTouches a points is n
      | _, _ => none

/-- `tg_poly_touches_poly` after the holes, tg.c:4188-4228. -/
def extTouches (a b : Ring α β) : Option Bool :=
  match countTouches P a b.points (List.range b.nsegs) 0 with
  | none => none
  | some none => some false
  | some (some bt) =>
    match countTouches P b a.points (List.range a.nsegs) 0 with
    | none => none
    | some none => some false
    | some (some at') =>
      if at' > 0 || bt > 0 then some (!(at' == a.nsegs && bt == b.nsegs)) else some false

/-- `tg_poly_touches_poly`, tg.c:4157-4221. -/
def polyTouchesPoly (a b : PolyS α β) : Option Bool :=
  if !(polyRect a).intersects (polyRect b) then some false
  else
    let ans (r h : FRing α β) := anyOf (fun p => lineCoversPt P.f P.A h.ring p) (ptsOf r.ring)
    inHole (fun h => hasRing P h b.ext true) (ans b.ext)
      (inHole (fun h => hasRing P h a.ext true) (ans a.ext) (extTouches P a.ext.ring b.ext.ring) b.holes) a.holes

/-! ### Simple geometries -/

/-- The calls of `point_intersects_geom`, `line_intersects_geom` and `poly_intersects_geom`, tg.c:5517-5671. -/
def atomX : Atom α β → Atom α β → Option Bool
  | .point p, .point q => some (pteq p q)
  | .point p, .line l => lineCoversPt P.f P.A l p
  | .point p, .poly q => polyHasPt P q p true
  | .line l, .point p => lineCoversPt P.f P.A l p
  | .line l, .line m => lineXLine P l m
  | .line l, .poly q => polyXLine P q l
  | .poly q, .point p => polyHasPt P q p true
  | .poly q, .line l => polyXLine P q l
  | .poly q, .poly r => polyXPoly P q r

/-- The calls of `point_covers_geom`, `line_covers_geom` and `poly_covers_geom`, tg.c:5740-5891. -/
def atomCovers : Atom α β → Atom α β → Option Bool
  | .point p, .point q => some (pteq p q)
  | .point p, .line l => some (ptCoversLine p l)
  | .point p, .poly q => some (ptCoversPoly p q)
  | .line l, .point p => lineCoversPt P.f P.A l p
  | .line l, .line m => lineCoversLine P.A P.fuel l m
  | .line l, .poly q => lineCoversPoly P l q
  | .poly q, .point p => polyHasPt P q p true
  | .poly q, .line l => polyCoversLine P q l
  | .poly q, .poly r => polyCoversPoly P q r

/-- The calls of `point_contains_geom`, `line_contains_geom` and `poly_contains_geom`, tg.c:6026-6247. -/
def atomContains : Atom α β → Atom α β → Option Bool
  | .point p, .point q => some (pteq p q)
  | .point p, .line l => some (ptCoversLine p l)
  | .point _, .poly _ => some false
  | .line l, .point p => lineContainsPt P l p
  | .line l, .line m => lineCoversLine P.A P.fuel l m
  | .line _, .poly _ => some false
  | .poly q, .point p => polyHasPt P q p false
  | .poly q, .line l => polyContainsLine P q l
  | .poly q, .poly r => polyCoversPoly P q r

/-- The calls of `point_touches_geom`, `line_touches_geom` and `poly_touches_geom`, tg.c:6294-6452. -/
def atomTouches : Atom α β → Atom α β → Option Bool
  | .point _, .point _ => some false
  | .point p, .line l => ptTouchesLine p l
  | .point p, .poly q => ptTouchesPoly P p q
  | .line l, .point p => ptTouchesLine p l
  | .line l, .line m => lineTouchesLine P l m
  | .line l, .poly q => polyTouchesLine P q l
  | .poly q, .point p => ptTouchesPoly P p q
  | .poly q, .line l => polyTouchesLine P q l
  | .poly q, .poly r => polyTouchesPoly P q r

/-! ### Geometries -/

/-- `tg_geom_rect`, tg.c:5175-5217. -/
def Geo.rect [Zero α] : Geo α β → Rect α
  | .null => ⟨⟨0, 0⟩, ⟨0, 0⟩⟩
  | .empty => ⟨⟨0, 0⟩, ⟨0, 0⟩⟩
  | .atom (.point p) => p.rect
  | .atom (.line l) => l.rect
  | .atom (.poly p) => polyRect p
  | .multi _ _ r _ _ => r

mutual
/-- `tg_geom_is_empty` and `base_geom_deep_empty`, tg.c:5910-5954. -/
def Geo.isEmpty : Geo α β → Bool
  | .null => true
  | .empty => true
  | .atom (.point _) => false
  | .atom (.line l) => ringEmpty l
  | .atom (.poly p) => polyEmpty p
  | .multi flag cs _ _ _ => flag || allEmpty cs

/-- All children are empty. -/
def allEmpty : List (Geo α β) → Bool
  | [] => true
  | c :: cs => c.isEmpty && allEmpty cs
end

/-- `tg_geom_foreach`, tg.c:5473-5509: the geometries that are handed to the callback. -/
def Geo.foreach : Geo α β → List (Geo α β)
  | .null => []
  | .multi _ cs _ _ _ => cs
  | g => [g]

mutual
/-- `point_intersects_geom`, `line_intersects_geom`, `poly_intersects_geom` and their `..._base_geom`, tg.c:5517-5671; `t` is the test against a
simple geometry. Also `point_touches_geom` and `line_touches_geom`, tg.c:6294-6396, which have the same form. -/
def someGeo (t : Atom α β → Option Bool) : Geo α β → Option Bool
  | .null => some false
  | .empty => some false
  | .atom b => t b
  | .multi flag cs _ _ _ => if flag then some false else someGeos t cs

/-- The loop over the children. -/
def someGeos (t : Atom α β → Option Bool) : List (Geo α β) → Option Bool
  | [] => some false
  | c :: cs =>
    match someGeo t c with
    | none => none
    | some true => some true
    | some false => someGeos t cs
end

mutual
/-- `point_covers_geom`, `line_covers_geom`, `poly_covers_geom`, tg.c:5740-5880, and the three of `contains`, tg.c:6026-6247. -/
def everyGeo (t : Atom α β → Option Bool) : Geo α β → Option Bool
  | .null => some false
  | .empty => some false
  | .atom b => t b
  | .multi flag cs _ _ _ => if flag || cs.isEmpty then some false else everyGeos t cs

/-- The loop over the children. -/
def everyGeos (t : Atom α β → Option Bool) : List (Geo α β) → Option Bool
  | [] => some true
  | c :: cs =>
    match everyGeo t c with
    | none => none
    | some false => some false
    | some true => everyGeos t cs
end

mutual
/-- `poly_touches_geom`, tg.c:6398-6452, for the polygon `q`. -/
def polyTouchesGeo (q : PolyS α β) : Geo α β → Option Bool
  | .null => some false
  | .empty => some false
  | .atom b => atomTouches P (.poly q) b
  | .multi flag cs _ _ _ => if flag then some false else polyTouchesGeos q cs false

/-- The loop over the children. -/
def polyTouchesGeos (q : PolyS α β) : List (Geo α β) → Bool → Option Bool
  | [], touches => some touches
  | c :: cs, touches =>
    match polyTouchesGeo q c with
    | none => none
    | some true => polyTouchesGeos q cs true
    | some false =>
      match someGeo (atomX P (.poly q)) c with
      | none => none
      | some true => some false
      | some false => polyTouchesGeos q cs touches
end

/-- A simple geometry against a geometry: `point_touches_geom`, `line_touches_geom`, `poly_touches_geom`. -/
def atomTouchesGeo : Atom α β → Geo α β → Option Bool
  | .poly q, g => polyTouchesGeo P q g
  | a, g => someGeo (atomTouches P a) g

/-- `multiiter`, tg.c:5678-5686, for child `i`. The answers for the children have been computed beforehand; an answer is looked at only if the
child is visited. -/
def multiIter (answers : List (Option Bool)) : Geo α β → Nat → Option Bool → Option Bool × Bool := fun _ i st =>
  match answers[i]? with
  | some (some true) => (some true, false)
  | some (some false) => (st, true)
  | _ => (none, false)

mutual
/-- `tg_geom_intersects` and `base_geom_intersects_geom`, tg.c:5688-5732; the first argument is `other`. -/
def geoX [Zero α] (other : Geo α β) : Geo α β → Option Bool
  | .null => some false
  | .empty => some false
  | .atom a => someGeo (atomX P a) other
  | .multi flag cs rect ix ixg =>
    if flag then some false
    else
      match geomSearch P.f Geo.rect ⟨cs, rect, ix, ixg⟩ rect (multiIter (geoXs other cs)) (some false) with
      | none => none
      | some r => r.1

/-- The answers for the children. -/
def geoXs [Zero α] (other : Geo α β) : List (Geo α β) → List (Option Bool)
  | [] => []
  | c :: cs => geoX other c :: geoXs other cs
end

/-- The loop over the children of `other` of `tg_geom_covers` and `tg_geom_contains` (`geom_covers_iter`, tg.c:5956-5972, `geom_contains_iter`,
tg.c:6187-6202): `t` says whether one of the children of the first geometry covers the geometry. -/
def coversLoopG (t : Geo α β → Option Bool) : List (Geo α β) → Bool → Option Bool
  | [], result => some result
  | o :: os, result =>
    if o.isEmpty then coversLoopG t os result
    else
      match t o with
      | none => none
      | some false => some false
      | some true => coversLoopG t os true

mutual
/-- `tg_geom_covers` and `base_geom_covers_geom`, tg.c:5974-6019, with `tab` the table for simple geometries; `tg_geom_contains` and
`base_geom_contains_geom`, tg.c:6204-6227, 6257-6274, are the same functions with another table. -/
def geoCov (tab : Atom α β → Atom α β → Option Bool) : Geo α β → Geo α β → Option Bool
  | .null, _ => some false
  | .empty, _ => some false
  | .atom a, other => everyGeo (tab a) other
  | .multi flag cs _ _ _, other => if flag then some false else coversLoopG (fun o => geoCovAny tab cs o) other.foreach false

/-- The inner loop over the children, `geom_covers_iter0`, tg.c:5898-5906, `geom_contains_iter0`, tg.c:6177-6185. -/
def geoCovAny (tab : Atom α β → Atom α β → Option Bool) : List (Geo α β) → Geo α β → Option Bool
  | [], _ => some false
  | c :: cs, o =>
    match geoCov tab c o with
    | none => none
    | some true => some true
    | some false => geoCovAny tab cs o
end

/-- `tg_geom_covers` -/
def geoCovers (a b : Geo α β) : Option Bool := geoCov (atomCovers P) a b

/-- `tg_geom_contains` -/
def geoContains (a b : Geo α β) : Option Bool := geoCov (atomContains P) a b

mutual
/-- `tg_geom_touches` and `base_geom_touches_geom`, tg.c:6454-6507. -/
def geoTouches [Zero α] (other : Geo α β) : Geo α β → Option Bool
  | .null => some false
  | .empty => some false
  | .atom a => atomTouchesGeo P a other
  | .multi flag cs _ _ _ => if flag then some false else geoTouchesLoop other cs false

/-- The loop over the children. -/
def geoTouchesLoop [Zero α] (other : Geo α β) : List (Geo α β) → Bool → Option Bool
  | [], touches => some touches
  | c :: cs, touches =>
    match geoTouches other c with
    | none => none
    | some true => geoTouchesLoop other cs true
    | some false =>
      match geoX P other c with
      | none => none
      | some true => some false
      | some false => geoTouchesLoop other cs touches
end

/-- `tg_geom_intersects(a, b)` -/
def geoIntersects [Zero α] (a b : Geo α β) : Option Bool := geoX P b a

/-- `tg_geom_within`, tg.c:15003-15005. -/
def geoWithin (a b : Geo α β) : Option Bool := geoContains P b a

/-- `tg_geom_equals`, tg.c:14976-14978. -/
def geoEquals (a b : Geo α β) : Option Bool := andM (geoWithin P a b) (geoContains P a b)

/-- `tg_geom_coveredby`, tg.c:14983-14985. -/
def geoCoveredBy (a b : Geo α β) : Option Bool := geoCovers P b a

/-- `tg_geom_disjoint`, tg.c:14991-14993. -/
def geoDisjoint [Zero α] (a b : Geo α β) : Option Bool := notM (geoIntersects P a b)

end Tg.S
