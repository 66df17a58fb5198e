import Mathlib.Algebra.Order.Field.Basic
import Verif.Model.Line
import Verif.Model.RingRing
/-!
A ring against segments, rings and lines: tg.c:2819-3250.

The answers are `none` if the code reads outside of an array. `Ring` has no flags for convex and clockwise (those are in `Model/Orient`); the
functions that look at them take them as parameters.
-/
namespace Tg.S

variable {α β : Type*} [LinearOrder α] [LinearOrder β]

/-- The arithmetic of this part: `rect_area` (tg.c:3137-3139) and the sign of the sum over a closed chain of four edges (tg.c:2948-2958). -/
structure RArith (α : Type*) where
  area : Rect α → α
  clockwise : List (Pt α) → Bool

/-- `struct intersegiterctx`, tg.c:3012-3019: `count`, `seg_a_on`, `seg_b_on`. -/
structure InterSt where
  count : Nat
  aOn : Bool
  bOn : Bool

/-- `intersegiter`, tg.c:3021-3062. -/
def interIter (A : Arith α) (seg : Seg α) (edge : Bool) : Iter α InterSt := fun t _ st =>
  if !segIntersects A seg t then (st, true)
  else if edge then ({ st with count := st.count + 1 }, decide (st.count + 1 < 2))
  else
    let ccol := collinear A seg.a seg.b t.a
    let dcol := collinear A seg.a seg.b t.b
    if ccol && dcol then ({ st with count := 0 }, true)
    else if !st.aOn && (pteq seg.a t.a || pteq seg.a t.b) then ({ st with aOn := true }, true)
    else if !st.bOn && (pteq seg.b t.a || pteq seg.b t.b) then ({ st with bOn := true }, true)
    else ({ st with count := st.count + 1 }, decide (st.count + 1 < 2))

/-- `tg_ring_intersects_segment`, tg.c:3064-3086. -/
def ringXSeg (f : Ix α β) (A : Arith α) (ring : Ring α β) (seg : Seg α) (edge : Bool) : Option Bool :=
  if !seg.rect.intersects ring.rect then some false
  else
    match ringContainsPoint f A ring seg.a edge with
    | none => none
    | some ra =>
      if ra.1 then some true
      else
        match ringContainsPoint f A ring seg.b edge with
        | none => none
        | some rb =>
          if rb.1 then some true
          else (ringSearch f ring seg.rect (interIter A seg edge) ⟨0, false, false⟩).map fun r => decide (r.1.count ≥ 2)

/-- A callback of `tg_ring_contains_segment` that stops with true at the first segment that meets `seg` and passes the test: tg.c:2824-2883. -/
def contIter (A : Arith α) (seg : Seg α) (test : Seg α → Bool) : Iter α Bool := fun t _ st =>
  if segIntersects A seg t && test t then (true, false) else (st, true)

/-- The search at the end of the cases of `tg_ring_contains_segment`. -/
def noneMeets (f : Ix α β) (A : Arith α) (ring : Ring α β) (seg : Seg α) (test : Seg α → Bool) : Option Bool :=
  (ringSearch f ring seg.rect (contIter A seg test) false).map fun r => !r.1

/-- Not `TG_ON`. -/
def offSeg (A : Arith α) (s : Seg α) (p : Pt α) : Bool := raycast A s p != .on

/-- `tg_ring_contains_segment` after both ends are known to be in the ring, with edges allowed and the ring not flagged convex, tg.c:2916-2999.
`ia` and `ib` are the numbers of the ring segments that the ends are on. -/
def containsEdge (f : Ix α β) (A : Arith α) (R : RArith α) (clockwise : Bool) (ring : Ring α β) (seg : Seg α) :
    Option Nat → Option Nat → Option Bool
  | some ia, some ib =>
    if ib = ia then some true
    else
      match segAt ring.points ia, segAt ring.points ib with
      | some sa, some sb =>
        if pteq sa.a seg.a || pteq sa.b seg.a || pteq sb.a seg.a || pteq sb.b seg.a ||
            pteq sa.a seg.b || pteq sa.b seg.b || pteq sb.a seg.b || pteq sb.b seg.b then some true
        else
          let (sa, sb) := if ib < ia then (sb, sa) else (sa, sb)
          if R.clockwise [sa.a, sa.b, sb.a, sb.b, sa.a] != clockwise then some false
          else noneMeets f A ring seg fun t => offSeg A t seg.a && offSeg A t seg.b
      | _, _ => none
  | some _, none => noneMeets f A ring seg fun t => offSeg A t seg.a
  | none, some _ => noneMeets f A ring seg fun t => offSeg A t seg.b
  | none, none => noneMeets f A ring seg fun t => offSeg A seg t.a && offSeg A seg t.b

/-- `tg_ring_contains_segment`, tg.c:2885-3010. -/
def ringHasSeg (f : Ix α β) (A : Arith α) (R : RArith α) (convex clockwise : Bool) (ring : Ring α β) (seg : Seg α) (edge : Bool) : Option Bool :=
  if !ring.rect.covers seg.rect then some false
  else
    match ringContainsPoint f A ring seg.a edge with
    | none => none
    | some ra =>
      if !ra.1 then some false
      else if pteq seg.b seg.a then some true
      else
        match ringContainsPoint f A ring seg.b edge with
        | none => none
        | some rb =>
          if !rb.1 then some false
          else if convex then some true
          else if edge then containsEdge f A R clockwise ring seg ra.2 rb.2
          else noneMeets f A ring seg fun _ => true

/-- A loop over the segments of a series that returns true at the first one with the answer true. -/
def anySeg (points : List (Pt α)) (P : Seg α → Option Bool) : List Nat → Option Bool
  | [] => some false
  | i :: is =>
    match segAt points i with
    | none => none
    | some s =>
      match P s with
      | none => none
      | some true => some true
      | some false => anySeg points P is

/-- A loop over the segments that returns false at the first one with the answer false. -/
def allSeg (points : List (Pt α)) (P : Seg α → Option Bool) : List Nat → Option Bool
  | [] => some true
  | i :: is =>
    match segAt points i with
    | none => none
    | some s =>
      match P s with
      | none => none
      | some false => some false
      | some true => allSeg points P is

/-- A loop over the points that returns false at the first one with the answer false. -/
def allPts (P : Pt α → Option Bool) : List (Pt α) → Option Bool
  | [] => some true
  | p :: ps =>
    match P p with
    | none => none
    | some false => some false
    | some true => allPts P ps

/-- `tg_ring_contains_ring`, tg.c:3095-3127. -/
def ringHasRing (f : Ix α β) (A : Arith α) (R : RArith α) (convex clockwise : Bool) (a b : Ring α β) (edge : Bool) : Option Bool :=
  if ringEmpty a || ringEmpty b then some false
  else if !a.rect.covers b.rect then some false
  else if convex then allPts (fun p => (ringContainsPoint f A a p edge).map (·.1)) (b.points.take b.npoints)
  else allSeg b.points (fun s => ringHasSeg f A R convex clockwise a s edge) (List.range b.nsegs)

/-- The loop of `tg_ring_intersects_ring` and `tg_ring_intersects_line`, tg.c:3158-3165, 3240-3247. -/
def anyXSeg (f : Ix α β) (A : Arith α) (ring other : Ring α β) (edge : Bool) : Option Bool :=
  anySeg other.points (fun s => ringXSeg f A ring s edge) (List.range other.nsegs)

/-- `tg_ring_intersects_ring`, tg.c:3141-3167. -/
def ringXRing (f : Ix α β) (A : Arith α) (R : RArith α) (a b : Ring α β) (edge : Bool) : Option Bool :=
  if ringEmpty a || ringEmpty b then some false
  else if !a.rect.intersects b.rect then some false
  else if R.area b.rect > R.area a.rect then anyXSeg f A b a edge
  else anyXSeg f A a b edge

/-- `tg_ring_contains_line`, tg.c:3169-3223. -/
def ringHasLine (f : Ix α β) (A : Arith α) (R : RArith α) (convex clockwise : Bool) (a b : Ring α β) (edge boundaries : Bool) : Option Bool :=
  if ringEmpty a || ringEmpty b then some false
  else if !a.rect.covers b.rect then some false
  else if !edge && boundaries then
    allSeg b.points (fun s =>
      match ringHasSeg f A R convex clockwise a s true with
      | none => none
      | some false => some false
      | some true => ringXSeg f A a s false) (List.range b.nsegs)
  else allSeg b.points (fun s => ringHasSeg f A R convex clockwise a s edge) (List.range b.nsegs)

/-- `tg_ring_intersects_line`, tg.c:3227-3248. -/
def ringXLine (f : Ix α β) (A : Arith α) (ring line : Ring α β) (edge : Bool) : Option Bool :=
  if ringEmpty ring || ringEmpty line then some false
  else if !ring.rect.intersects line.rect then some false
  else anyXSeg f A ring line edge

/-- Without rounding. -/
def exactR {K : Type*} [Field K] [LinearOrder K] : RArith K where
  area r := (r.hi.x - r.lo.x) * (r.hi.y - r.lo.y)
  clockwise l := decide (0 < ((l.zip (l.drop 1)).map fun ab => (ab.2.x - ab.1.x) * (ab.2.y + ab.1.y)).sum)

end Tg.S
