import Verif.Model.Series
/-! Lines against points and lines: tg.c:3379-3470. -/
namespace Tg.S

variable {α β : Type*} [LinearOrder α] [LinearOrder β]

/-- `tg_ring_empty`, tg.c:3090-3093 (the pointer is not NULL). -/
def ringEmpty (r : Ring α β) : Bool := (r.closed && decide (r.npoints < 3)) || decide (r.npoints < 2)

/-- `tg_segment_covers_point`, `point_on_segment`, tg.c:1167-1172, 1274-1276. -/
def segCoversPt (A : Arith α) (s : Seg α) (p : Pt α) : Bool := if !s.rect.coversPt p then false else collinear A s.a s.b p

/-- `tg_segment_covers_segment`, tg.c:1280-1283. -/
def segCoversSeg (A : Arith α) (a b : Seg α) : Bool := segCoversPt A a b.a && segCoversPt A a b.b

/-- `line_covers_point_iter`, tg.c:3397-3407. -/
def coversPtIter (A : Arith α) (p : Pt α) : Iter α Bool := fun s _ covers => if segCoversPt A s p then (true, false) else (covers, true)

/-- `tg_line_covers_point`, tg.c:3411-3418. -/
def lineCoversPt (f : Ix α β) (A : Arith α) (line : Ring α β) (p : Pt α) : Option Bool :=
  (ringSearch f line p.rect (coversPtIter A p) false).map (·.1)

/-- The first loop of `tg_line_covers_line`, tg.c:3470-3479: the first segment of the first line that covers the first segment of the second. -/
def firstCovering (A : Arith α) (a : Ring α β) (b0 : Seg α) : List Nat → Option (Option Nat)
  | [] => some none
  | k :: ks =>
    match segAt a.points k with
    | none => none
    | some s => if segCoversSeg A s b0 then some (some k) else firstCovering A a b0 ks

/-- The second loop of `tg_line_covers_line`, tg.c:3484-3503, with a bound on the number of iterations. `none`: not ended. -/
def coversLoop (A : Arith α) (a b : Ring α β) : Nat → Nat → Nat → Option Bool
  | 0, _, _ => none
  | fuel + 1, i, j =>
    if i < b.nsegs ∧ j < a.nsegs then
      match segAt a.points j, segAt b.points i with
      | some aseg, some bseg =>
        if segCoversSeg A aseg bseg then coversLoop A a b fuel (i + 1) j
        else if pteq bseg.a aseg.a then (if j = 0 then some false else coversLoop A a b fuel i (j - 1))
        else if pteq bseg.a aseg.b then coversLoop A a b fuel i (j + 1)
        else coversLoop A a b fuel (i + 1) j
      | _, _ => none
    else some true

/-- `tg_line_covers_line`, tg.c:3463-3504. -/
def lineCoversLine (A : Arith α) (fuel : Nat) (a b : Ring α β) : Option Bool :=
  if ringEmpty a || ringEmpty b then some false
  else if !a.rect.covers b.rect then some false
  else
    match segAt b.points 0 with
    | none => none
    | some b0 =>
      match firstCovering A a b0 (List.range a.nsegs) with
      | none => none
      | some none => some false
      | some (some j) => coversLoop A a b fuel 1 j

end Tg.S
