import Verif.Model.Query
import Verif.Lemmas.Box
import Mathlib.Tactic.IntervalCases
/-! A ring on the stack: the array ends with the last point, where the array of `series_new` has one more. -/
set_option linter.unusedSectionVars false
namespace Tg.S

section
variable {α β : Type*} [LinearOrder α] [LinearOrder β]

/-- Two rings without index that differ in points behind the last segment only. -/
structure Like (r s : Ring α β) : Prop where
  closed : r.closed = s.closed
  npoints : r.npoints = s.npoints
  nsegs : r.nsegs = s.nsegs
  rect : r.rect = s.rect
  index : r.index = none ∧ s.index = none
  stripes : r.ystripes = none ∧ s.ystripes = none
  seg : ∀ i < r.nsegs, segAt r.points i = segAt s.points i
  pts : r.points.take r.npoints = s.points.take s.npoints

variable {r s : Ring α β} (h : Like r s) {f : Ix α β} {A : Arith α}
include h

theorem Like.empty : ringEmpty r = ringEmpty s := by rw [ringEmpty, ringEmpty, h.closed, h.npoints]

theorem Like.search {σ : Type*} (q : Rect α) (iter : Iter α σ) (st : σ) : ringSearch f r q iter st = ringSearch f s q iter st := by
  rw [ringSearch, ringSearch, h.index.1, h.index.2]
  dsimp only
  rw [← h.nsegs]
  refine forRange_congr _ _ _ fun j _ hj st => ?_
  rw [searchLeaf, searchLeaf, h.seg j (by omega)]

theorem Like.contains (p : Pt α) (edge : Bool) : ringContainsPoint f A r p edge = ringContainsPoint f A s p edge := by
  rw [ringContainsPoint, ringContainsPoint, h.index.1, h.index.2, h.stripes.1, h.stripes.2, h.rect]
  dsimp only
  rw [← h.nsegs, forRange_congr (g := standardLeaf A s.points p edge)]
  intro j _ hj st
  rw [standardLeaf, standardLeaf, h.seg j (by omega)]

theorem Like.xSeg (t : Seg α) (edge : Bool) : ringXSeg f A r t edge = ringXSeg f A s t edge := by
  unfold ringXSeg
  rw [h.rect, h.contains, h.contains, h.search]

theorem Like.anySeg (P : Seg α → Option Bool) : S.anySeg r.points P (List.range r.nsegs) = S.anySeg s.points P (List.range s.nsegs) := by
  rw [← h.nsegs]
  have : ∀ l : List Nat, (∀ i ∈ l, i < r.nsegs) → S.anySeg r.points P l = S.anySeg s.points P l := by
    intro l
    induction l with
    | nil => intro; rfl
    | cons i l ih =>
      intro hl
      rw [S.anySeg, S.anySeg, h.seg i (hl i (by simp)), ih fun j hj => hl j (by simp [hj])]
  exact this _ fun i hi => List.mem_range.1 hi

theorem Like.allSeg (P : Seg α → Option Bool) : S.allSeg r.points P (List.range r.nsegs) = S.allSeg s.points P (List.range s.nsegs) := by
  rw [← h.nsegs]
  have : ∀ l : List Nat, (∀ i ∈ l, i < r.nsegs) → S.allSeg r.points P l = S.allSeg s.points P l := by
    intro l
    induction l with
    | nil => intro; rfl
    | cons i l ih =>
      intro hl
      rw [S.allSeg, S.allSeg, h.seg i (hl i (by simp)), ih fun j hj => hl j (by simp [hj])]
  exact this _ fun i hi => List.mem_range.1 hi

theorem Like.any_left (o : Ring α β) (edge : Bool) : anyXSeg f A r o edge = anyXSeg f A s o edge := by
  unfold anyXSeg
  congr 1
  funext t
  exact h.xSeg t edge

theorem Like.any_right (o : Ring α β) (edge : Bool) : anyXSeg f A o r edge = anyXSeg f A o s edge := h.anySeg _

theorem Like.xRing_left (R : RArith α) (o : Ring α β) (edge : Bool) : ringXRing f A R r o edge = ringXRing f A R s o edge := by
  rw [ringXRing, ringXRing, h.empty, h.rect, h.any_left, h.any_right]

theorem Like.xRing_right (R : RArith α) (o : Ring α β) (edge : Bool) : ringXRing f A R o r edge = ringXRing f A R o s edge := by
  rw [ringXRing, ringXRing, h.empty, h.rect, h.any_left, h.any_right]

theorem Like.atomX (P : Par α β) (c d c' d' : Bool) (a : Atom α β) : S.atomX P a (.poly (.ring ⟨r, c, d⟩)) = S.atomX P a (.poly (.ring ⟨s, c', d'⟩)) := by
  cases a with
  | point p => rw [S.atomX, S.atomX, polyHasPt, polyHasPt, hit, hit, h.contains]
  | line l => rw [S.atomX, S.atomX, polyXLine, polyXLine, ringXLine, ringXLine, h.empty, h.rect, h.any_left]
  | poly q =>
    have key : ∀ x : FRing α β, hasRing P x ⟨r, c, d⟩ false = hasRing P x ⟨s, c', d'⟩ false := fun x => by
      unfold hasRing ringHasRing
      rw [h.empty, h.rect, h.allSeg, h.pts]
    rw [S.atomX, S.atomX]
    cases q with
    | ring x => exact h.xRing_right _ _ _
    | poly e hs =>
      unfold polyXPoly
      simp only [polyEmpty, PolyS.ext, PolyS.holes, h.empty, h.xRing_left, key, anyOf]

end

mutual
theorem geoX_other {α β : Type*} [LinearOrder α] [LinearOrder β] [Zero α] (P : Par α β) {x y : Atom α β} (h : ∀ a, atomX P a x = atomX P a y) :
    ∀ g : Geo α β, geoX P (.atom x) g = geoX P (.atom y) g
  | .null => rfl
  | .empty => rfl
  | .atom a => by rw [geoX, geoX, someGeo, someGeo]; exact h a
  | .multi flag cs rect ix ixg => by rw [geoX, geoX, geoXs_other P h cs]

theorem geoXs_other {α β : Type*} [LinearOrder α] [LinearOrder β] [Zero α] (P : Par α β) {x y : Atom α β} (h : ∀ a, atomX P a x = atomX P a y) :
    ∀ gs : List (Geo α β), geoXs P (.atom x) gs = geoXs P (.atom y) gs
  | [] => rfl
  | g :: gs => by rw [geoXs, geoXs, geoX_other P h g, geoXs_other P h gs]
end

/-! ### The rectangle -/

section
variable {K β : Type*} [Field K] [LinearOrder K] [IsStrictOrderedRing K] [FloorRing K] [LinearOrder β]

/-- The corners of a rectangle, as given to the constructor of rings. -/
def Rect.series (r : Rect K) : Series K := ⟨Env.initial, 0#32, boxPts r.lo.x r.lo.y r.hi.x r.hi.y⟩

theorem rect_region {r : Rect K} (hx : r.lo.x ≤ r.hi.x) (hy : r.lo.y ≤ r.hi.y) (w : Pt K) : InRegion r.series.segs w ↔ r.Has w := by
  unfold Series.segs Rect.series
  dsimp only
  constructor
  · rw [box_segments]
    refine region_rect rfl ?_
    simp only [boxPts, List.mem_cons, List.not_mem_nil, or_false]
    rintro v (rfl | rfl | rfl | rfl | rfl) <;> simp [Rect.Has, hx, hy]
  · rintro ⟨h1, h2, h3, h4⟩
    rcases hx.eq_or_lt with ex | lx
    · refine .inl ?_
      rw [box_segments]
      refine ⟨⟨⟨r.hi.x, r.lo.y⟩, ⟨r.hi.x, r.hi.y⟩⟩, by simp [boxPts, edges], onSeg_of ⟨?_, ?_, ?_, ?_⟩ ?_⟩ <;> simp only [Seg.rect, min_self, max_self]
      · exact ex ▸ h1
      · exact h2
      · rwa [min_eq_left hy]
      · rwa [max_eq_right hy]
      · rw [show w.x = r.hi.x from le_antisymm h2 (ex ▸ h1)]; ring
    · rcases hy.eq_or_lt with ey | ly
      · refine .inl ?_
        rw [box_segments]
        refine ⟨⟨⟨r.lo.x, r.lo.y⟩, ⟨r.hi.x, r.lo.y⟩⟩, by simp [boxPts, edges], onSeg_of ⟨?_, ?_, ?_, ?_⟩ ?_⟩ <;> simp only [Seg.rect, min_self, max_self]
        · rwa [min_eq_left hx]
        · rwa [max_eq_right hx]
        · exact h3
        · exact ey ▸ h4
        · rw [show w.y = r.lo.y from le_antisymm (ey ▸ h4) h3]; ring
      · rw [InRegion, box_boundary lx ly, box_inside lx ly]
        rcases h1.eq_or_lt with e | l1
        · exact .inl ⟨⟨h1, h2, h3, h4⟩, .inl e.symm⟩
        rcases h2.eq_or_lt with e | l2
        · exact .inl ⟨⟨h1, h2, h3, h4⟩, .inr (.inl e)⟩
        rcases h3.eq_or_lt with e | l3
        · exact .inl ⟨⟨h1, h2, h3, h4⟩, .inr (.inr (.inl e.symm))⟩
        rcases h4.eq_or_lt with e | l4
        · exact .inl ⟨⟨h1, h2, h3, h4⟩, .inr (.inr (.inr e))⟩
        exact .inr ⟨l1, l2, l3, l4⟩

/-- The ring that the constructor makes of the corners. -/
theorem rect_made {r : Rect K} (hx : r.lo.x ≤ r.hi.x) (hy : r.lo.y ≤ r.hi.y) (f : Ix K β) (A : Arith K) :
    ∃ s : Ring K β, newIx f A r.series.e r.series.pts true r.series.ix = some s ∧ Like (rectToRing r) s := by
  refine ⟨⟨true, 5, 4, r, [r.lo, ⟨r.hi.x, r.lo.y⟩, r.hi, ⟨r.lo.x, r.hi.y⟩, r.lo, r.lo], none, none⟩, ?_, ⟨rfl, rfl, rfl, rfl, ⟨rfl, rfl⟩, ⟨rfl, rfl⟩, ?_, rfl⟩⟩
  · simp [newIx, Rect.series, extractSpread, Env.initial, seriesNew, boxPts, numSegments, indexKinds, seriesBase, processPlain]
    refine ⟨by simp [pteq, feq_iff], ?_⟩
    simp [Rect.inflatePt, Pt.rect, hx, hy]
  · intro i hi
    have hi : i < 4 := hi
    interval_cases i <;> rfl

end

end Tg.S
