import Verif.Lemmas.RectRel
import Verif.Props.Query
import Verif.Lemmas.Touch
import Verif.Props.General
/-!
C78: the functions on rectangles. The relations of rectangles with lines and polygons go through a ring on the stack (`rect_to_ring`), or through the
rectangles of the lines and polygons.
-/
set_option linter.unusedSectionVars false
namespace Tg

open S Spec.Double

/-! ### Points, segments, search -/

section
variable {α : Type*} [LinearOrder α] [Zero α]

/-- C78. `tg_rect_point_at` and `tg_rect_segment_at` give the closed chain of the corners and its four segments, and zeros for any other index. -/
theorem C78_chain (r : Rect α) : let pts := boxPts r.lo.x r.lo.y r.hi.x r.hi.y
    (∀ i : Nat, i < 5 → pts[i]? = some (rectPointAt r i)) ∧ (∀ i : Nat, i < 4 → (edges pts)[i]? = some (rectSegAt r i)) ∧
      (∀ i : Int, i < 0 ∨ 4 < i → rectPointAt r i = ⟨0, 0⟩) ∧ ∀ i : Int, i < 0 ∨ 3 < i → rectSegAt r i = ⟨⟨0, 0⟩, ⟨0, 0⟩⟩ := by
  refine ⟨?_, ?_, ?_, ?_⟩
  · intro i hi
    interval_cases i <;> simp [boxPts, rectPointAt]
  · intro i hi
    interval_cases i <;> simp [boxPts, edges, rectSegAt]
  · intro i hi
    rw [rectPointAt, if_neg (by omega), if_neg (by omega), if_neg (by omega), if_neg (by omega), if_neg (by omega)]
  · intro i hi
    rw [rectSegAt, if_neg (by omega), if_neg (by omega), if_neg (by omega), if_neg (by omega)]

/-- C78. `tg_rect_search` calls the function for exactly the sides whose boxes meet the target, in order, with their indexes, until it returns false. -/
theorem C78_search {σ : Type*} (r target : Rect α) (ht : target.Valid) [DecidablePred fun x : Seg α × Nat => Meets target x.1] (iter : Iter α σ) (st : σ) :
    rectSearch r target iter st = visit (fun x : Seg α × Nat => iter x.1 x.2)
      ((edges (boxPts r.lo.x r.lo.y r.hi.x r.hi.y)).zipIdx.filter fun x => Meets target x.1) st := by
  rw [rectSearch, rectSearchFrom_visit]
  congr 1
  have : (List.range 4).map (fun i : Nat => (rectSegAt r i, i)) = (edges (boxPts r.lo.x r.lo.y r.hi.x r.hi.y)).zipIdx := by
    simp [List.range_succ, boxPts, edges, rectSegAt]
  rw [this]
  refine List.filter_congr fun x _ => ?_
  rw [Bool.eq_iff_iff, decide_eq_true_iff, intersects_comm, intersects_iff_meets ht]

/-- C78. `tg_point_covers_rect`: the rectangle has no other point. -/
theorem C78_point_covers (p : Pt α) (r : Rect α) (hr : r.Valid) : ptCoversRect p r = true ↔ ∀ w, r.Has w → w = p := by
  rw [ptCoversRect, Bool.and_eq_true, pteq_iff, pteq_iff]
  constructor
  · rintro ⟨h1, h2⟩ w ⟨w1, w2, w3, w4⟩
    rw [h1] at w1 w3
    rw [h2] at w2 w4
    exact Pt.ext (le_antisymm w2 w1) (le_antisymm w4 w3)
  · exact fun h => ⟨h _ ⟨le_rfl, hr.1, le_rfl, hr.2⟩, h _ ⟨hr.1, le_rfl, hr.2, le_rfl⟩⟩

end

/-! ### A rectangle covers a line or polygon -/

section
variable {α β : Type*} [LinearOrder α] [LinearOrder β] [Zero α] {f : Ix α β} (hf : f.Lawful) {A : Arith α}
include hf

/-- C78. `tg_rect_covers_line`: the line has two points, and all its points are in the rectangle. For any coordinates, with any index. -/
theorem C78_covers_line {e : Env} (he : e.Ok) {pts : List (Pt α)} {ix : BitVec 32} {l : Ring α β} (hl : newIx f A e pts false ix = some l) (r : Rect α) :
    rectCoversLine r l = true ↔ 2 ≤ pts.length ∧ ∀ q ∈ pts, r.Has q := by
  obtain ⟨h, -⟩ := newIx_some hf he hl
  have hemp : ringEmpty l = decide (pts.length < 2) := by rw [ringEmpty, h.closed_eq, h.npoints_eq]; simp
  rw [rectCoversLine, hemp, Bool.and_eq_true, Bool.not_eq_true', decide_eq_false_iff_not, not_lt, covers_iff]
  refine and_congr_right fun h2 => ⟨fun hc q hq => (h.rect_has h2 q hq).mono hc, fun hc => h.rect_least h2 r hc⟩

/-- C78. `tg_rect_covers_poly` the same with the points of the exterior ring, of which there are at least three. -/
theorem C78_covers_ring {e : Env} (he : e.Ok) {pts : List (Pt α)} {ix : BitVec 32} {l : Ring α β} (hl : newIx f A e pts true ix = some l) (q : PolyS α β)
    (hq : q.ext.ring = l) (r : Rect α) : rectCoversPoly r q = true ↔ 3 ≤ pts.length ∧ ∀ v ∈ pts, r.Has v := by
  obtain ⟨h, -⟩ := newIx_some hf he hl
  have hemp : ringEmpty l = decide (pts.length < 3) := by
    rw [ringEmpty, h.closed_eq, h.npoints_eq]
    simp
    omega
  rw [rectCoversPoly, polyEmpty, polyRect, hq, hemp]
  rw [Bool.and_eq_true, Bool.not_eq_true', decide_eq_false_iff_not, not_lt, covers_iff]
  refine and_congr_right fun h3 => ⟨fun hc v hv => (h.rect_has (by omega) v hv).mono hc, fun hc => h.rect_least (by omega) r hc⟩

end

section
variable {K : Type*} [Field K] [LinearOrder K] [IsStrictOrderedRing K] [FloorRing K] {ε : K} (ns : List (Pt K) → Nat)

/-- C78. As sets of points: a rectangle covers a line if and only if the line is not empty and is a subset. -/
theorem C78_covers_line_set {β : Type*} [LinearOrder β] {f : Ix K β} (hf : f.Lawful) {A : Arith K} {e : Env} (he : e.Ok) {pts : List (Pt K)} {ix : BitVec 32}
    {l : Ring K β} (hl : newIx f A e pts false ix = some l) (r : Rect K) :
    rectCoversLine r l = true ↔ (∃ w, OnBoundary (edges pts) w) ∧ ∀ w, OnBoundary (edges pts) w → r.Has w := by
  rw [C78_covers_line hf he hl]
  constructor
  · rintro ⟨h2, h⟩
    obtain ⟨v, -, hv⟩ := line_has h2
    refine ⟨⟨v, hv⟩, ?_⟩
    rintro w ⟨s, hs, hon⟩
    obtain ⟨e1, e2⟩ := edge_ends hs
    exact has_between (h _ e1) (h _ e2) hon
  · rintro ⟨⟨w, hw⟩, h⟩
    have h2 : 2 ≤ pts.length := by
      by_contra hn
      exact short_line (by omega) w hw
    exact ⟨h2, fun q hq => h q (edges_segments pts ▸ seg_of_pts h2 (by simp) q hq)⟩

/-- C78. A rectangle covers a polygon if and only if the polygon is not empty and is a subset. -/
theorem C78_covers_poly_set {ext : Series K} {holes : List (Series K)} (hok : PolyOk ext holes) {q : PolyS K K} (hq : PolyIs ε ns ext holes q) (r : Rect K) :
    rectCoversPoly r q = true ↔ (∃ w, AShape.Has (.poly ext holes) w) ∧ ∀ w, AShape.Has (.poly ext holes) w → r.Has w := by
  rw [C78_covers_ring Ix.exact_lawful hq.ext.ok hq.ext.made q rfl]
  constructor
  · rintro ⟨h3, h⟩
    obtain ⟨v, hv⟩ : ∃ v, v ∈ ext.pts := List.exists_mem_of_length_pos (by omega)
    refine ⟨⟨v, hok.boundary ext (by simp) v (seg_of_pts (by omega) (fun _ => h3) v hv)⟩, ?_⟩
    rintro w ⟨hw, -⟩
    obtain ⟨l, hl, hcl, hl3, hmem⟩ := ring_chain h3
    rw [Series.segs, hl] at hw
    exact region_rect hcl (fun v hv => h v ((hmem v).1 hv)) hw
  · rintro ⟨⟨w, hw⟩, h⟩
    have h3 : 3 ≤ ext.pts.length := by
      by_contra hn
      exact not_region_short (by omega) w hw.1
    exact ⟨h3, fun v hv => h v (hok.boundary ext (by simp) v (seg_of_pts (by omega) (fun _ => h3) v hv))⟩

/-! ### A segment or line covers a rectangle -/

/-- C78. `tg_segment_covers_rect` of a flat rectangle: the rectangle is a subset of the segment. -/
theorem C78_segment_covers (s : Seg K) {r : Rect K} (hx : r.lo.x ≤ r.hi.x) (hy : r.lo.y ≤ r.hi.y) (hf : r.lo.x = r.hi.x ∨ r.lo.y = r.hi.y) :
    segCoversRect (exact ε ns) s r = true ↔ ∀ w, r.Has w → OnSeg s w := by
  rw [segCoversRect, Bool.and_eq_true, segCoversPt_iff, segCoversPt_iff]
  constructor
  · rintro ⟨h1, h2⟩ w hw
    exact onSeg_mono (t := ⟨r.lo, r.hi⟩) h1 h2 ((flat_rect hx hy hf w).1 hw)
  · exact fun h => ⟨h _ ⟨le_rfl, hx, le_rfl, hy⟩, h _ ⟨hx, le_rfl, hy, le_rfl⟩⟩

/-- The answer is wrong for all other rectangles: the function says that the diagonal covers the rectangle. -/
theorem C78_diagonal_wrong {r : Rect K} (hx : r.lo.x < r.hi.x) (hy : r.lo.y < r.hi.y) :
    segCoversRect (exact ε ns) ⟨r.lo, r.hi⟩ r = true ∧ ∃ w, r.Has w ∧ ¬ OnSeg ⟨r.lo, r.hi⟩ w := by
  refine ⟨?_, ?_⟩
  · rw [segCoversRect, Bool.and_eq_true, segCoversPt_iff, segCoversPt_iff]
    exact ⟨onSeg_left (⟨r.lo, r.hi⟩ : Seg K), onSeg_right (⟨r.lo, r.hi⟩ : Seg K)⟩
  · obtain ⟨w, h1, h2⟩ := not_cover_rect [⟨r.lo, r.hi⟩] hx hy
    exact ⟨w, h1, fun h => h2 ⟨_, by simp, h⟩⟩

/-- C78. `tg_line_covers_rect` of a rectangle with width and height answers false, and that is right: some point of the rectangle is not on the line. -/
theorem C78_line_covers_proper (P : Par K K) (l : Ring K K) (pts : List (Pt K)) {r : Rect K} (hx : r.lo.x < r.hi.x) (hy : r.lo.y < r.hi.y) :
    lineCoversRect P l r = some false ∧ ∃ w, r.Has w ∧ ¬ OnBoundary (edges pts) w := by
  refine ⟨?_, not_cover_rect _ hx hy⟩
  rw [lineCoversRect, lineCoversPoly]
  by_cases he : (ringEmpty l || polyEmpty (PolyS.poly (rectFRing r : FRing K K) [])) = true
  · rw [if_pos he]
  · rw [if_neg he, if_pos]
    have h1 : feq r.lo.x r.hi.x = false := by rw [Bool.eq_false_iff, Ne, feq_iff]; exact hx.ne
    have h2 : feq r.lo.y r.hi.y = false := by rw [Bool.eq_false_iff, Ne, feq_iff]; exact hy.ne
    show (!feq r.lo.x r.hi.x && !feq r.lo.y r.hi.y) = true
    rw [h1, h2]
    rfl

/-- C78. `tg_line_covers_rect` of a rectangle without height: the function ends, and answers whether one segment of the line covers the rectangle. -/
theorem C78_line_covers_flat {e : Env} (he : e.Ok) {pts : List (Pt K)} {ix : BitVec 32} {l : Ring K K}
    (hl : newIx Ix.exact (exact ε ns) e pts false ix = some l) {r : Rect K} (hx : r.lo.x ≤ r.hi.x) (hy : r.lo.y = r.hi.y) {fuel : Nat} (hfuel : 4 ≤ fuel) :
    ∃ v, lineCoversRect ⟨Ix.exact, exact ε ns, exactR, fuel⟩ l r = some v ∧ (v = true ↔ ∃ s ∈ edges pts, ∀ w, r.Has w → OnSeg s w) := by
  obtain ⟨m1, m2⟩ := line_nsegs he hl
  obtain ⟨ok, -⟩ := newIx_some Ix.exact_lawful he hl
  rw [lineCoversRect, lineCoversPoly]
  have hpe : polyEmpty (PolyS.poly (rectFRing r : FRing K K) []) = false := rfl
  rw [hpe, Bool.or_false]
  by_cases h2 : pts.length < 2
  · rw [if_pos (m2.2 h2)]
    refine ⟨false, rfl, iff_of_false (by simp) ?_⟩
    rintro ⟨s, hs, -⟩
    exact short_line h2 s.a ⟨s, hs, onSeg_left s⟩
  have hne : ¬ ringEmpty l = true := fun h => h2 (m2.1 h)
  have hfl : feq r.lo.y r.hi.y = true := (feq_iff _ _).2 hy
  have hnd : ¬ (!feq (polyRect (PolyS.poly (rectFRing r : FRing K K) [])).lo.x (polyRect (PolyS.poly (rectFRing r : FRing K K) [])).hi.x &&
      !feq (polyRect (PolyS.poly (rectFRing r : FRing K K) [])).lo.y (polyRect (PolyS.poly (rectFRing r : FRing K K) [])).hi.y) = true := by
    show ¬ (!feq r.lo.x r.hi.x && !feq r.lo.y r.hi.y) = true
    rw [hfl]
    simp
  rw [if_neg hne, if_neg hnd]
  show ∃ v, lineCoversLine (exact ε ns) fuel l (rectToRing r) = some v ∧ _
  rw [lineCoversLine]
  have hne' : ringEmpty l = false := Bool.eq_false_iff.2 hne
  rw [hne', show ringEmpty (rectToRing r : Ring K K) = false from rfl, if_neg (by simp)]
  have key : ∀ s : Seg K, (∀ w, r.Has w → OnSeg s w) ↔ OnSeg s r.lo ∧ OnSeg s r.hi := fun s => by
    constructor
    · exact fun h => ⟨h _ ⟨le_rfl, hx, le_rfl, hy.le⟩, h _ ⟨hx, le_rfl, hy.le, le_rfl⟩⟩
    · rintro ⟨g1, g2⟩ w hw
      exact onSeg_mono (t := ⟨r.lo, r.hi⟩) g1 g2 ((flat_rect hx hy.le (.inr hy) w).1 hw)
  have c2 : (⟨r.hi.x, r.lo.y⟩ : Pt K) = r.hi := Pt.ext rfl hy
  have c4 : (⟨r.lo.x, r.hi.y⟩ : Pt K) = r.lo := Pt.ext rfl hy.symm
  by_cases hc : (!l.rect.covers (rectToRing r : Ring K K).rect) = true
  · rw [if_pos hc]
    refine ⟨false, rfl, iff_of_false (by simp) ?_⟩
    rintro ⟨s, hs, h⟩
    obtain ⟨e1, e2⟩ := edge_ends hs
    rw [Bool.not_eq_true', ← Bool.not_eq_true, show (rectToRing r : Ring K K).rect = r from rfl, C20_covers _ _ ⟨hx, hy.le⟩] at hc
    exact hc fun w hw => has_between (ok.rect_has (by omega) _ e1) (ok.rect_has (by omega) _ e2) (h w hw)
  rw [if_neg hc, show segAt (rectToRing r : Ring K K).points 0 = some ⟨r.lo, ⟨r.hi.x, r.lo.y⟩⟩ from rfl, c2]
  dsimp only
  obtain ⟨o, ho⟩ := firstCovering_some (A := exact ε ns) (a := l) (b0 := ⟨r.lo, r.hi⟩) (ks := List.range l.nsegs) fun k hk => by
    obtain ⟨s, hs, -⟩ := line_segAt he hl (i := k) (by simpa using hk)
    exact ⟨s, hs⟩
  rw [ho]
  cases o with
  | none =>
    refine ⟨false, rfl, iff_of_false (by simp) ?_⟩
    rintro ⟨s, hs, h⟩
    obtain ⟨i, hi⟩ := List.getElem?_of_mem hs
    have hin : i < l.nsegs := by
      have := (List.getElem?_eq_some_iff.1 hi).1
      rw [edges_length] at this
      omega
    obtain ⟨s', k1, k2⟩ := line_segAt he hl hin
    have es : s' = s := Option.some.inj (k2.symm.trans hi)
    subst es
    have := firstCovering_none ho i (by simpa using hin) s' k1
    rw [(segCoversSeg_iff s' ⟨r.lo, r.hi⟩).2 fun w hw => h w ((flat_rect hx hy.le (.inr hy) w).2 hw)] at this
    cases this
  | some j =>
    obtain ⟨j1, s, j2, j3⟩ := firstCovering_spec ho
    have hj : j < l.nsegs := by simpa using j1
    obtain ⟨s', k1, k2⟩ := line_segAt he hl (i := j) hj
    have es : s' = s := Option.some.inj (k1.symm.trans j2)
    subst es
    have h12 := (key s').1 fun w hw => (segCoversSeg_iff _ _).1 j3 w ((flat_rect hx hy.le (.inr hy) w).1 hw)
    refine ⟨true, ?_, iff_of_true rfl ⟨s', List.mem_of_getElem? k2, (key s').2 h12⟩⟩
    refine coversLoop_all j2 hj 3 1 rfl ?_ fuel (by omega)
    intro k hk hk4
    have hk4 : k < 4 := hk4
    have cov : ∀ t : Seg K, OnSeg s' t.a → OnSeg s' t.b → segCoversSeg (exact ε ns) s' t = true := fun t g1 g2 => by
      rw [segCoversSeg, Bool.and_eq_true, segCoversPt_iff, segCoversPt_iff]
      exact ⟨g1, g2⟩
    interval_cases k
    · exact ⟨_, rfl, cov _ (by show OnSeg s' ⟨r.hi.x, r.lo.y⟩; rw [c2]; exact h12.2) h12.2⟩
    · exact ⟨_, rfl, cov _ h12.2 (by show OnSeg s' ⟨r.lo.x, r.hi.y⟩; rw [c4]; exact h12.1)⟩
    · exact ⟨_, rfl, cov _ (by show OnSeg s' ⟨r.lo.x, r.hi.y⟩; rw [c4]; exact h12.1) h12.1⟩

/-! ### Rectangles and rings: intersects, covers -/

/-- C78. `tg_rect_intersects_line` and `tg_line_intersects_rect`: with exact arithmetic they answer whether the line has a point in the rectangle, which
may be a segment or a point. -/
theorem C78_intersects_line (s : Series K) {r : Rect K} (hx : r.lo.x ≤ r.hi.x) (hy : r.lo.y ≤ r.hi.y) :
    ∃ ε₀ > 0, ∀ ε, 0 < ε → ε ≤ ε₀ → ∀ (fuel : Nat) (l : Ring K K), s.e.Ok → newIx Ix.exact (exact ε ns) s.e s.pts false s.ix = some l →
      ∃ v, rectXLine ⟨Ix.exact, exact ε ns, exactR, fuel⟩ r l = some v ∧ (v = true ↔ ∃ w, OnBoundary (edges s.pts) w ∧ r.Has w) := by
  obtain ⟨e, e0, he⟩ := C72_intersects_rect ns (H := ⟨fun r => r.lo, fun _ _ _ => none⟩) insertionQsort_ok (.atom (.line s)) r hx hy (by simp [Shape.atoms, AShape.Ok])
    (by simp [Shape.rings, Shape.atoms, AShape.rings])
  refine ⟨e, e0, fun ε hε hle fuel l hs hl => ?_⟩
  obtain ⟨v, v1, v2⟩ := he ε hε hle fuel (.atom (.line l)) ⟨hs, hl⟩
  exact ⟨v, v1, v2⟩

/-- C78. `tg_poly_intersects_rect` and `tg_rect_intersects_poly`: whether the polygon has a point in the rectangle. -/
theorem C78_intersects_poly {ext : Series K} {holes : List (Series K)} (hok : PolyOk ext holes) {r : Rect K}
    (hx : r.lo.x ≤ r.hi.x) (hy : r.lo.y ≤ r.hi.y) (fit : ∀ s ∈ ext :: holes, Fit ns s r.corners) :
    ∃ ε₀ > 0, ∀ ε, 0 < ε → ε ≤ ε₀ → ∀ (fuel : Nat) (q : PolyS K K), PolyIs ε ns ext holes q →
      ∃ v, polyXRect ⟨Ix.exact, exact ε ns, exactR, fuel⟩ q r = some v ∧ (v = true ↔ ∃ w, AShape.Has (.poly ext holes) w ∧ r.Has w) := by
  obtain ⟨e, e0, he⟩ := C72_intersects_rect ns (H := ⟨fun r => r.lo, fun _ _ _ => none⟩) insertionQsort_ok (.atom (.poly ext holes)) r hx hy (by simpa [Shape.atoms, AShape.Ok] using hok)
    (by simpa [Shape.rings, Shape.atoms, AShape.rings] using fit)
  refine ⟨e, e0, fun ε hε hle fuel q hq => ?_⟩
  obtain ⟨v, v1, v2⟩ := he ε hε hle fuel (.atom (.poly q)) hq
  exact ⟨v, v1, v2⟩

/-- C78. `tg_poly_covers_rect`, for a polygon and a rectangle in general position (no vertex of one is on a segment of the other): whether all points of
the rectangle are in the interior of the polygon. -/
theorem C78_poly_covers {ext : Series K} {holes : List (Series K)} (firm : AShape.Firm (.poly ext holes)) {r : Rect K}
    (hx : r.lo.x ≤ r.hi.x) (hy : r.lo.y ≤ r.hi.y) (gen : AShape.General (.poly ext holes) (.poly r.series []))
    (fit : ∀ s ∈ ext :: holes, Fit ns s r.corners) :
    ∃ ε₀ > 0, ∀ ε, 0 < ε → ε ≤ ε₀ → ∀ (fuel : Nat) (q : PolyS K K), PolyIs ε ns ext holes q →
      ∃ v, polyCoversRect ⟨Ix.exact, exact ε ns, exactR, fuel⟩ q r = some v ∧ (v = true ↔ ∀ w, r.Has w → AShape.Inner (.poly ext holes) w) := by
  have corner : ∀ p ∈ (Shape.atom (.poly r.series [])).nodes, p ∈ r.corners := by
    intro p hp
    simp only [Shape.nodes, Shape.atoms, AShape.nodes, Rect.series, boxPts, List.flatMap_cons, List.flatMap_nil, List.append_nil, List.mem_cons,
      List.not_mem_nil, or_false] at hp
    simp only [Rect.corners, List.mem_cons, List.not_mem_nil, or_false]
    tauto
  obtain ⟨o1, o2⟩ := rect_shape ns r (AShape.nodes (.poly ext holes))
  obtain ⟨e, e0, he⟩ := C62_covers ns ⟨fun r => r.lo, fun _ _ _ => none⟩ insertionQsort (.poly ext holes) (.atom (.poly r.series [])) firm o1
    (by intro x hx y hy
        simp only [Shape.atoms, List.mem_singleton] at hx hy
        subst hx hy
        exact gen)
    (fun s hs => (fit s hs).mono corner) o2
  refine ⟨e, e0, fun ε hε hle fuel q hq => ?_⟩
  obtain ⟨s, s1, s2⟩ := rect_made hx hy Ix.exact (exact ε ns)
  obtain ⟨o, ho, -⟩ := orient_ok (pts := r.series.pts) (by simp [Rect.series, boxPts])
  obtain ⟨v, v1, -, v2⟩ := he ε hε hle fuel (.poly q) (.atom (.poly (.ring ⟨s, o.convex, o.clockwise⟩))) hq
    ⟨rfl, show 2 ≤ (16 : Int) ∧ (16 : Int) ≤ 4096 by decide, s1, by rw [ringConvex, ho]; rfl, by rw [ringClockwise, ho]; rfl⟩
  have has : ∀ w, (Shape.atom (.poly r.series [])).Has w ↔ r.Has w := fun w => by
    show InRegion _ _ ∧ _ ↔ _
    rw [rect_region hx hy]
    simp
  refine ⟨v, ?_, ?_⟩
  · rw [← v1, polyCoversRect, rectFRing, s2.covers _ _ _ o.convex o.clockwise]
    rfl
  · rw [v2]
    constructor
    · exact fun h w hw => h.2 w ((has w).2 hw)
    · exact fun h => ⟨⟨r.lo, (has _).2 ⟨le_rfl, hx, le_rfl, hy⟩⟩, fun w hw => h w ((has w).1 hw)⟩

end

/-! ### Wrong answers, and that the hypotheses are met -/

/-- The line `pts` and the rectangle. -/
def S.lineRectQ (pts : List (Pt ℚ)) (r : Rect ℚ) : Option Bool :=
  (newIx Ix.exact arithQ Env.initial pts false 0#32).bind fun l => lineCoversRect parQ l r

/-- `tg_line_covers_rect` is wrong for a rectangle without width: its first side is one point, and where this is inside a segment of the line the rest
of the rectangle is not looked at. The function gives the right answer for the same case with the axes exchanged. -/
theorem C78_vertical_wrong : lineRectQ [⟨0, 0⟩, ⟨10, 0⟩, ⟨10, 10⟩] ⟨⟨5, 0⟩, ⟨5, 3⟩⟩ = some true ∧
    (∀ s ∈ edges ([⟨0, 0⟩, ⟨10, 0⟩, ⟨10, 10⟩] : List (Pt ℚ)), ¬ OnSeg s ⟨5, 3⟩) ∧
    lineRectQ [⟨0, 0⟩, ⟨0, 10⟩, ⟨10, 10⟩] ⟨⟨0, 5⟩, ⟨3, 5⟩⟩ = some false := by
  refine ⟨by decide +kernel, ?_, by decide +kernel⟩
  intro s hs
  rw [← C37_on, Bool.not_eq_true]
  revert s
  decide +kernel

/-- A line covers a part of one of its horizontal segments; a polygon covers a rectangle beside its hole, and not one with the hole. -/
example : lineRectQ [⟨0, 0⟩, ⟨10, 0⟩, ⟨10, 10⟩] ⟨⟨2, 0⟩, ⟨5, 0⟩⟩ = some true ∧
    ((holedQ (boxQ 0 0 10 10) (boxQ 4 4 6 6)).bind fun g => match g with | .atom (.poly q) => polyCoversRect parQ q ⟨⟨1, 1⟩, ⟨3, 9⟩⟩ | _ => none) =
      some true ∧
    ((holedQ (boxQ 0 0 10 10) (boxQ 4 4 6 6)).bind fun g => match g with | .atom (.poly q) => polyCoversRect parQ q ⟨⟨1, 1⟩, ⟨8, 9⟩⟩ | _ => none) =
      some false := by
  refine ⟨?_, ?_, ?_⟩ <;> decide +kernel

/-- The square with a hole and a rectangle beside the hole meet the hypotheses of `C78_poly_covers`. -/
example (ns : List (Pt ℚ) → Nat) : let r : Rect ℚ := ⟨⟨1, 1⟩, ⟨3, 9⟩⟩
    holedX.Firm ∧ holedX.General (.poly r.series []) ∧ ∀ s ∈ holedX.rings, Fit ns s r.corners := by
  have hok : Env.initial.Ok := ⟨by decide, by decide⟩
  refine ⟨⟨fun _ => box_convex (by norm_num) (by norm_num), (box_convex (by norm_num) (by norm_num)).escapes⟩, ⟨?_, ?_⟩, ?_⟩
  · intro p hp h
    have h : OnBoundary (segments (boxPts (1 : ℚ) 1 3 9) true) p := by
      obtain ⟨t, ht, hp⟩ := h
      simp only [AShape.sides, List.flatMap_cons, List.flatMap_nil, List.append_nil, Series.segs] at ht
      exact ⟨t, ht, hp⟩
    rw [box_boundary (by norm_num) (by norm_num)] at h
    simp only [holedX, AShape.nodes, boxPts, List.flatMap_cons, List.flatMap_nil, List.append_nil, List.mem_append, List.mem_cons, List.not_mem_nil,
      or_false] at hp
    rcases hp with (rfl | rfl | rfl | rfl | rfl) | rfl | rfl | rfl | rfl | rfl <;> norm_num at h
  · intro p hp h
    have h : OnBoundary (segments (boxPts (0 : ℚ) 0 10 10) true) p ∨ OnBoundary (segments (boxPts (4 : ℚ) 4 6 6) true) p := by
      obtain ⟨t, ht, hp⟩ := h
      simp only [holedX, AShape.sides, List.flatMap_cons, List.flatMap_nil, List.append_nil, List.mem_append, Series.segs] at ht
      rcases ht with ht | ht
      · exact .inl ⟨t, ht, hp⟩
      · exact .inr ⟨t, ht, hp⟩
    rw [box_boundary (by norm_num) (by norm_num), box_boundary (by norm_num) (by norm_num)] at h
    simp only [AShape.nodes, Rect.series, boxPts, List.flatMap_cons, List.flatMap_nil, List.append_nil, List.mem_cons, List.not_mem_nil, or_false] at hp
    rcases hp with rfl | rfl | rfl | rfl | rfl <;> norm_num at h
  · intro s hs
    simp only [holedX, AShape.rings, List.mem_cons, List.not_mem_nil, or_false] at hs
    rcases hs with rfl | rfl <;> exact fit_small hok (by show 5 < _; decide) _

end Tg
