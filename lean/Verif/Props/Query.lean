import Verif.Lemmas.Query
import Verif.Props.Float32
import Verif.Lemmas.SharedPlain
/-!
C72: the queries with a rectangle or a point are exact. `tg_geom_intersects_rect` builds a ring on the stack that differs from the rings of the
constructors: its array has no point behind the last one, and its flags are set by hand.
-/
set_option linter.unusedSectionVars false
namespace Tg

open S Spec.Double

/-- The corners of the rectangle. -/
def S.Rect.corners {α : Type*} (r : Rect α) : List (Pt α) := [r.lo, ⟨r.hi.x, r.lo.y⟩, r.hi, ⟨r.lo.x, r.hi.y⟩]

section
variable {K : Type*} [Field K] [LinearOrder K] [IsStrictOrderedRing K] [FloorRing K]

theorem S.rect_shape (ns : List (Pt K) → Nat) (r : Rect K) (ps : List (Pt K)) : (∀ x ∈ (Shape.atom (.poly r.series [])).atoms, x.Ok) ∧
    ∀ s ∈ (Shape.atom (.poly r.series [])).rings, Fit ns s ps := by
  refine ⟨by simpa [Shape.atoms, AShape.Ok] using polyOk_nil _, ?_⟩
  intro s hs
  simp only [Shape.rings, Shape.atoms, AShape.rings, List.flatMap_cons, List.flatMap_nil, List.append_nil, List.mem_singleton] at hs
  subst hs
  exact fit_small (show Env.Ok Env.initial from ⟨by decide, by decide⟩) (by simp [Rect.series, boxPts, spreadOf, extractSpread, Env.initial]) ps

theorem S.Fit.mono {ns : List (Pt K) → Nat} {s : Series K} {ps qs : List (Pt K)} (h : Fit ns s ps) (hq : ∀ q ∈ qs, q ∈ ps) : Fit ns s qs :=
  ⟨h.env, fun ε hε r hr => ⟨(h.good ε hε r hr).1, fun p hp => (h.good ε hε r hr).2 p (hq p hp)⟩⟩

theorem S.rect_verts (r : Rect K) : ∀ q ∈ (Shape.atom (.poly r.series [])).verts, q ∈ r.corners := by
  intro q hq
  simp only [Shape.verts, Shape.atoms, AShape.verts, Rect.series, boxPts, List.flatMap_cons, List.flatMap_nil, List.append_nil, List.mem_cons,
    List.not_mem_nil, or_false] at hq
  simp only [Rect.corners, List.mem_cons, List.not_mem_nil, or_false]
  tauto

/-- C72. With exact arithmetic and for all small tolerances, `tg_geom_intersects_rect` of a geometry of any kind and nesting answers whether it has a
point in the rectangle, which may be a segment or a point. -/
theorem C72_intersects_rect (ns : List (Pt K) → Nat) {H : HArith K} {Q : Qsort} (hQ : QsortOk Q) (a : Shape K) (r : Rect K) (hx : r.lo.x ≤ r.hi.x)
    (hy : r.lo.y ≤ r.hi.y) (oka : ∀ x ∈ a.atoms, x.Ok) (fa : ∀ s ∈ a.rings, Fit ns s r.corners) :
    ∃ ε₀ > 0, ∀ ε, 0 < ε → ε ≤ ε₀ → ∀ (fuel : Nat) (ga : Geo K K), a.Is ε ns H Q ga →
      ∃ v, geoIntersectsRect ⟨Ix.exact, exact ε ns, exactR, fuel⟩ ga r = some v ∧
        (v = true ↔ ∃ w, a.Has w ∧ r.lo.x ≤ w.x ∧ w.x ≤ r.hi.x ∧ r.lo.y ≤ w.y ∧ w.y ≤ r.hi.y) := by
  obtain ⟨o1, o2⟩ := rect_shape ns r a.verts
  obtain ⟨e, e0, he⟩ := C53_intersects ns (H := H) hQ a (.atom (.poly r.series [])) oka o1 (fun s hs => (fa s hs).mono (rect_verts r)) o2
  refine ⟨e, e0, fun ε hε hle fuel ga ha => ?_⟩
  obtain ⟨s, s1, s2⟩ := rect_made hx hy Ix.exact (exact ε ns)
  obtain ⟨o, ho, -⟩ := orient_ok (pts := r.series.pts) (by simp [Rect.series, boxPts])
  obtain ⟨v, v1, v2⟩ := he ε hε hle fuel ga (.atom (.poly (.ring ⟨s, o.convex, o.clockwise⟩))) ha
    ⟨rfl, show 2 ≤ (16 : Int) ∧ (16 : Int) ≤ 4096 by decide, s1, by rw [ringConvex, ho]; rfl, by rw [ringClockwise, ho]; rfl⟩
  refine ⟨v, ?_, ?_⟩
  · rw [← v1, geoIntersectsRect, geoIntersects, geoIntersects]
    exact geoX_other _ (s2.atomX _ _ _ _ _) _
  · rw [v2]
    refine exists_congr fun w => and_congr_right fun _ => ?_
    show InRegion _ _ ∧ _ ↔ _
    rw [rect_region hx hy]
    simp [Rect.Has]

/-- C72. `tg_geom_intersects_xy` and `tg_geom_covers_xy` answer whether the geometry has the point. -/
theorem C72_xy (ns : List (Pt K) → Nat) {H : HArith K} {Q : Qsort} (hQ : QsortOk Q) (a : Shape K) (x y : K) (oka : ∀ x ∈ a.atoms, x.Ok)
    (fa : ∀ s ∈ a.rings, Fit ns s [⟨x, y⟩]) :
    ∃ ε₀ > 0, ∀ ε, 0 < ε → ε ≤ ε₀ → ∀ (fuel : Nat) (ga : Geo K K), a.Is ε ns H Q ga →
      ∃ v, geoIntersectsXy ⟨Ix.exact, exact ε ns, exactR, fuel⟩ ga x y = some v ∧ geoCoversXy ⟨Ix.exact, exact ε ns, exactR, fuel⟩ ga x y = some v ∧
        (v = true ↔ a.Has ⟨x, y⟩) := by
  obtain ⟨e1, p1, h1⟩ := C53_intersects ns (H := H) hQ a (.atom (.point ⟨x, y⟩)) oka (by simp [Shape.atoms, AShape.Ok])
    (by simpa [Shape.verts, Shape.atoms, AShape.verts] using fa) (by simp [Shape.rings, Shape.atoms, AShape.rings])
  obtain ⟨e2, p2, h2⟩ := C61_covers_point ns H Q a ⟨x, y⟩ fa
  refine ⟨min e1 e2, lt_min p1 p2, fun ε hε hle fuel ga ha => ?_⟩
  obtain ⟨v, v1, v2⟩ := h1 ε hε (hle.trans (min_le_left _ _)) fuel ga (.atom (.point ⟨x, y⟩)) ha rfl
  obtain ⟨w, w1, w2⟩ := h2 ε hε (hle.trans (min_le_right _ _)) fuel ga ha
  have hv : v = true ↔ a.Has ⟨x, y⟩ := by
    rw [v2]
    constructor
    · rintro ⟨w, w1, rfl⟩; exact w1
    · exact fun h => ⟨_, h, rfl⟩
  have : w = v := by rw [Bool.eq_iff_iff, w2, hv]
  exact ⟨v, v1, this ▸ w1, hv⟩

end

section
variable {F : Fp} (hF : Rounding F.rnd) {q : ℚ → ℚ} (hq : Spec.Float32.Rounding q) {k : ℤ} (h1 : -125 ≤ k) (h2 : k ≤ 102) (hn : ∀ pts, F.ns pts < 2 ^ 31)
  {H : HArith ℚ} {Q : Qsort} (hQ : QsortOk Q)
include hF hq h1 h2 hn hQ

/-- C72. The same with doubles and with indexes in floats, for fixed-point coordinates. -/
theorem C72_intersects_rect_ieee (a : Shape ℚ) (r : Rect ℚ) (hx : r.lo.x ≤ r.hi.x) (hy : r.lo.y ≤ r.hi.y) (da : ∀ p ∈ a.nodes, GridPt k p)
    (dr : GridPt k r.lo ∧ GridPt k r.hi) (oka : ∀ x ∈ a.atoms, x.Ok) (fa : ∀ s ∈ a.rings, Fit F.ns s r.corners) (fuel : Nat) (ga : Geo ℚ ℚ)
    (ha : a.By (F.maker (F.ix32 q)) H Q ga) :
    ∃ v, geoIntersectsRect ⟨F.ix32 q, F.arith, F.rarith, fuel⟩ ga r = some v ∧
      (v = true ↔ ∃ w, a.Has w ∧ r.lo.x ≤ w.x ∧ w.x ≤ r.hi.x ∧ r.lo.y ≤ w.y ∧ w.y ≤ r.hi.y) := by
  obtain ⟨o1, o2⟩ := rect_shape F.ns r a.verts
  obtain ⟨s, s1, s2⟩ := rect_made hx hy (F.ix32 q) F.arith
  obtain ⟨o, ho⟩ := F.orient_some r.series.pts
  obtain ⟨v, v1, v2⟩ := C68_intersects hF hq h1 h2 hn (H := H) hQ a (.atom (.poly r.series [])) da (by
      intro p hp
      simp only [Shape.nodes, Shape.atoms, AShape.nodes, Rect.series, boxPts, List.flatMap_cons, List.flatMap_nil, List.append_nil, List.mem_cons,
        List.not_mem_nil, or_false] at hp
      obtain ⟨⟨l1, l2⟩, u1, u2⟩ := dr
      rcases hp with rfl | rfl | rfl | rfl | rfl
      exacts [⟨l1, l2⟩, ⟨u1, l2⟩, ⟨u1, u2⟩, ⟨l1, u2⟩, ⟨l1, l2⟩]) oka o1 (fun s hs => (fa s hs).mono (rect_verts r)) o2 fuel ga
    (.atom (.poly (.ring ⟨s, o.convex, o.clockwise⟩))) ha
    ⟨rfl, show 2 ≤ (16 : Int) ∧ (16 : Int) ≤ 4096 by decide, s1, by show (F.orient _).map _ = _; rw [ho]; rfl, by show (F.orient _).map _ = _; rw [ho]; rfl⟩
  refine ⟨v, ?_, ?_⟩
  · rw [← v1, geoIntersectsRect, geoIntersects, geoIntersects]
    exact geoX_other _ (s2.atomX _ _ _ _ _) _
  · rw [v2]
    refine exists_congr fun w => and_congr_right fun _ => ?_
    show InRegion _ _ ∧ _ ↔ _
    rw [rect_region hx hy]
    simp [Rect.Has]

end

/-! ### That the hypotheses are met -/

/-- A rectangle in the hole of a square, and one that reaches over its edge. -/
example : ((holedQ (boxQ 0 0 10 10) (boxQ 4 4 6 6)).bind fun p => geoIntersectsRect parQ p ⟨⟨9 / 2, 5⟩, ⟨5, 11 / 2⟩⟩) = some false ∧
    ((holedQ (boxQ 0 0 10 10) (boxQ 4 4 6 6)).bind fun p => geoIntersectsRect parQ p ⟨⟨9 / 2, 5⟩, ⟨5, 6⟩⟩) = some true := by
  constructor <;> decide +kernel

/-- The square with a hole and the rectangles meet the hypotheses. -/
example (ns : List (Pt ℚ) → Nat) (r : Rect ℚ) : (∀ x ∈ ringShape.atoms, x.Ok) ∧ ∀ s ∈ ringShape.rings, Fit ns s r.corners := by
  obtain ⟨h1, -, -⟩ := ringShape_ok ns ⟨0, 0⟩ ⟨1, 1⟩
  refine ⟨h1, fun s hs => fit_small ?_ ?_ _⟩ <;>
    simp only [ringShape, Shape.rings, Shape.atoms, Shape.allAtoms, AShape.rings, List.nil_append, List.append_nil, List.flatMap_cons, List.flatMap_nil,
      List.mem_cons, List.not_mem_nil, or_false] at hs <;> rcases hs with rfl | rfl
  all_goals first | exact (show Env.Ok Env.initial from ⟨by decide, by decide⟩) | simp [boxPts, spreadOf, extractSpread, Env.initial]

end Tg
