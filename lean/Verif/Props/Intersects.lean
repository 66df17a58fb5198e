import Verif.Lemmas.Intersects
import Verif.Lemmas.Box
import Verif.Props.Predicates
/-! Property C53: `tg_geom_intersects` answers whether the two geometries have a point in common. -/
namespace Tg
open S

variable {K : Type*} [Field K] [LinearOrder K] [IsStrictOrderedRing K] [FloorRing K]

/-- C53. With exact arithmetic and for all small tolerances, `tg_geom_intersects` of two geometries of any kind and nesting answers whether they have a
point in common. The shapes say of which points, options and environments the geometries are made. -/
theorem C53_intersects (ns : List (Pt K) → Nat) {H : HArith K} {Q : Qsort} (hQ : QsortOk Q) (a b : Shape K) (oka : ∀ x ∈ a.atoms, x.Ok)
    (okb : ∀ x ∈ b.atoms, x.Ok) (fa : ∀ s ∈ a.rings, Fit ns s b.verts) (fb : ∀ s ∈ b.rings, Fit ns s a.verts) :
    ∃ ε₀ > 0, ∀ ε, 0 < ε → ε ≤ ε₀ → ∀ (fuel : Nat) (ga gb : Geo K K), a.Is ε ns H Q ga → b.Is ε ns H Q gb →
      ∃ r, geoIntersects ⟨Ix.exact, exact ε ns, exactR, fuel⟩ ga gb = some r ∧ (r = true ↔ ∃ w, a.Has w ∧ b.Has w) := by
  obtain ⟨e1, p1, h1⟩ := ringsSee_of ns a.rings b.verts fa
  obtain ⟨e2, p2, h2⟩ := ringsSee_of ns b.rings a.verts fb
  refine ⟨min e1 e2, lt_min p1 p2, fun ε hε hle fuel ga gb ha hb => ?_⟩
  exact intersects_exact hQ rfl rfl rfl ha hb oka okb (h1 ε hε (hle.trans (min_le_left _ _))) (h2 ε hε (hle.trans (min_le_right _ _)))

/-- C53. `tg_geom_disjoint` answers whether they have none. -/
theorem C53_disjoint (ns : List (Pt K) → Nat) {H : HArith K} {Q : Qsort} (hQ : QsortOk Q) (a b : Shape K) (oka : ∀ x ∈ a.atoms, x.Ok)
    (okb : ∀ x ∈ b.atoms, x.Ok) (fa : ∀ s ∈ a.rings, Fit ns s b.verts) (fb : ∀ s ∈ b.rings, Fit ns s a.verts) :
    ∃ ε₀ > 0, ∀ ε, 0 < ε → ε ≤ ε₀ → ∀ (fuel : Nat) (ga gb : Geo K K), a.Is ε ns H Q ga → b.Is ε ns H Q gb →
      ∃ r, geoDisjoint ⟨Ix.exact, exact ε ns, exactR, fuel⟩ ga gb = some r ∧ (r = true ↔ ∀ w, a.Has w → ¬ b.Has w) := by
  obtain ⟨e1, p1, h1⟩ := C53_intersects ns hQ a b oka okb fa fb
  refine ⟨e1, p1, fun ε hε hle fuel ga gb ha hb => ?_⟩
  obtain ⟨r, k1, k2⟩ := h1 ε hε hle fuel ga gb ha hb
  refine ⟨!r, by rw [geoDisjoint, k1]; rfl, ?_⟩
  rw [Bool.not_eq_true', ← Bool.not_eq_true, k2]
  simp

/-- C53. The order of the arguments does not matter. -/
theorem C53_symm (ns : List (Pt K) → Nat) {H : HArith K} {Q : Qsort} (hQ : QsortOk Q) (a b : Shape K) (oka : ∀ x ∈ a.atoms, x.Ok)
    (okb : ∀ x ∈ b.atoms, x.Ok) (fa : ∀ s ∈ a.rings, Fit ns s b.verts) (fb : ∀ s ∈ b.rings, Fit ns s a.verts) :
    ∃ ε₀ > 0, ∀ ε, 0 < ε → ε ≤ ε₀ → ∀ (fuel : Nat) (ga gb : Geo K K), a.Is ε ns H Q ga → b.Is ε ns H Q gb →
      geoIntersects ⟨Ix.exact, exact ε ns, exactR, fuel⟩ ga gb = geoIntersects ⟨Ix.exact, exact ε ns, exactR, fuel⟩ gb ga := by
  obtain ⟨e1, p1, h1⟩ := C53_intersects ns hQ a b oka okb fa fb
  obtain ⟨e2, p2, h2⟩ := C53_intersects ns hQ b a okb oka fb fa
  refine ⟨min e1 e2, lt_min p1 p2, fun ε hε hle fuel ga gb ha hb => ?_⟩
  obtain ⟨r, k1, k2⟩ := h1 ε hε (hle.trans (min_le_left _ _)) fuel ga gb ha hb
  obtain ⟨s, k3, k4⟩ := h2 ε hε (hle.trans (min_le_right _ _)) fuel gb ga hb ha
  rw [k1, k3, Option.some.injEq, Bool.eq_iff_iff, k2, k4]
  exact ⟨fun ⟨w, h1, h2⟩ => ⟨w, h2, h1⟩, fun ⟨w, h1, h2⟩ => ⟨w, h2, h1⟩⟩

/-! ### What the hypotheses are for, and that they are met -/

/-- A hole that sticks out of the exterior, against the hypothesis on boundaries: the line from (9, 5) to (16, 5) leaves the exterior inside of the
hole, and has no point in the polygon; the answer is true. -/
theorem C53_hole_sticks_out : ((holedQ (boxQ 0 0 10 10) (boxQ 5 2 15 8)).bind fun p => (lineQ [⟨9, 5⟩, ⟨16, 5⟩]).bind fun l => geoIntersects parQ p l) = some true ∧
    ¬ ∃ w, AShape.Has (.poly ⟨Env.initial, 0#32, boxPts 0 0 10 10⟩ [⟨Env.initial, 0#32, boxPts 5 2 15 8⟩] : AShape ℚ) w ∧
      AShape.Has (.line ⟨Env.initial, 0#32, [⟨9, 5⟩, ⟨16, 5⟩]⟩) w := by
  refine ⟨by decide +kernel, ?_⟩
  rintro ⟨w, ⟨h1, h2⟩, s, hs, h3⟩
  simp only [edges, List.mem_cons, List.not_mem_nil, or_false] at hs
  subst hs
  have h3 := onSeg_rect h3
  simp only [Seg.rect, Rect.Has] at h3
  norm_num at h3
  have h2 := h2 _ (List.mem_singleton.2 rfl)
  rw [Series.segs, box_inside (by norm_num) (by norm_num)] at h2
  rw [Series.segs, InRegion, box_inside (by norm_num) (by norm_num), box_boundary (by norm_num) (by norm_num)] at h1
  have hx : w.x ≤ 10 := by rcases h1 with h | h; exacts [h.1.2.1, h.2.1.le]
  exact h2 ⟨by linarith [h3.1], by linarith, by linarith [h3.2.2.1], by linarith [h3.2.2.2]⟩

/-- A collection of a square with a hole, and a line. -/
def S.ringShape : Shape ℚ := .coll [.empty, .atom (.poly ⟨Env.initial, 0#32, boxPts 0 0 10 10⟩ [⟨Env.initial, 0#32, boxPts 4 4 6 6⟩])]
def S.lineShape (p q : Pt ℚ) : Shape ℚ := .atom (.line ⟨Env.initial, 0#32, [p, q]⟩)

/-- The shapes meet the hypotheses of C53. -/
theorem S.ringShape_ok (ns : List (Pt ℚ) → Nat) (p q : Pt ℚ) : (∀ x ∈ ringShape.atoms, x.Ok) ∧ (∀ x ∈ (lineShape p q).atoms, x.Ok) ∧
    (∀ s ∈ ringShape.rings, Fit ns s (lineShape p q).verts) ∧ ∀ s ∈ (lineShape p q).rings, Fit ns s ringShape.verts := by
  have hok : Env.initial.Ok := ⟨by decide, by decide⟩
  refine ⟨?_, ?_, ?_, ?_⟩
  · intro x hx
    simp only [ringShape, Shape.atoms, Shape.allAtoms, List.nil_append, List.append_nil, List.mem_singleton] at hx
    subst hx
    exact polyOk_boxes (by norm_num) (by norm_num) (by norm_num) (by norm_num) (by norm_num) (by norm_num)
  · intro x hx
    simp only [lineShape, Shape.atoms, List.mem_singleton] at hx
    subst hx
    trivial
  · intro s hs
    simp only [ringShape, Shape.rings, Shape.atoms, Shape.allAtoms, List.nil_append, List.append_nil, List.flatMap_singleton, AShape.rings,
      List.mem_cons, List.not_mem_nil, or_false] at hs
    rcases hs with rfl | rfl
    · exact fit_small hok (by show 5 < _; decide) _
    · exact fit_small hok (by show 5 < _; decide) _
  · intro s hs
    simp [lineShape, Shape.rings, Shape.atoms, AShape.rings] at hs

/-- There are geometries of these shapes. -/
example (ε : ℚ) (ns : List (Pt ℚ) → Nat) (p q : Pt ℚ) : (∃ g, ringShape.Is ε ns exactH insertionQsort g) ∧
    ∃ g, (lineShape p q).Is ε ns exactH insertionQsort g := by
  have hok : Env.initial.Ok := ⟨by decide, by decide⟩
  obtain ⟨e, he⟩ := newIx_small (K := ℚ) (e := Env.initial) (pts := boxPts 0 0 10 10) (closed := true) (ix := 0#32) (by show 5 < _; decide) (exact ε ns)
  obtain ⟨h, hh⟩ := newIx_small (K := ℚ) (e := Env.initial) (pts := boxPts 4 4 6 6) (closed := true) (ix := 0#32) (by show 5 < _; decide) (exact ε ns)
  obtain ⟨l, hl⟩ := newIx_small (K := ℚ) (e := Env.initial) (pts := [p, q]) (closed := false) (ix := 0#32) (by show 2 < _; decide) (exact ε ns)
  have hc : ∃ cv cw, ringConvex (boxPts 0 0 10 10 : List (Pt ℚ)) = some cv ∧ ringClockwise (boxPts 0 0 10 10 : List (Pt ℚ)) = some cw :=
    ⟨true, false, by decide +kernel, by decide +kernel⟩
  have hc' : ∃ cv cw, ringConvex (boxPts 4 4 6 6 : List (Pt ℚ)) = some cv ∧ ringClockwise (boxPts 4 4 6 6 : List (Pt ℚ)) = some cw :=
    ⟨true, false, by decide +kernel, by decide +kernel⟩
  obtain ⟨cv, cw, c1, c2⟩ := hc
  obtain ⟨cv', cw', c1', c2'⟩ := hc'
  let g : Geo ℚ ℚ := .atom (.poly (.poly ⟨e, cv, cw⟩ [⟨h, cv', cw'⟩]))
  obtain ⟨m, hm⟩ := C39_made (f := (Ix.exact : Ix ℚ ℚ)) (H := exactH) (Q := insertionQsort) insertionQsort_ok (rectOf := Geo.rect)
    (geoms := [.empty, g]) (.inl (by simp))
  obtain ⟨h1, -⟩ := multiNew_ok insertionQsort_ok hm
  have hm' : multiNew (Ix.exact : Ix ℚ ℚ) exactH insertionQsort Geo.rect [.empty, g] = some ⟨[.empty, g], m.rect, m.index, m.ixgeoms⟩ := by
    rw [hm]
    congr 1
    rw [← h1.geoms_eq]
  refine ⟨⟨.multi false [.empty, g] m.rect m.index m.ixgeoms, ?_⟩, .atom (.line l), ?_⟩
  · rw [ringShape, Shape.Is]
    refine ⟨by simp, hm', ?_⟩
    simp only [Shape.IsAll, Shape.Is, true_and, and_true]
    exact ⟨⟨hok, he, c1, c2⟩, .cons ⟨hok, hh, c1', c2'⟩ .nil⟩
  · rw [lineShape, Shape.Is]
    exact ⟨hok, hl⟩

/-- A line inside of the hole does not meet the square; one that leaves the hole does. -/
example (ns : List (Pt ℚ) → Nat) : ∃ ε₀ > 0, ∀ ε, 0 < ε → ε ≤ ε₀ → ∀ (fuel : Nat) (ga gb gc : Geo ℚ ℚ), ringShape.Is ε ns exactH insertionQsort ga →
    (lineShape ⟨5, 5⟩ ⟨11/2, 5⟩).Is ε ns exactH insertionQsort gb → (lineShape ⟨5, 5⟩ ⟨6, 5⟩).Is ε ns exactH insertionQsort gc →
    geoIntersects ⟨Ix.exact, exact ε ns, exactR, fuel⟩ ga gb = some false ∧ geoIntersects ⟨Ix.exact, exact ε ns, exactR, fuel⟩ ga gc = some true := by
  obtain ⟨a1, a2, a3, a4⟩ := ringShape_ok ns ⟨5, 5⟩ ⟨11/2, 5⟩
  obtain ⟨b1, b2, b3, b4⟩ := ringShape_ok ns ⟨5, 5⟩ ⟨6, 5⟩
  obtain ⟨e1, p1, h1⟩ := C53_intersects ns (H := exactH) insertionQsort_ok _ _ a1 a2 a3 a4
  obtain ⟨e2, p2, h2⟩ := C53_intersects ns (H := exactH) insertionQsort_ok _ _ b1 b2 b3 b4
  refine ⟨min e1 e2, lt_min p1 p2, fun ε hε hle fuel ga gb gc ha hb hc => ?_⟩
  obtain ⟨r, k1, k2⟩ := h1 ε hε (hle.trans (min_le_left _ _)) fuel ga gb ha hb
  obtain ⟨s, k3, k4⟩ := h2 ε hε (hle.trans (min_le_right _ _)) fuel ga gc ha hc
  rw [k1, k3]
  have hr : r = false := by
    rw [← Bool.not_eq_true, k2]
    rintro ⟨w, h1, h2⟩
    simp only [ringShape, lineShape, Shape.Has, Shape.SomeHas, false_or, or_false] at h1 h2
    obtain ⟨-, h1⟩ := h1
    obtain ⟨s, hs, h2⟩ := h2
    simp only [edges, List.mem_cons, List.not_mem_nil, or_false] at hs
    subst hs
    have h2 := onSeg_rect h2
    simp only [Seg.rect, Rect.Has] at h2
    norm_num at h2
    refine h1 _ (List.mem_singleton.2 rfl) ?_
    rw [Series.segs, box_inside (by norm_num) (by norm_num)]
    exact ⟨by linarith [h2.1], by linarith [h2.2.1], by linarith [h2.2.2.1], by linarith [h2.2.2.2]⟩
  have hs : s = true := by
    rw [k4]
    refine ⟨⟨6, 5⟩, ?_, ?_⟩
    · simp only [ringShape, Shape.Has, Shape.SomeHas, false_or, or_false]
      refine ⟨?_, ?_⟩
      · rw [Series.segs, InRegion, box_inside (by norm_num) (by norm_num)]
        right; norm_num
      · simp only [List.mem_singleton, forall_eq]
        rw [Series.segs, box_inside (by norm_num) (by norm_num)]
        norm_num
    · simp only [lineShape, Shape.Has]
      exact ⟨⟨⟨5, 5⟩, ⟨6, 5⟩⟩, by simp [edges], onSeg_right (⟨⟨5, 5⟩, ⟨6, 5⟩⟩ : Seg ℚ)⟩
  rw [hr, hs]
  exact ⟨rfl, rfl⟩

end Tg
