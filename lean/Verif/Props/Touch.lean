import Verif.Lemmas.Touch
import Verif.Props.General
import Mathlib.Tactic.IntervalCases
/-! Property C77: what the answer of `touches` tells for a line and a polygon, and for two polygons. -/
namespace Tg
open S

variable {K : Type*} [Field K] [LinearOrder K] [IsStrictOrderedRing K] [FloorRing K]

/-- C77. If a line touches a polygon by the answer, then a vertex of the line is on the boundary of the polygon, and no vertex of the line is in its
interior; for any polygon with or without holes whose rings have their boundaries in it, and with the arguments in both orders. -/
theorem C77_line_sound (ns : List (Pt K) → Nat) (ext : Series K) (holes : List (Series K)) (s : Series K) (h2 : 2 ≤ s.pts.length)
    (ok : ∀ t ∈ ext :: holes, ∀ w, OnBoundary t.segs w → AShape.Has (.poly ext holes) w) (fit : ∀ t ∈ ext :: holes, Fit ns t s.pts) :
    ∃ ε₀ > 0, ∀ ε, 0 < ε → ε ≤ ε₀ → ∀ (fuel : Nat) (q l : Atom K K), AShape.Is ε ns (.poly ext holes) q → AShape.Is ε ns (.line s) l →
      geoTouches ⟨Ix.exact, exact ε ns, exactR, fuel⟩ (.atom l) (.atom q) = some true ∨
        geoTouches ⟨Ix.exact, exact ε ns, exactR, fuel⟩ (.atom q) (.atom l) = some true →
      (∃ p ∈ s.pts, AShape.Rim (.poly ext holes) p) ∧ ∀ p ∈ s.pts, ¬ AShape.Inner (.poly ext holes) p := by
  obtain ⟨e1, p1, h1⟩ := ringsSee_of ns (ext :: holes) s.pts fit
  refine ⟨e1, p1, fun ε hε hle fuel qa la hq hl h => ?_⟩
  match qa, la, hq, hl with
  | .poly q, .line o, hq, hl =>
    have h' : polyTouchesLine ⟨Ix.exact, exact ε ns, exactR, fuel⟩ q o = some true := by rcases h with h | h <;> exact h
    obtain ⟨⟨p, hp, t, ht, hb⟩, k2⟩ := polyTouchesLine_sound rfl rfl hq hl.1 hl.2 h2 (h1 ε hε hle) h'
    refine ⟨⟨p, hp, ok t ht p hb, fun hin => ?_⟩, k2⟩
    rcases List.mem_cons.1 ht with rfl | ht
    · exact hin.1.1 hb
    · exact hin.2 t ht (.inl hb)

/-- C77. A line and a polygon without holes whose segments meet in vertices only; no vertex of the polygon is on the line, and no segment of the line has
both ends on the boundary. There is an answer, and it is true if and only if the line and the polygon have a point in common, and no point of the line
is in the interior of the polygon. -/
theorem C77_line (ns : List (Pt K) → Nat) (ext : Series K) (s : Series K) (h3 : 3 ≤ ext.pts.length) (h2 : 2 ≤ s.pts.length) (simple : SimpleRing ext.pts)
    (vert : ∀ v ∈ ext.pts, ¬ AShape.Has (.line s) v) (ends : ∀ t ∈ edges s.pts, ¬ (OnBoundary ext.segs t.a ∧ OnBoundary ext.segs t.b))
    (fit : Fit ns ext s.pts) :
    ∃ ε₀ > 0, ∀ ε, 0 < ε → ε ≤ ε₀ → ∀ (fuel : Nat) (q l : Atom K K), AShape.Is ε ns (.poly ext []) q → AShape.Is ε ns (.line s) l →
      ∃ r, geoTouches ⟨Ix.exact, exact ε ns, exactR, fuel⟩ (.atom l) (.atom q) = some r ∧
        geoTouches ⟨Ix.exact, exact ε ns, exactR, fuel⟩ (.atom q) (.atom l) = some r ∧
        (r = true ↔ (∃ w, AShape.Has (.line s) w ∧ AShape.Has (.poly ext []) w) ∧ ∀ w, AShape.Has (.line s) w → ¬ AShape.Inner (.poly ext []) w) := by
  obtain ⟨e1, p1, h1⟩ := ringsSee_of ns [ext] s.pts (by simpa using fit)
  refine ⟨e1, p1, fun ε hε hle fuel qa la hq hl => ?_⟩
  match qa, la, hq, hl with
  | .poly q, .line o, hq, hl =>
    obtain ⟨r, k1, k2⟩ := polyTouchesLine_exact (P := ⟨Ix.exact, exact ε ns, exactR, fuel⟩) rfl rfl hq h3 simple hl.1 hl.2 h2 (h1 ε hε hle) vert ends
    refine ⟨r, k1, k1, ?_⟩
    rw [k2]
    simp [AShape.Has, AShape.Inner]

/-- C77. For two polygons without holes there is always an answer. If it is true, then they have a point in common, no vertex of one is inside of the
other, and a segment of one of them has no point in common with the other. -/
theorem C77_poly_sound (ns : List (Pt K) → Nat) (a b : Series K) (ha : 3 ≤ a.pts.length) (hb : 3 ≤ b.pts.length) (fa : Fit ns a b.pts) (fb : Fit ns b a.pts) :
    ∃ ε₀ > 0, ∀ ε, 0 < ε → ε ≤ ε₀ → ∀ (fuel : Nat) (q o : Atom K K), AShape.Is ε ns (.poly a []) q → AShape.Is ε ns (.poly b []) o →
      ∃ r, geoTouches ⟨Ix.exact, exact ε ns, exactR, fuel⟩ (.atom o) (.atom q) = some r ∧
        (r = true → (∃ w, AShape.Has (.poly a []) w ∧ AShape.Has (.poly b []) w) ∧
          (∀ p ∈ b.pts, ¬ AShape.Inner (.poly a []) p) ∧ (∀ p ∈ a.pts, ¬ AShape.Inner (.poly b []) p) ∧
          ((∃ t ∈ a.segs, ∀ w, OnSeg t w → ¬ AShape.Has (.poly b []) w) ∨ ∃ t ∈ b.segs, ∀ w, OnSeg t w → ¬ AShape.Has (.poly a []) w)) := by
  obtain ⟨e1, p1, h1⟩ := ringsSee_of ns [a] b.pts (by simpa using fa)
  obtain ⟨e2, p2, h2⟩ := ringsSee_of ns [b] a.pts (by simpa using fb)
  refine ⟨min e1 e2, lt_min p1 p2, fun ε hε hle fuel qa oa hq ho => ?_⟩
  match qa, oa, hq, ho with
  | .poly q, .poly o, hq, ho =>
    obtain ⟨r, k1, k2⟩ := polyTouchesPoly_sound (P := ⟨Ix.exact, exact ε ns, exactR, fuel⟩) rfl rfl hq ho ha hb (h1 ε hε (hle.trans (min_le_left _ _)))
      (h2 ε hε (hle.trans (min_le_right _ _)))
    refine ⟨r, k1, fun h => ?_⟩
    have := k2 h
    simpa [AShape.Has, AShape.Inner] using this

/-- C77. A polygon without holes does not touch itself, nor a polygon with the same boundary, however its ring is cut into segments, wherever it starts,
and whichever index it has. -/
theorem C77_self (ns : List (Pt K) → Nat) (a b : Series K) (ha : 3 ≤ a.pts.length) (hb : 3 ≤ b.pts.length) (same : ∀ w, OnBoundary a.segs w ↔ OnBoundary b.segs w)
    (fa : Fit ns a b.pts) (fb : Fit ns b a.pts) :
    ∃ ε₀ > 0, ∀ ε, 0 < ε → ε ≤ ε₀ → ∀ (fuel : Nat) (q o : Atom K K), AShape.Is ε ns (.poly a []) q → AShape.Is ε ns (.poly b []) o →
      geoTouches ⟨Ix.exact, exact ε ns, exactR, fuel⟩ (.atom o) (.atom q) = some false := by
  obtain ⟨e, p, h⟩ := C77_poly_sound ns a b ha hb fa fb
  refine ⟨e, p, fun ε hε hle fuel q o hq ho => ?_⟩
  obtain ⟨r, k1, k2⟩ := h ε hε hle fuel q o hq ho
  cases r with
  | false => exact k1
  | true =>
    obtain ⟨-, -, -, ⟨t, ht, hw⟩ | ⟨t, ht, hw⟩⟩ := k2 rfl
    · exact absurd ⟨.inl ((same _).1 ⟨t, ht, onSeg_left t⟩), by simp⟩ (hw t.a (onSeg_left t))
    · exact absurd ⟨.inl ((same _).2 ⟨t, ht, onSeg_left t⟩), by simp⟩ (hw t.a (onSeg_left t))

/-! ### The hypotheses are needed -/

/-- The line goes along the lower side of the square and beyond, and ends in a corner. It has no point in the interior. The answer depends on the vertex at
which the ring starts. -/
theorem C77_start_matters :
    ((polyQ (boxQ 0 0 10 10)).bind fun p => (lineQ [⟨-5, 0⟩, ⟨15, 0⟩, ⟨10, 10⟩]).bind fun l => geoTouches parQ l p) = some false ∧
    ((polyQ [⟨0, 10⟩, ⟨0, 0⟩, ⟨10, 0⟩, ⟨10, 10⟩, ⟨0, 10⟩]).bind fun p => (lineQ [⟨-5, 0⟩, ⟨15, 0⟩, ⟨10, 10⟩]).bind fun l => geoTouches parQ l p) = some true := by
  constructor <;> decide +kernel

/-- The line goes through the interior of an L, and then along a side of it. It does not touch. The answer is true, and false if the ring starts at another
vertex. -/
theorem C77_through :
    ((polyQ [⟨0, 0⟩, ⟨4, 0⟩, ⟨4, 4⟩, ⟨8, 4⟩, ⟨8, 10⟩, ⟨0, 10⟩, ⟨0, 0⟩]).bind fun p => (lineQ [⟨-2, 4⟩, ⟨8, 4⟩]).bind fun l => geoTouches parQ l p) = some true ∧
    ((polyQ [⟨8, 4⟩, ⟨8, 10⟩, ⟨0, 10⟩, ⟨0, 0⟩, ⟨4, 0⟩, ⟨4, 4⟩, ⟨8, 4⟩]).bind fun p => (lineQ [⟨-2, 4⟩, ⟨8, 4⟩]).bind fun l => geoTouches parQ l p) = some false := by
  constructor <;> decide +kernel

/-- The line is between the arms of a U, with its ends on them. It touches, and the answer is false. -/
theorem C77_both_ends :
    ((polyQ [⟨0, 0⟩, ⟨10, 0⟩, ⟨10, 10⟩, ⟨7, 10⟩, ⟨7, 3⟩, ⟨3, 3⟩, ⟨3, 10⟩, ⟨0, 10⟩, ⟨0, 0⟩]).bind fun p => (lineQ [⟨3, 5⟩, ⟨7, 5⟩]).bind fun l =>
      geoTouches parQ l p) = some false := by
  decide +kernel

/-! ### The hypotheses are met -/

theorem S.box_simple {x0 y0 x1 y1 : K} (hx : x0 < x1) (hy : y0 < y1) : SimpleRing (boxPts x0 y0 x1 y1) := by
  have hs : segments (boxPts x0 y0 x1 y1) true =
      [⟨⟨x0, y0⟩, ⟨x1, y0⟩⟩, ⟨⟨x1, y0⟩, ⟨x1, y1⟩⟩, ⟨⟨x1, y1⟩, ⟨x0, y1⟩⟩, ⟨⟨x0, y1⟩, ⟨x0, y0⟩⟩] := by
    simp [segments, boxPts, edges]
  intro i j s t hij hi hj z hz hz'
  rw [hs] at hi hj
  have hj4 : j < 4 := by
    obtain ⟨h, -⟩ := List.getElem?_eq_some_iff.1 hj
    simpa using h
  obtain ⟨zx, zy⟩ := z
  obtain ⟨c, c0, c1, cx, cy⟩ := hz
  obtain ⟨d, d0, d1, dx, dy⟩ := hz'
  have hi4 : i < 3 := by omega
  interval_cases i <;> interval_cases j <;> first | omega | skip
  all_goals
    simp only [List.getElem?_cons_zero, List.getElem?_cons_succ, Option.some.injEq] at hi hj
    subst hi hj
    simp only [sub_self, mul_zero, add_zero] at cx cy dx dy
    first
      | exact absurd (cx.symm.trans dx) (by first | exact hx.ne | exact hx.ne')
      | exact absurd (cy.symm.trans dy) (by first | exact hy.ne | exact hy.ne')
      | (simp only [boxPts, List.mem_cons, Pt.mk.injEq, List.not_mem_nil, or_false]; tauto)

/-- A line that ends on the side of a square touches it. -/
example (ns : List (Pt ℚ) → Nat) : ∃ ε₀ > 0, ∀ ε, 0 < ε → ε ≤ ε₀ → ∀ (fuel : Nat) (q l : Atom ℚ ℚ),
    AShape.Is ε ns (.poly ⟨Env.initial, 0#32, boxPts 0 0 10 10⟩ []) q → AShape.Is ε ns (.line ⟨Env.initial, 0#32, [⟨-5, 5⟩, ⟨0, 5⟩]⟩) l →
    geoTouches ⟨Ix.exact, exact ε ns, exactR, fuel⟩ (.atom l) (.atom q) = some true := by
  have hok : Env.initial.Ok := ⟨by decide, by decide⟩
  have line : ∀ w : Pt ℚ, AShape.Has (.line ⟨Env.initial, 0#32, [⟨-5, 5⟩, ⟨0, 5⟩]⟩) w → w.x ≤ 0 ∧ w.y = 5 := by
    rintro w ⟨t, ht, c, c0, c1, cx, cy⟩
    simp only [edges, List.tail_cons, List.zipWith_cons_cons, List.zipWith_nil_right, List.mem_singleton] at ht
    subst ht
    simp only at cx cy
    constructor <;> linarith
  obtain ⟨e, p, h⟩ := C77_line ns ⟨Env.initial, 0#32, boxPts 0 0 10 10⟩ ⟨Env.initial, 0#32, [⟨-5, 5⟩, ⟨0, 5⟩]⟩ (by simp [boxPts]) (by simp)
    (box_simple (by norm_num) (by norm_num))
    (fun v hv hw => by
      have := (line v hw).2
      simp only [boxPts, List.mem_cons, List.not_mem_nil, or_false] at hv
      rcases hv with rfl | rfl | rfl | rfl | rfl <;> norm_num at this)
    (fun t ht => by
      simp only [edges, List.tail_cons, List.zipWith_cons_cons, List.zipWith_nil_right, List.mem_singleton] at ht
      subst ht
      rintro ⟨h, -⟩
      rw [Series.segs, box_boundary (by norm_num) (by norm_num)] at h
      norm_num at h)
    (fit_small hok (by show 5 < _; decide) _)
  refine ⟨e, p, fun ε hε hle fuel q l hq hl => ?_⟩
  obtain ⟨r, k1, -, k2⟩ := h ε hε hle fuel q l hq hl
  have : r = true := by
    rw [k2]
    constructor
    · refine ⟨⟨0, 5⟩, ⟨⟨⟨-5, 5⟩, ⟨0, 5⟩⟩, by simp [edges], onSeg_right _⟩, .inl ?_, by simp⟩
      rw [Series.segs, box_boundary (by norm_num) (by norm_num)]
      norm_num
    · rintro w hw ⟨h, -⟩
      rw [Series.segs, box_inside (by norm_num) (by norm_num)] at h
      linarith [(line w hw).1, h.1]
  rw [k1, this]

/-- A square does not touch the same square made another time. -/
example (ns : List (Pt ℚ) → Nat) : ∃ ε₀ > 0, ∀ ε, 0 < ε → ε ≤ ε₀ → ∀ (fuel : Nat) (q o : Atom ℚ ℚ),
    AShape.Is ε ns (.poly ⟨Env.initial, 0#32, boxPts 0 0 10 10⟩ []) q → AShape.Is ε ns (.poly ⟨Env.initial, 0#32, boxPts 0 0 10 10⟩ []) o →
    geoTouches ⟨Ix.exact, exact ε ns, exactR, fuel⟩ (.atom o) (.atom q) = some false := by
  have hok : Env.initial.Ok := ⟨by decide, by decide⟩
  exact C77_self ns _ _ (by simp [boxPts]) (by simp [boxPts]) (fun _ => Iff.rfl) (fit_small hok (by show 5 < _; decide) _) (fit_small hok (by show 5 < _; decide) _)

end Tg
