import Verif.Lemmas.GeneralRel
import Verif.Props.PointRel
/-! Property C62: the predicates on geometries in general position, where no vertex of one is on a segment of the other. -/
namespace Tg
open S

variable {K : Type*} [Field K] [LinearOrder K] [IsStrictOrderedRing K] [FloorRing K]

theorem S.RingsSee.pair {ε : K} {ns : List (Pt K) → Nat} {a b : Shape K} (h : RingsSee ε ns a.rings b.nodes) {x y : AShape K} (hx : x ∈ a.atoms)
    (hy : y ∈ b.atoms) : RingsSee ε ns x.rings y.nodes :=
  h.mono (fun _ hs => List.mem_flatMap.2 ⟨x, hx, hs⟩) fun _ hp => List.mem_flatMap.2 ⟨y, hy, hp⟩

theorem S.AShape.verts_nodes {x : AShape K} {p : Pt K} (h : p ∈ x.verts) : p ∈ x.nodes := by
  match x, h with
  | .point _, h => exact h
  | .line _, h => exact h
  | .poly ext holes, h => exact List.mem_flatMap.2 ⟨ext, by simp, h⟩

theorem S.RingsSee.verts {ε : K} {ns : List (Pt K) → Nat} {ss : List (Series K)} {y : AShape K} (h : RingsSee ε ns ss y.nodes) : RingsSee ε ns ss y.verts :=
  h.mono (fun _ hs => hs) fun _ hp => AShape.verts_nodes hp

/-- C62. In general position, a point, line or polygon covers a geometry of any kind and nesting if and only if no part of the geometry is empty and all
of its points are in the interior of the first. The same for `contains`. -/
theorem C62_covers (ns : List (Pt K) → Nat) (H : HArith K) (Q : Qsort) (x : AShape K) (b : Shape K) (firm : x.Firm) (okb : ∀ y ∈ b.atoms, y.Ok)
    (gen : Shape.General (.atom x) b) (fa : ∀ s ∈ x.rings, Fit ns s b.nodes) (fb : ∀ s ∈ b.rings, Fit ns s x.nodes) :
    ∃ ε₀ > 0, ∀ ε, 0 < ε → ε ≤ ε₀ → ∀ (fuel : Nat) (xa : Atom K K) (gb : Geo K K), x.Is ε ns xa → b.Is ε ns H Q gb →
      ∃ r, geoCovers ⟨Ix.exact, exact ε ns, exactR, fuel⟩ (.atom xa) gb = some r ∧ geoContains ⟨Ix.exact, exact ε ns, exactR, fuel⟩ (.atom xa) gb = some r ∧
        (r = true ↔ b.NoEmpty ∧ ∀ w, b.Has w → x.Inner w) := by
  obtain ⟨e1, p1, h1⟩ := ringsSee_of ns x.rings b.nodes fa
  obtain ⟨e2, p2, h2⟩ := ringsSee_of ns b.rings x.nodes fb
  refine ⟨min e1 e2, lt_min p1 p2, fun ε hε hle fuel xa gb hx hb => ?_⟩
  let P : Par K K := ⟨Ix.exact, exact ε ns, exactR, fuel⟩
  have key : ∀ y ∈ b.atoms, ∀ yb, y.Is ε ns yb → ∃ r, atomCovers P xa yb = some r ∧ atomContains P xa yb = some r ∧
      (r = true ↔ (∃ w, y.Has w) ∧ ∀ w, y.Has w → x.Inner w) := fun y hy yb hyb =>
    atom_covers_gen rfl rfl hx hyb (okb y hy)
      ((h1 ε hε (hle.trans (min_le_left _ _))).mono (fun _ hs => hs) fun _ hp => List.mem_flatMap.2 ⟨y, hy, hp⟩)
      ((h2 ε hε (hle.trans (min_le_right _ _))).mono (fun _ hs => List.mem_flatMap.2 ⟨y, hy, hs⟩) fun _ hp => hp)
      (gen x (by simp [Shape.atoms]) y hy) rfl firm
  obtain ⟨r, k1, k2⟩ := everyGeo_iff (t := atomCovers P xa) (q := fun y => (∃ w, y.Has w) ∧ ∀ w, y.Has w → x.Inner w) hb fun y hy yb hyb => by
    obtain ⟨r, t1, -, t2⟩ := key y hy yb hyb
    exact ⟨r, t1, t2⟩
  have same : everyGeo (atomContains P xa) gb = everyGeo (atomCovers P xa) gb := everyGeo_congr hb fun y hy yb hyb => by
    obtain ⟨r, t1, t2, -⟩ := key y hy yb hyb
    rw [t1, t2]
  refine ⟨r, by rw [geoCovers, geoCov]; exact k1, by rw [geoContains, geoCov]; exact same.trans k1, ?_⟩
  rw [k2, b.noEmpty_iff, and_assoc]
  refine and_congr_right fun _ => ?_
  simp only [b.has_iff]
  constructor
  · intro h
    exact ⟨fun y hy => (h y hy).1, by rintro w ⟨y, hy, hw⟩; exact (h y hy).2 w hw⟩
  · rintro ⟨g1, g2⟩ y hy
    exact ⟨g1 y hy, fun w hw => g2 w ⟨y, hy, hw⟩⟩

/-- C62. In general position, `covers` and `contains` agree for geometries of any kind and nesting; if they answer true, then each point of the second
geometry is in the interior of a part of the first. -/
theorem C62_covers_any (ns : List (Pt K) → Nat) (H : HArith K) (Q : Qsort) (a b : Shape K) (firm : ∀ x ∈ a.atoms, x.Firm) (okb : ∀ y ∈ b.atoms, y.Ok)
    (gen : a.General b) (fa : ∀ s ∈ a.rings, Fit ns s b.nodes) (fb : ∀ s ∈ b.rings, Fit ns s a.nodes) :
    ∃ ε₀ > 0, ∀ ε, 0 < ε → ε ≤ ε₀ → ∀ (fuel : Nat) (ga gb : Geo K K), a.Is ε ns H Q ga → b.Is ε ns H Q gb →
      ∃ r, geoCovers ⟨Ix.exact, exact ε ns, exactR, fuel⟩ ga gb = some r ∧ geoContains ⟨Ix.exact, exact ε ns, exactR, fuel⟩ ga gb = some r ∧
        (r = true → ∀ w, b.Has w → ∃ x ∈ a.atoms, x.Inner w) := by
  obtain ⟨e1, p1, h1⟩ := ringsSee_of ns a.rings b.nodes fa
  obtain ⟨e2, p2, h2⟩ := ringsSee_of ns b.rings a.nodes fb
  refine ⟨min e1 e2, lt_min p1 p2, fun ε hε hle fuel ga gb ha hb => ?_⟩
  let P : Par K K := ⟨Ix.exact, exact ε ns, exactR, fuel⟩
  have key : ∀ x ∈ a.atoms, ∀ y ∈ b.atoms, ∀ xa yb, x.Is ε ns xa → y.Is ε ns yb → ∃ r, atomCovers P xa yb = some r ∧ atomContains P xa yb = some r ∧
      (r = true ↔ (∃ w, y.Has w) ∧ ∀ w, y.Has w → x.Inner w) := fun x hx y hy xa yb hxa hyb =>
    atom_covers_gen rfl rfl hxa hyb (okb y hy) ((h1 ε hε (hle.trans (min_le_left _ _))).pair hx hy) ((h2 ε hε (hle.trans (min_le_right _ _))).pair hy hx)
      (gen x hx y hy) rfl (firm x hx)
  obtain ⟨r, k1, k2⟩ := geoCov_sound (tab := atomCovers P) (R := fun x y => (∃ w, y.Has w) ∧ ∀ w, y.Has w → x.Inner w) (S := fun x w => x.Inner w)
    (fun x y h => h.2) ha hb fun x hx y hy xa yb hxa hyb => by
      obtain ⟨r, t1, -, t2⟩ := key x hx y hy xa yb hxa hyb
      exact ⟨r, t1, t2⟩
  have same : geoCov (atomContains P) ga gb = geoCov (atomCovers P) ga gb := geoCov_congr ha hb fun x hx y hy xa yb hxa hyb => by
    obtain ⟨r, t1, t2, -⟩ := key x hx y hy xa yb hxa hyb
    rw [t1, t2]
  exact ⟨r, k1, by rw [geoContains]; exact same.trans k1, k2⟩

/-- C62. `touches` answers true only if a vertex of one of the geometries is on a segment of the other: in general position the answer is false. -/
theorem C62_touches (ns : List (Pt K) → Nat) (H : HArith K) {Q : Qsort} (hQ : QsortOk Q) (a b : Shape K) (oka : ∀ x ∈ a.atoms, x.Ok) (okb : ∀ y ∈ b.atoms, y.Ok)
    (gen : a.General b) (fa : ∀ s ∈ a.rings, Fit ns s b.nodes) (fb : ∀ s ∈ b.rings, Fit ns s a.nodes) :
    ∃ ε₀ > 0, ∀ ε, 0 < ε → ε ≤ ε₀ → ∀ (fuel : Nat) (ga gb : Geo K K), a.Is ε ns H Q ga → b.Is ε ns H Q gb →
      geoTouches ⟨Ix.exact, exact ε ns, exactR, fuel⟩ gb ga = some false := by
  obtain ⟨e1, p1, h1⟩ := ringsSee_of ns a.rings b.nodes fa
  obtain ⟨e2, p2, h2⟩ := ringsSee_of ns b.rings a.nodes fb
  refine ⟨min e1 e2, lt_min p1 p2, fun ε hε hle fuel ga gb ha hb => ?_⟩
  let P : Par K K := ⟨Ix.exact, exact ε ns, exactR, fuel⟩
  have sa := h1 ε hε (hle.trans (min_le_left _ _))
  have sb := h2 ε hε (hle.trans (min_le_right _ _))
  have touch : ∀ x ∈ a.atoms, ∀ y ∈ b.atoms, ∀ xa yb, x.Is ε ns xa → y.Is ε ns yb → atomTouches P xa yb = some false := fun x hx y hy xa yb hxa hyb =>
    atom_touches_gen rfl rfl hxa hyb (okb y hy) (sa.pair hx hy) (sb.pair hy hx) (gen x hx y hy) (oka x hx)
  have meet : ∀ x ∈ a.atoms, ∀ y ∈ b.atoms, ∀ xa yb, x.Is ε ns xa → y.Is ε ns yb → ∃ r, atomX P xa yb = some r ∧ (r = true ↔ ∃ w, x.Has w ∧ y.Has w) :=
    fun x hx y hy xa yb hxa hyb => atomX_exact rfl rfl rfl hxa hyb (oka x hx) (okb y hy) (sa.pair hx hy).verts (sb.pair hy hx).verts
  obtain ⟨r, k1, k2⟩ := geoTouches_iff (P := P) (b := gb) (T := fun _ => False) (X := fun x => ∃ y ∈ b.atoms, ∃ w, x.Has w ∧ y.Has w) (fun x h => h.elim) ha
    (fun x hx xa hxa => by
      have some : ∃ r, someGeo (atomTouches P xa) gb = some r ∧ (r = true ↔ ∃ y ∈ b.atoms, False) :=
        someGeo_iff hb fun y hy yb hyb => ⟨false, touch x hx y hy xa yb hxa hyb, by simp⟩
      simp only [and_false, exists_false] at some
      cases xa with
      | point q => rw [atomTouchesGeo.eq_2 _ _ _ (by simp)]; exact some
      | line l => rw [atomTouchesGeo.eq_2 _ _ _ (by simp)]; exact some
      | poly q =>
        rw [atomTouchesGeo]
        obtain ⟨r, g1, g2⟩ := polyTouchesGeo_iff (P := P) (q := q) (T := fun _ => False) (X := fun y => ∃ w, x.Has w ∧ y.Has w) (fun y h => h.elim) hb
          (fun y hy yb hyb => ⟨false, touch x hx y hy _ yb hxa hyb, by simp⟩) (fun y hy yb hyb => meet x hx y hy _ yb hxa hyb)
        exact ⟨r, g1, g2.trans (by simp)⟩)
    (fun s' g' hs' hm => geoX_iff hQ (P := P) (q := fun x => ∃ y ∈ b.atoms, ∃ w, x.Has w ∧ y.Has w) rfl rfl hs' fun x hx xa hxa =>
      someGeo_iff hb fun y hy yb hyb => meet x (hm x hx) y hy xa yb hxa hyb)
  have : r = false := by
    rw [← Bool.not_eq_true, k2]
    rintro ⟨⟨_, _, h⟩, -⟩
    exact h
  rw [← this]
  exact k1

/-! ### What the answers are in other positions -/

/-- A square whose side is part of the side of another square, and a triangle whose apex is on the side of a square: they touch, and the answers are
false. With equal sides or a common corner the answers are right. -/
theorem C62_touches_needs_general :
    ((polyQ (boxQ 0 0 10 10)).bind fun p => (polyQ (boxQ 10 2 20 8)).bind fun q => geoTouches parQ p q) = some false ∧
    ((polyQ [⟨-5, 0⟩, ⟨5, 0⟩, ⟨0, 10⟩, ⟨-5, 0⟩]).bind fun p => (polyQ (boxQ (-5) 10 5 20)).bind fun q => geoTouches parQ p q) = some false ∧
    ((polyQ (boxQ 0 0 10 10)).bind fun p => (polyQ (boxQ 10 0 20 10)).bind fun q => geoTouches parQ p q) = some true ∧
    ((polyQ (boxQ 0 0 10 10)).bind fun p => (polyQ (boxQ 10 10 20 20)).bind fun q => geoTouches parQ p q) = some true := by
  refine ⟨?_, ?_, ?_, ?_⟩ <;> decide +kernel

/-- A line through the apex of a triangle touches it: the answer is true only if the apex is a vertex of the line. -/
theorem C62_line_touches_needs_general :
    ((polyQ [⟨-5, 0⟩, ⟨5, 0⟩, ⟨0, 10⟩, ⟨-5, 0⟩]).bind fun p => (lineQ [⟨-5, 10⟩, ⟨5, 10⟩]).bind fun l => geoTouches parQ l p) = some false ∧
    ((polyQ [⟨-5, 0⟩, ⟨5, 0⟩, ⟨0, 10⟩, ⟨-5, 0⟩]).bind fun p => (lineQ [⟨-5, 10⟩, ⟨0, 10⟩, ⟨5, 10⟩]).bind fun l => geoTouches parQ l p) = some true := by
  refine ⟨?_, ?_⟩ <;> decide +kernel

/-- A square fills the hole of another: the answer is that it is covered. -/
theorem C62_covers_needs_general :
    ((holedQ (boxQ 0 0 10 10) (boxQ 4 4 6 6)).bind fun p => (polyQ (boxQ 4 4 6 6)).bind fun q => geoCovers parQ p q) = some true := by
  decide +kernel

/-- A line that goes along the side of a square and then into it is covered, and by the usual definition it is contained; the answer for `contains` is
false. A line on the side only is covered and not contained. -/
theorem C62_contains_needs_general :
    ((polyQ (boxQ 0 0 10 10)).bind fun p => (lineQ [⟨2, 0⟩, ⟨5, 0⟩, ⟨5, 5⟩]).bind fun l => geoCovers parQ p l) = some true ∧
    ((polyQ (boxQ 0 0 10 10)).bind fun p => (lineQ [⟨2, 0⟩, ⟨5, 0⟩, ⟨5, 5⟩]).bind fun l => geoContains parQ p l) = some false ∧
    ((polyQ (boxQ 0 0 10 10)).bind fun p => (lineQ [⟨2, 0⟩, ⟨5, 0⟩]).bind fun l => geoCovers parQ p l) = some true ∧
    ((polyQ (boxQ 0 0 10 10)).bind fun p => (lineQ [⟨2, 0⟩, ⟨5, 0⟩]).bind fun l => geoContains parQ p l) = some false := by
  refine ⟨?_, ?_, ?_, ?_⟩ <;> decide +kernel

/-! ### The hypotheses are met -/

/-- The square with a hole, and a frame around the hole in a collection. -/
def S.holedX : AShape ℚ := .poly ⟨Env.initial, 0#32, boxPts 0 0 10 10⟩ [⟨Env.initial, 0#32, boxPts 4 4 6 6⟩]
def S.frameX : AShape ℚ := .poly ⟨Env.initial, 0#32, boxPts 1 1 9 9⟩ [⟨Env.initial, 0#32, boxPts 3 3 7 7⟩]

theorem S.frames_general : holedX.General frameX := by
  have side : ∀ {x0 y0 x1 y1 u0 v0 u1 v1 : ℚ}, x0 < x1 → y0 < y1 → u0 < u1 → v0 < v1 → ∀ p : Pt ℚ,
      OnBoundary (AShape.sides (.poly ⟨Env.initial, 0#32, boxPts x0 y0 x1 y1⟩ [⟨Env.initial, 0#32, boxPts u0 v0 u1 v1⟩])) p →
      OnBoundary (segments (boxPts x0 y0 x1 y1) true) p ∨ OnBoundary (segments (boxPts u0 v0 u1 v1) true) p := by
    rintro x0 y0 x1 y1 u0 v0 u1 v1 - - - - p ⟨t, ht, hp⟩
    simp only [AShape.sides, List.flatMap_cons, List.flatMap_nil, List.append_nil, List.mem_append, Series.segs] at ht
    rcases ht with ht | ht
    · exact .inl ⟨t, ht, hp⟩
    · exact .inr ⟨t, ht, hp⟩
  constructor
  · intro p hp h
    have h := side (by norm_num) (by norm_num) (by norm_num) (by norm_num) p h
    rw [box_boundary (by norm_num) (by norm_num), box_boundary (by norm_num) (by norm_num)] at h
    simp only [holedX, AShape.nodes, boxPts, List.flatMap_cons, List.flatMap_nil, List.append_nil, List.mem_append, List.mem_cons, List.not_mem_nil,
      or_false] at hp
    rcases hp with (rfl | rfl | rfl | rfl | rfl) | rfl | rfl | rfl | rfl | rfl <;> norm_num at h
  · intro p hp h
    have h := side (by norm_num) (by norm_num) (by norm_num) (by norm_num) p h
    rw [box_boundary (by norm_num) (by norm_num), box_boundary (by norm_num) (by norm_num)] at h
    simp only [frameX, AShape.nodes, boxPts, List.flatMap_cons, List.flatMap_nil, List.append_nil, List.mem_append, List.mem_cons, List.not_mem_nil,
      or_false] at hp
    rcases hp with (rfl | rfl | rfl | rfl | rfl) | rfl | rfl | rfl | rfl | rfl <;> norm_num at h

/-- The frame is covered and contained, and not touched. -/
example (ns : List (Pt ℚ) → Nat) : ∃ ε₀ > 0, ∀ ε, 0 < ε → ε ≤ ε₀ → ∀ (fuel : Nat) (xa : Atom ℚ ℚ) (gb : Geo ℚ ℚ), holedX.Is ε ns xa →
    (Shape.coll [.atom frameX]).Is ε ns exactH insertionQsort gb →
    geoCovers ⟨Ix.exact, exact ε ns, exactR, fuel⟩ (.atom xa) gb = some true ∧ geoContains ⟨Ix.exact, exact ε ns, exactR, fuel⟩ (.atom xa) gb = some true ∧
    geoTouches ⟨Ix.exact, exact ε ns, exactR, fuel⟩ gb (.atom xa) = some false := by
  have hok : Env.initial.Ok := ⟨by decide, by decide⟩
  have okx : holedX.Ok := polyOk_boxes (by norm_num) (by norm_num) (by norm_num) (by norm_num) (by norm_num) (by norm_num)
  have oky : frameX.Ok := polyOk_boxes (by norm_num) (by norm_num) (by norm_num) (by norm_num) (by norm_num) (by norm_num)
  have firm : holedX.Firm := ⟨fun _ => box_convex (by norm_num) (by norm_num), (box_convex (by norm_num) (by norm_num)).escapes⟩
  have fx : ∀ ps, ∀ s ∈ holedX.rings, Fit ns s ps := by
    intro ps s hs
    simp only [holedX, AShape.rings, List.mem_cons, List.not_mem_nil, or_false] at hs
    rcases hs with rfl | rfl <;> exact fit_small hok (by show 5 < _; decide) _
  have fy : ∀ ps, ∀ s ∈ frameX.rings, Fit ns s ps := by
    intro ps s hs
    simp only [frameX, AShape.rings, List.mem_cons, List.not_mem_nil, or_false] at hs
    rcases hs with rfl | rfl <;> exact fit_small hok (by show 5 < _; decide) _
  have atoms : (Shape.coll [.atom frameX]).atoms = [frameX] := rfl
  have rings : (Shape.coll [.atom frameX]).rings = frameX.rings := by rw [Shape.rings, atoms]; simp
  have gen : Shape.General (.atom holedX) (.coll [.atom frameX]) := by
    intro x hx y hy
    rw [atoms] at hy
    rw [List.mem_singleton.1 hy, show x = holedX by simpa [Shape.atoms] using hx]
    exact frames_general
  have okb : ∀ y ∈ (Shape.coll [.atom frameX]).atoms, y.Ok := by
    intro y hy
    rw [atoms] at hy
    rw [List.mem_singleton.1 hy]
    exact oky
  obtain ⟨e1, p1, h1⟩ := C62_covers ns exactH insertionQsort holedX (.coll [.atom frameX]) firm okb gen (fx _) (by rw [rings]; exact fy _)
  obtain ⟨e2, p2, h2⟩ := C62_touches ns exactH insertionQsort_ok (.atom holedX) (.coll [.atom frameX])
    (by intro x hx; rw [show x = holedX by simpa [Shape.atoms] using hx]; exact okx) okb gen
    (by intro s hs; exact fx _ s (by simpa [Shape.rings, Shape.atoms] using hs)) (by rw [rings]; exact fy _)
  refine ⟨min e1 e2, lt_min p1 p2, fun ε hε hle fuel xa gb hx hb => ?_⟩
  obtain ⟨r, k1, k2, k3⟩ := h1 ε hε (hle.trans (min_le_left _ _)) fuel xa gb hx hb
  have hr : r = true := by
    rw [k3]
    constructor
    · simp only [Shape.NoEmpty, Shape.AllNoEmpty, ne_eq, List.cons_ne_nil, not_false_eq_true, and_true, true_and]
      refine ⟨⟨2, 2⟩, ?_, ?_⟩
      · rw [Series.segs, InRegion, box_inside (by norm_num) (by norm_num)]
        right; norm_num
      · simp only [List.mem_singleton, forall_eq]
        rw [Series.segs, box_inside (by norm_num) (by norm_num)]
        norm_num
    · intro w hw
      simp only [Shape.Has, Shape.SomeHas, or_false] at hw
      obtain ⟨g1, g2⟩ := hw
      simp only [List.mem_singleton, forall_eq] at g2
      rw [Series.segs, box_inside (by norm_num) (by norm_num)] at g2
      rw [Series.segs, InRegion, box_inside (by norm_num) (by norm_num), box_boundary (by norm_num) (by norm_num)] at g1
      have bx : 1 ≤ w.x ∧ w.x ≤ 9 ∧ 1 ≤ w.y ∧ w.y ≤ 9 := by
        rcases g1 with h | h
        · exact h.1
        · exact ⟨h.1.le, h.2.1.le, h.2.2.1.le, h.2.2.2.le⟩
      obtain ⟨b1, b2, b3, b4⟩ := bx
      constructor
      · rw [Series.segs, box_inside (by norm_num) (by norm_num)]
        exact ⟨by linarith, by linarith, by linarith, by linarith⟩
      · simp only [List.mem_singleton, forall_eq]
        rw [Series.segs, InRegion, box_inside (by norm_num) (by norm_num), box_boundary (by norm_num) (by norm_num)]
        intro h
        have : 4 ≤ w.x ∧ w.x ≤ 6 ∧ 4 ≤ w.y ∧ w.y ≤ 6 := by
          rcases h with h | h
          · exact h.1
          · exact ⟨h.1.le, h.2.1.le, h.2.2.1.le, h.2.2.2.le⟩
        exact g2 ⟨by linarith [this.1], by linarith [this.2.1], by linarith [this.2.2.1], by linarith [this.2.2.2]⟩
  subst hr
  have hx' : (Shape.atom holedX).Is ε ns exactH insertionQsort (.atom xa) := by rw [Shape.Is]; exact hx
  have := h2 ε hε (hle.trans (min_le_right _ _)) fuel (.atom xa) gb hx' hb
  exact ⟨k1, k2, this⟩

end Tg
