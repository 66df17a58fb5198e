import Verif.Lemmas.MarginAny
import Verif.Props.MarginCovers
import Verif.Props.Predicates
/-!
C88: `tg_geom_covers`, `tg_geom_contains`, `tg_geom_within` and `tg_geom_coveredby` for two geometries of any kind and nesting, with coordinates that are
any doubles of usual size, in general position. C86 has a polygon as the first one. A collection is asked part by part: the answer is never true without
reason, and it is true if one part alone is enough. If several parts are needed for one part of the second geometry, the answer is false
(`C88_union_missed`).
-/
namespace Tg

open S Spec.Double Double

section
variable {F : Fp} (hF : Rounding F.rnd) {M : ℚ} (hM : M ≤ 2 ^ 100)
include hF hM
variable {q : ℚ → ℚ} (hq : Spec.Float32.Rounding q) (hn : ∀ pts, F.ns pts < 2 ^ 31) {H : HArith ℚ} {Q : Qsort} {a b : Shape ℚ} {ga gb : Geo ℚ ℚ}
  (ha : a.By (F.maker (F.ix32 q)) H Q ga) (hb : b.By (F.maker (F.ix32 q)) H Q gb) (sa : ∀ x ∈ a.atoms, x.Firmly M) (firm : ∀ x ∈ a.atoms, x.Firm)
  (okb : ∀ y ∈ b.atoms, y.Ok) (sb : ∀ y ∈ b.atoms, y.Sound M) (away : ∀ x ∈ a.atoms, ∀ y ∈ b.atoms, x.Away M y)
include hq hn ha hb sa firm okb sb away

/-- C88. `covers` and `contains` agree. If they answer true, then each point of the second geometry is in the interior of a part of the first. They
answer true if no part of the second geometry is empty and all of it is in the interior of one part of the first. -/
theorem C88_covers (fuel : Nat) :
    ∃ r, geoCovers ⟨F.ix32 q, F.arith, F.rarith, fuel⟩ ga gb = some r ∧ geoContains ⟨F.ix32 q, F.arith, F.rarith, fuel⟩ ga gb = some r ∧
      (r = true → ∀ w, b.Has w → ∃ x ∈ a.atoms, x.Inner w) ∧ ((b.NoEmpty ∧ ∃ x ∈ a.atoms, ∀ w, b.Has w → x.Inner w) → r = true) :=
  covers_any_far hF hM (plain_fits hF hq).lawful hn ha hb sa firm okb sb away

/-- C88. The same for `within` and `coveredby`, exchanged. -/
theorem C88_within (fuel : Nat) :
    ∃ r, geoWithin ⟨F.ix32 q, F.arith, F.rarith, fuel⟩ gb ga = some r ∧ geoCoveredBy ⟨F.ix32 q, F.arith, F.rarith, fuel⟩ gb ga = some r ∧
      (r = true → ∀ w, b.Has w → ∃ x ∈ a.atoms, x.Inner w) ∧ ((b.NoEmpty ∧ ∃ x ∈ a.atoms, ∀ w, b.Has w → x.Inner w) → r = true) := by
  obtain ⟨r, h1, h2, h3⟩ := C88_covers hF hM hq hn ha hb sa firm okb sb away fuel
  exact ⟨r, h2, h1, h3⟩

/-- C88. The first geometry has points and lines only: no vertex is on a line, so each part of the second that is not empty has a vertex equal to a point of the first. -/
theorem C88_thin (thin : ∀ x ∈ a.atoms, ∀ e hs, x ≠ .poly e hs) (fuel : Nat) (h : geoCovers ⟨F.ix32 q, F.arith, F.rarith, fuel⟩ ga gb = some true) :
    ∀ y ∈ b.atoms, (∃ w, y.Has w) → ∃ p ∈ y.nodes, .point p ∈ a.atoms := by
  obtain ⟨r, h1, -, h3, -⟩ := C88_covers hF hM hq hn ha hb sa firm okb sb away fuel
  have hr : r = true := Option.some.inj (h1.symm.trans h)
  rintro y hy ⟨w, hw⟩
  obtain ⟨v, hv, hh⟩ := AShape.has_node (okb y hy) hw
  obtain ⟨x, hx, hi⟩ := h3 hr v ((b.has_iff v).2 ⟨y, hy, hh⟩)
  refine ⟨v, hv, ?_⟩
  match x, hx, hi with
  | .point p, hx, hi =>
    rw [show v = p from hi]
    exact hx
  | .line s, hx, hi => exact absurd hi.1 ((away _ hx y hy).general.2 v hv)
  | .poly e hs, hx, _ => exact absurd rfl (thin _ hx e hs)

end

/-- Two squares that overlap and a line through both: each point of it is in the interior of one of them, and the answer is false. -/
theorem C88_union_missed : ((polyQ (boxQ 0 0 10 10)).bind fun p => (polyQ (boxQ 8 1 20 9)).bind fun q => (collQ [p, q]).bind fun g =>
    (lineQ [⟨1, 5⟩, ⟨18, 6⟩]).bind fun l => geoCovers parQ g l) = some false ∧
    ∀ w, OnSeg ⟨⟨1, 5⟩, ⟨18, 6⟩⟩ w → Inside (segments (boxPts (0 : ℚ) 0 10 10) true) w ∨ Inside (segments (boxPts (8 : ℚ) 1 20 9) true) w := by
  refine ⟨by decide +kernel, ?_⟩
  rintro w ⟨t, t0, t1, hx, hy⟩
  dsimp only at hx hy
  rcases le_total t (1 / 2) with h | h
  · exact .inl ((box_inside (by norm_num) (by norm_num) w).2 ⟨by linarith, by linarith, by linarith, by linarith⟩)
  · exact .inr ((box_inside (by norm_num) (by norm_num) w).2 ⟨by linarith, by linarith, by linarith, by linarith⟩)

/-! ### Examples -/

/-- A point that is far from the triangle and the line. -/
def S.farPt : Pt ℚ := ⟨100, 7⟩

set_option maxRecDepth 100000 in
theorem S.far_tri : (AShape.point farPt).Away 180 triA := by
  have o : ∀ t ∈ segments tri true, Off 180 t farPt := by decide +kernel
  have tsides : triA.sides = segments tri true := by simp [triA, AShape.sides, Series.segs]
  refine ⟨⟨fun _ _ => trivial, ?_, by simp [AShape.sides], ⟨?_, ?_⟩⟩, fun _ _ _ _ h => by cases h⟩
  · intro p hp s hs
    rw [List.mem_singleton.1 hs, List.mem_singleton.1 hp]
    refine ringClear_of (hi := ⟨6192449487634432 / 2 ^ 50, 8669429282688205 / 2 ^ 50⟩) (lo := ⟨3602879701896397 / 2 ^ 55, 3602879701896397 / 2 ^ 54⟩)
      ⟨by decide, by decide +kernel⟩ tri_usual o (by simp [tri]) (by simp [tri]) ?_ ?_
    · show ∀ v ∈ tri, _
      decide +kernel
    · decide +kernel
  · rintro p hp ⟨t, ht, h⟩
    rw [List.mem_singleton.1 hp] at h
    rw [tsides] at ht
    exact (o t ht).not_on (by norm_num) h
  · rintro p hp ⟨t, ht, h⟩
    simp [AShape.sides] at ht

set_option maxRecDepth 100000 in
theorem S.far_spoke (us : spoke.Sound 180) : (AShape.point farPt).Away 180 spoke := by
  have o : ∀ t ∈ edges [inTri, ⟨17, 16⟩], Off 180 t farPt := by decide +kernel
  refine ⟨⟨fun _ _ => trivial, ?_, by simp [AShape.sides], ⟨?_, ?_⟩⟩, fun _ _ _ _ h => by cases h⟩
  · intro p hp
    rw [List.mem_singleton.1 hp]
    exact ⟨us, fun t ht => .inl (o t ht)⟩
  · rintro p hp ⟨t, ht, h⟩
    rw [List.mem_singleton.1 hp] at h
    exact (o t ht).not_on (by norm_num) h
  · rintro p hp ⟨t, ht, h⟩
    simp [AShape.sides] at ht

set_option maxRecDepth 100000 in
/-- There are roundings, and a collection of a point and the square, and one of the triangle and the line, can be made. The first covers the second, by
the square alone; the second does not cover the first. -/
example : ∃ (F : Fp) (q : ℚ → ℚ), Rounding F.rnd ∧ Spec.Float32.Rounding q ∧ (∀ pts, F.ns pts < 2 ^ 31) ∧
    ∀ (H : HArith ℚ) (Q : Qsort) (fuel : Nat), ∃ ga gb : Geo ℚ ℚ,
      (Shape.coll [.atom (.point farPt), .coll [.atom plateA]]).By (F.maker (F.ix32 q)) H Q ga ∧
      (Shape.coll [.atom triA, .atom spoke]).By (F.maker (F.ix32 q)) H Q gb ∧
      geoCovers ⟨F.ix32 q, F.arith, F.rarith, fuel⟩ ga gb = some true ∧ geoContains ⟨F.ix32 q, F.arith, F.rarith, fuel⟩ ga gb = some true := by
  obtain ⟨rnd, h, -⟩ := Double.exists_rounding
  obtain ⟨q, hq⟩ := Float32.exists_rounding
  let F : Fp := ⟨rnd, fun _ => 0, fun _ => 0⟩
  have hn : ∀ pts, F.ns pts < 2 ^ 31 := fun _ => by norm_num [F]
  refine ⟨F, q, h, hq, hn, fun H Q fuel => ?_⟩
  have hF : Rounding F.rnd := h
  have hM : (180 : ℚ) ≤ 2 ^ 100 := by norm_num
  have hok : Env.initial.Ok := ⟨by decide, by decide⟩
  have ring : ∀ pts : List (Pt ℚ), (kindsOf Env.initial pts.length true 0#32).2 ≠ true →
      ∃ r : FRing ℚ ℚ, FBy (F.maker (F.ix32 q)) ⟨Env.initial, 0#32, pts⟩ r := by
    intro pts hp
    obtain ⟨o, ho⟩ := F.orient_some pts
    obtain ⟨r, hr⟩ := C24_built (plain_fits hF hq).lawful F.arith hok pts true 0#32 fun hk => absurd hk hp
    refine ⟨⟨r, o.convex, o.clockwise⟩, hok, hr, ?_, ?_⟩ <;> (show (F.orient _).map _ = _; rw [ho]; rfl)
  obtain ⟨r1, h1⟩ := ring (boxPts (-20) (-20) 20 20) (by show (kindsOf Env.initial 5 true 0#32).2 ≠ true; decide)
  obtain ⟨r2, h2⟩ := ring (boxPts (-15) (-15) (-5) (-5)) (by show (kindsOf Env.initial 5 true 0#32).2 ≠ true; decide)
  obtain ⟨r3, h3⟩ := ring tri (by show (kindsOf Env.initial 4 true 0#32).2 ≠ true; decide)
  obtain ⟨l, hl⟩ := C24_built (plain_fits hF hq).lawful F.arith hok [inTri, ⟨17, 16⟩] false 0#32 fun hk => absurd hk (by decide)
  let mk : List (Geo ℚ ℚ) → Geo ℚ ℚ := fun gs => .multi false gs (inflateRect (gs.map Geo.rect)) none []
  let gp : Geo ℚ ℚ := .atom (.poly (.poly r1 [r2]))
  have hp : plateA.By (F.maker (F.ix32 q)) (.poly (.poly r1 [r2])) := ⟨h1, .cons h2 .nil⟩
  have ha : (Shape.coll [.atom (.point farPt), .coll [.atom plateA]]).By (F.maker (F.ix32 q)) H Q (mk [.atom (.point farPt), mk [gp]]) := by
    refine ⟨by simp, rfl, rfl, ⟨?_, trivial⟩⟩
    exact ⟨by simp, rfl, hp, trivial⟩
  have hb : (Shape.coll [.atom triA, .atom spoke]).By (F.maker (F.ix32 q)) H Q (mk [.atom (.poly (.ring r3)), .atom (.line l)]) :=
    ⟨by simp, rfl, ⟨rfl, h3⟩, ⟨hok, hl⟩, trivial⟩
  have atomsA : (Shape.coll [.atom (.point farPt), .coll [.atom plateA]]).atoms = [.point farPt, plateA] := by simp [Shape.atoms, Shape.allAtoms]
  have atomsB : (Shape.coll [.atom triA, .atom spoke]).atoms = [triA, spoke] := by simp [Shape.atoms, Shape.allAtoms]
  have two : ∀ {p : AShape ℚ → Prop} {x y : AShape ℚ}, p x → p y → ∀ z ∈ [x, y], p z := fun {p x y} h1 h2 z hz => by
    simp only [List.mem_cons, List.not_mem_nil, or_false] at hz
    rcases hz with rfl | rfl
    exacts [h1, h2]
  have u := fun n hn => usual_small (n := n) hn
  have u1 := u 17 (by norm_num)
  have u2 := u 16 (by norm_num)
  have u3 := u 100 (by norm_num)
  have u4 := u 7 (by norm_num)
  push_cast at u1 u2 u3 u4
  have aw := plate_line (v := ⟨17, 16⟩) ⟨u1, u2⟩ (by decide +kernel) (by decide +kernel) (by norm_num)
  obtain ⟨r, k1, k2, -, k4⟩ := C88_covers hF hM hq hn ha hb (by rw [atomsA]; exact two ⟨u3, u4⟩ plate_sound.1) (by rw [atomsA]; exact two trivial plate_sound.2)
    (by rw [atomsB]; exact two tri_sound.2 trivial) (by rw [atomsB]; exact two tri_sound.1 aw.2)
    (by rw [atomsA, atomsB]; exact two (two far_tri (far_spoke aw.2)) (two plate_tri aw.1)) fuel
  -- points with coordinates between 0 and 18 are in the interior
  have inner : ∀ w : Pt ℚ, (⟨⟨0, 0⟩, ⟨18, 18⟩⟩ : Rect ℚ).Has w → plateA.Inner w := by
    rintro w ⟨w1, w2, w3, w4⟩
    dsimp only at w1 w2 w3 w4
    refine ⟨(box_inside (by norm_num) (by norm_num) _).2 ⟨by linarith, by linarith, by linarith, by linarith⟩, fun h hh hr => ?_⟩
    rw [List.mem_singleton.1 hh] at hr
    have := region_rect (l := boxPts (-15 : ℚ) (-15) (-5) (-5)) (r := ⟨⟨-15, -15⟩, ⟨-5, -5⟩⟩) rfl
      (by show ∀ v ∈ boxPts (-15 : ℚ) (-15) (-5) (-5), _ ∧ _ ∧ _ ∧ _; decide +kernel) (p := w) hr
    have := this.2.1
    dsimp only at this
    linarith
  have hr : r = true := by
    refine k4 ⟨(Shape.noEmpty_iff _).2 ⟨by simp [Shape.Solid, Shape.AllSolid], ?_⟩, plateA, by rw [atomsA]; simp, fun w hw => inner w ?_⟩
    · rw [atomsB]
      refine two ⟨inTri, .inr ?_, by simp⟩ ⟨inTri, ⟨inTri, ⟨17, 16⟩⟩, by simp [edges], onSeg_left _⟩
      show Inside (segments tri true) inTri
      rw [← insideB_iff]
      decide +kernel
    · obtain ⟨y, hy, hw⟩ := (Shape.has_iff _ w).1 hw
      rw [atomsB] at hy
      simp only [List.mem_cons, List.not_mem_nil, or_false] at hy
      rcases hy with rfl | rfl
      · have : segments tri true = edges tri := by decide +kernel
        refine region_rect (l := tri) (by decide +kernel) (by show ∀ v ∈ tri, _ ∧ _ ∧ _ ∧ _; decide +kernel) ?_
        rw [← this]
        exact hw.1
      · obtain ⟨t, ht, hw⟩ := hw
        simp only [edges, List.mem_cons, List.not_mem_nil, or_false] at ht
        rw [ht] at hw
        obtain ⟨h1, h2, h3, h4⟩ := onSeg_rect hw
        have e : (0 : ℚ) ≤ inTri.x ∧ inTri.x ≤ 17 ∧ 0 ≤ inTri.y ∧ inTri.y ≤ 16 := by decide +kernel
        have g1 := min_le_iff.1 h1
        have g2 := le_max_iff.1 h2
        have g3 := min_le_iff.1 h3
        have g4 := le_max_iff.1 h4
        dsimp only at g1 g2 g3 g4
        refine ⟨?_, ?_, ?_, ?_⟩ <;> dsimp only
        · rcases g1 with g | g <;> linarith [e.1]
        · rcases g2 with g | g <;> linarith [e.2.1]
        · rcases g3 with g | g <;> linarith [e.2.2.1]
        · rcases g4 with g | g <;> linarith [e.2.2.2]
  rw [hr] at k1 k2
  exact ⟨_, _, ha, hb, k1, k2⟩

end Tg
