import Verif.Lemmas.MarginMulti
import Verif.Props.MarginAny
/-!
C90: `tg_geom_covers`, `contains`, `within` and `coveredby`, exactly, where the second geometry is a point, line or polygon or a collection of them (as are
MultiPoint, MultiLineString and MultiPolygon), and the first is of any kind and nesting. Doubles of usual size in general position, as in C88.
-/
namespace Tg

open S Spec.Double Double

section
variable {F : Fp} (hF : Rounding F.rnd) {M : ℚ} (hM : M ≤ 2 ^ 100)
include hF hM
variable {q : ℚ → ℚ} (hq : Spec.Float32.Rounding q) (hn : ∀ pts, F.ns pts < 2 ^ 31) {H : HArith ℚ} {Q : Qsort} {a : Shape ℚ} {ga gb : Geo ℚ ℚ}
  (ha : a.By (F.maker (F.ix32 q)) H Q ga) (sa : ∀ x ∈ a.atoms, x.Firmly M) (firm : ∀ x ∈ a.atoms, x.Firm)
include hq hn ha sa firm

/-- C90. A geometry covers a point, line or polygon if and only if all of it is in the interior of one of the parts. -/
theorem C90_one {y : AShape ℚ} (hb : (Shape.atom y).By (F.maker (F.ix32 q)) H Q gb) (hw : ∃ w, y.Has w) (okb : y.Ok) (sb : y.Sound M)
    (away : ∀ x ∈ a.atoms, x.Away M y) (fuel : Nat) :
    ∃ r, geoCovers ⟨F.ix32 q, F.arith, F.rarith, fuel⟩ ga gb = some r ∧ geoContains ⟨F.ix32 q, F.arith, F.rarith, fuel⟩ ga gb = some r ∧
      (r = true ↔ ∃ x ∈ a.atoms, ∀ w, y.Has w → x.Inner w) :=
  covers_one_far hF hM (plain_fits hF hq).lawful hn ha hb hw sa firm okb sb away

/-- C90. A geometry covers a collection of points, lines and polygons, none of them empty, if and only if each of them is in the interior of one of the
parts. -/
theorem C90_multi {ys : List (AShape ℚ)} (hb : (Shape.coll (ys.map .atom)).By (F.maker (F.ix32 q)) H Q gb) (hy : ys ≠ []) (hw : ∀ y ∈ ys, ∃ w, y.Has w)
    (okb : ∀ y ∈ ys, y.Ok) (sb : ∀ y ∈ ys, y.Sound M) (away : ∀ x ∈ a.atoms, ∀ y ∈ ys, x.Away M y) (fuel : Nat) :
    ∃ r, geoCovers ⟨F.ix32 q, F.arith, F.rarith, fuel⟩ ga gb = some r ∧ geoContains ⟨F.ix32 q, F.arith, F.rarith, fuel⟩ ga gb = some r ∧
      (r = true ↔ ∀ y ∈ ys, ∃ x ∈ a.atoms, ∀ w, y.Has w → x.Inner w) :=
  covers_multi_far hF hM (plain_fits hF hq).lawful hn ha hb hy hw sa firm okb sb away

/-- C90. The same for `within` and `coveredby`. -/
theorem C90_within {ys : List (AShape ℚ)} (hb : (Shape.coll (ys.map .atom)).By (F.maker (F.ix32 q)) H Q gb) (hy : ys ≠ []) (hw : ∀ y ∈ ys, ∃ w, y.Has w)
    (okb : ∀ y ∈ ys, y.Ok) (sb : ∀ y ∈ ys, y.Sound M) (away : ∀ x ∈ a.atoms, ∀ y ∈ ys, x.Away M y) (fuel : Nat) :
    ∃ r, geoWithin ⟨F.ix32 q, F.arith, F.rarith, fuel⟩ gb ga = some r ∧ geoCoveredBy ⟨F.ix32 q, F.arith, F.rarith, fuel⟩ gb ga = some r ∧
      (r = true ↔ ∀ y ∈ ys, ∃ x ∈ a.atoms, ∀ w, y.Has w → x.Inner w) := by
  obtain ⟨r, h1, h2, h3⟩ := C90_multi hF hM hq hn ha sa firm hb hy hw okb sb away fuel
  exact ⟨r, h2, h1, h3⟩

end

/-! ### Examples -/

theorem S.far_far : (AShape.point farPt).Away 180 (.point farPt) :=
  ⟨⟨fun _ _ => trivial, fun _ _ => trivial, by simp [AShape.sides], ⟨by simp [AShape.sides, OnBoundary], by simp [AShape.sides, OnBoundary]⟩⟩, fun _ _ _ _ h => by cases h⟩

set_option maxRecDepth 100000 in
theorem S.plate_far : plateA.Away 180 (.point farPt) := by
  have o : ∀ t ∈ plateSides, Off 180 t farPt := by decide +kernel
  refine ⟨⟨?_, fun _ _ => trivial, by simp [AShape.sides], ⟨?_, ?_⟩⟩, fun _ _ _ _ _ h => by cases h⟩
  · intro p hp
    rw [List.mem_singleton.1 hp]
    exact plate_clear o (.inr (by decide +kernel))
  · rintro p hp ⟨t, ht, h⟩
    simp [AShape.sides] at ht
  · rintro p hp ⟨t, ht, h⟩
    rw [List.mem_singleton.1 hp] at h
    rw [plate_sides] at ht
    exact (o t ht).not_on (by norm_num) h

set_option maxRecDepth 100000 in
/-- There are roundings, and a collection of a point and the square, and one of the triangle and the same point, can be made. The first covers the
second: the triangle is in the square, and the point is that of the first. No part alone is enough. -/
example : ∃ (F : Fp) (q : ℚ → ℚ), Rounding F.rnd ∧ Spec.Float32.Rounding q ∧ (∀ pts, F.ns pts < 2 ^ 31) ∧
    ∀ (H : HArith ℚ) (Q : Qsort) (fuel : Nat), ∃ ga gb : Geo ℚ ℚ,
      (Shape.coll [.atom (.point farPt), .coll [.atom plateA]]).By (F.maker (F.ix32 q)) H Q ga ∧
      (Shape.coll ([triA, .point farPt].map .atom)).By (F.maker (F.ix32 q)) H Q gb ∧
      geoCovers ⟨F.ix32 q, F.arith, F.rarith, fuel⟩ ga gb = some true ∧ geoContains ⟨F.ix32 q, F.arith, F.rarith, fuel⟩ ga gb = some true := by
  obtain ⟨rnd, h, -⟩ := Double.exists_rounding
  obtain ⟨q, hq⟩ := Float32.exists_rounding
  let F : Fp := ⟨rnd, fun _ => 0, fun _ => 0⟩
  have hn : ∀ pts, F.ns pts < 2 ^ 31 := fun _ => by norm_num [F]
  refine ⟨F, q, h, hq, hn, fun H Q fuel => ?_⟩
  have hF : Rounding F.rnd := h
  have hM : (180 : ℚ) ≤ 2 ^ 100 := by norm_num
  have hok : Env.initial.Ok := ⟨by decide, by decide⟩
  have ring : ∀ pts : List (Pt ℚ), (kindsOf Env.initial pts.length true 0#32).2 ≠ true →
      ∃ r : FRing ℚ ℚ, FBy (F.maker (F.ix32 q)) ⟨Env.initial, 0#32, pts⟩ r := by
    intro pts hp
    obtain ⟨o, ho⟩ := F.orient_some pts
    obtain ⟨r, hr⟩ := C24_built (plain_fits hF hq).lawful F.arith hok pts true 0#32 fun hk => absurd hk hp
    refine ⟨⟨r, o.convex, o.clockwise⟩, hok, hr, ?_, ?_⟩ <;> (show (F.orient _).map _ = _; rw [ho]; rfl)
  obtain ⟨r1, h1⟩ := ring (boxPts (-20) (-20) 20 20) (by show (kindsOf Env.initial 5 true 0#32).2 ≠ true; decide)
  obtain ⟨r2, h2⟩ := ring (boxPts (-15) (-15) (-5) (-5)) (by show (kindsOf Env.initial 5 true 0#32).2 ≠ true; decide)
  obtain ⟨r3, h3⟩ := ring tri (by show (kindsOf Env.initial 4 true 0#32).2 ≠ true; decide)
  let mk : List (Geo ℚ ℚ) → Geo ℚ ℚ := fun gs => .multi false gs (inflateRect (gs.map Geo.rect)) none []
  let gp : Geo ℚ ℚ := .atom (.poly (.poly r1 [r2]))
  have hp : plateA.By (F.maker (F.ix32 q)) (.poly (.poly r1 [r2])) := ⟨h1, .cons h2 .nil⟩
  have ha : (Shape.coll [.atom (.point farPt), .coll [.atom plateA]]).By (F.maker (F.ix32 q)) H Q (mk [.atom (.point farPt), mk [gp]]) := by
    refine ⟨by simp, rfl, rfl, ⟨?_, trivial⟩⟩
    exact ⟨by simp, rfl, hp, trivial⟩
  have hb : (Shape.coll ([triA, .point farPt].map .atom)).By (F.maker (F.ix32 q)) H Q (mk [.atom (.poly (.ring r3)), .atom (.point farPt)]) :=
    ⟨by simp, rfl, ⟨rfl, h3⟩, rfl, trivial⟩
  have atomsA : (Shape.coll [.atom (.point farPt), .coll [.atom plateA]]).atoms = [.point farPt, plateA] := by simp [Shape.atoms, Shape.allAtoms]
  have two : ∀ {p : AShape ℚ → Prop} {x y : AShape ℚ}, p x → p y → ∀ z ∈ [x, y], p z := fun {p x y} h1 h2 z hz => by
    simp only [List.mem_cons, List.not_mem_nil, or_false] at hz
    rcases hz with rfl | rfl
    exacts [h1, h2]
  have u3 := usual_small (n := 100) (by norm_num)
  have u4 := usual_small (n := 7) (by norm_num)
  push_cast at u3 u4
  have tri_has : ∃ w, triA.Has w := by
    refine ⟨inTri, .inr ?_, by simp⟩
    show Inside (segments tri true) inTri
    rw [← insideB_iff]
    decide +kernel
  obtain ⟨r, k1, k2, k4⟩ := C90_multi hF hM hq hn ha (by rw [atomsA]; exact two ⟨u3, u4⟩ plate_sound.1) (by rw [atomsA]; exact two trivial plate_sound.2) hb (by simp)
    (two tri_has ⟨farPt, rfl⟩) (two tri_sound.2 trivial) (two tri_sound.1 ⟨u3, u4⟩)
    (by rw [atomsA]; exact two (two far_tri far_far) (two plate_tri plate_far)) fuel
  -- points with coordinates between 0 and 18 are in the interior
  have inner : ∀ w : Pt ℚ, (⟨⟨0, 0⟩, ⟨18, 18⟩⟩ : Rect ℚ).Has w → plateA.Inner w := by
    rintro w ⟨w1, w2, w3, w4⟩
    dsimp only at w1 w2 w3 w4
    refine ⟨(box_inside (by norm_num) (by norm_num) _).2 ⟨by linarith, by linarith, by linarith, by linarith⟩, fun h hh hr => ?_⟩
    rw [List.mem_singleton.1 hh] at hr
    have := region_rect (l := boxPts (-15 : ℚ) (-15) (-5) (-5)) (r := ⟨⟨-15, -15⟩, ⟨-5, -5⟩⟩) rfl
      (by show ∀ v ∈ boxPts (-15 : ℚ) (-15) (-5) (-5), _ ∧ _ ∧ _ ∧ _; decide +kernel) (p := w) hr
    have := this.2.1
    dsimp only at this
    linarith
  have hr : r = true := by
    refine k4.2 (two ⟨plateA, by rw [atomsA]; simp, fun w hw => inner w ?_⟩ ⟨.point farPt, by rw [atomsA]; simp, fun w hw => hw⟩)
    have : segments tri true = edges tri := by decide +kernel
    refine region_rect (l := tri) (by decide +kernel) (by show ∀ v ∈ tri, _ ∧ _ ∧ _ ∧ _; decide +kernel) ?_
    rw [← this]
    exact hw.1
  rw [hr] at k1 k2
  exact ⟨_, _, ha, hb, k1, k2⟩

end Tg
