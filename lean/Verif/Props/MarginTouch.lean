import Verif.Lemmas.MarginTouch
import Verif.Props.MarginCovers
/-!
C87: `tg_geom_touches` for geometries of any kind, with coordinates that are any doubles of usual size. C61 and C62 have it without rounding, C67 for
coordinates of few bits. A point that is clear of the segments of a geometry (that is, away from their lines by about `M / 2 ^ 46`, or where comparisons
tell) touches it exactly if it is on the boundary. Two geometries in general position do not touch, and rounding does not make them touch.
-/
namespace Tg

open S Spec.Double Double

section
variable {F : Fp} (hF : Rounding F.rnd) {M : ℚ} (hM : M ≤ 2 ^ 100)
include hF hM
variable {q : ℚ → ℚ} (hq : Spec.Float32.Rounding q) (hn : ∀ pts, F.ns pts < 2 ^ 31) {H : HArith ℚ} {Q : Qsort} {a : Shape ℚ} {ga : Geo ℚ ℚ}
  (ha : a.By (F.maker (F.ix32 q)) H Q ga) (oka : ∀ x ∈ a.atoms, x.Ok)
include hq hn ha oka

/-- C87. A geometry of any kind and nesting touches a point if and only if the point belongs to it and is not in the interior of any of its parts. -/
theorem C87_touches_point (hQ : QsortOk Q) {p : Pt ℚ} (ua : ∀ x ∈ a.atoms, ∀ v ∈ x.verts, UsualPt M v) (hp : UsualPt M p)
    (hc : ∀ x ∈ a.atoms, x.ClearOf M p) (fuel : Nat) :
    ∃ r, geoTouches ⟨F.ix32 q, F.arith, F.rarith, fuel⟩ (.atom (.point p)) ga = some r ∧ (r = true ↔ a.Has p ∧ ∀ x ∈ a.atoms, ¬ x.Inner p) :=
  touches_pt_far hF hM (plain_fits hF hq) hn hQ ha oka ua hp hc

omit hn in
/-- C87. A point touches a geometry if and only if it is on the boundary of one of the parts, whether or not it is in the interior of another. -/
theorem C87_point_touches {p : Pt ℚ} (hp : UsualPt M p) (hc : ∀ x ∈ a.atoms, x.ClearOf M p) (fuel : Nat) :
    ∃ r, geoTouches ⟨F.ix32 q, F.arith, F.rarith, fuel⟩ ga (.atom (.point p)) = some r ∧ (r = true ↔ ∃ x ∈ a.atoms, x.Rim p) := by
  obtain ⟨r, k1, k2⟩ := someGeo_by (t := atomTouches ⟨F.ix32 q, F.arith, F.rarith, fuel⟩ (.point p)) (q := fun x => x.Rim p) ha fun x hx c hx' => by
    obtain ⟨r, -, t1, t2⟩ := atom_touches_pt_far hF hM (plain_fits hF hq).lawful (P := ⟨F.ix32 q, F.arith, F.rarith, fuel⟩) rfl rfl hx' (oka x hx) hp (hc x hx)
    exact ⟨r, t1, t2⟩
  refine ⟨r, ?_, k2⟩
  rw [geoTouches, atomTouchesGeo.eq_2 _ _ _ (by simp)]
  exact k1

/-- C87. Two geometries of any kind and nesting in general position: the answer is false, though their segments may cross. -/
theorem C87_touches (hQ : QsortOk Q) {b : Shape ℚ} {gb : Geo ℚ ℚ} (hb : b.By (F.maker (F.ix32 q)) H Q gb) (okb : ∀ y ∈ b.atoms, y.Ok)
    (sa : ∀ x ∈ a.atoms, x.Sound M) (sb : ∀ y ∈ b.atoms, y.Sound M) (away : ∀ x ∈ a.atoms, ∀ y ∈ b.atoms, x.Aside M y)
    (boxes : ∀ x ∈ a.atoms, ∀ y ∈ b.atoms, ∀ e h e' h', x = .poly e h → y = .poly e' h' → BoxTells e.pts e'.pts ∧ BoxTells e'.pts e.pts) (fuel : Nat) :
    geoTouches ⟨F.ix32 q, F.arith, F.rarith, fuel⟩ gb ga = some false := by
  refine touches_far hF hM (plain_fits hF hq) hn hQ ha oka hb okb sa sb (fun x hx y hy => ?_) away
  have verts : ∀ z : AShape ℚ, ∀ p ∈ z.verts, p ∈ z.nodes := by
    intro z p hp
    cases z with
    | point _ => exact hp
    | line _ => exact hp
    | poly e hs => exact List.mem_flatMap.2 ⟨e, List.mem_cons_self, hp⟩
  have rim : ∀ z : AShape ℚ, ∀ u ∈ z.rim, u ∈ z.sides := by
    intro z u hu
    cases z with
    | point _ => exact hu
    | line _ => exact hu
    | poly e hs => exact List.mem_flatMap.2 ⟨e, List.mem_cons_self, hu⟩
  have h := away x hx y hy
  exact ⟨fun p hp => h.left p (verts y p hp), fun p hp => h.right p (verts x p hp), fun u hu v hv => h.apart u (rim x u hu) v hv,
    fun u hu v hv => h.apart u hu v (rim y v hv), boxes x hx y hy⟩

end

/-! ### Examples -/

/-- The point (20, 0.2) on the side of the square. -/
def S.onPlate : Pt ℚ := ⟨20, 3602879701896397 / 2 ^ 54⟩

theorem S.onPlate_clear : plateA.ClearOf 180 onPlate ∧ UsualPt 180 onPlate := by
  have u1 := usual_small (n := 20) (by norm_num)
  push_cast at u1
  refine ⟨fun s hs' => ?_, u1, usual_decimals.2.1⟩
  obtain ⟨k1, k2⟩ := plate_sound.1.1 s hs'
  have par : ∀ t ∈ plateSides, t.a.x = t.b.x ∨ t.a.y = t.b.y := by decide +kernel
  have clear : ∀ t ∈ plateSides, Clear 180 t onPlate := fun t ht => .inr (.inr (.inr ((par t ht).imp_right .inl)))
  simp only [List.mem_cons, List.not_mem_nil, or_false] at hs'
  rcases hs' with rfl | rfl
  · refine ⟨k1, k2, fun t ht => clear t (List.mem_append_left _ ht), ⟨20, 20⟩, by simp [boxPts], ⟨20, -20⟩, by simp [boxPts], ?_, .inr (.inl ?_)⟩
    · show ∀ v ∈ boxPts (-20 : ℚ) (-20) 20 20, _
      decide +kernel
    · decide +kernel
  · refine ⟨k1, k2, fun t ht => clear t (List.mem_append_right _ ht), ⟨-5, -5⟩, by simp [boxPts], ⟨-5, -15⟩, by simp [boxPts], ?_, .inl ?_⟩
    · show ∀ v ∈ boxPts (-15 : ℚ) (-15) (-5) (-5), _
      decide +kernel
    · decide +kernel

theorem S.plate_sound' : plateA.Sound 180 ∧ plateA.Ok := by
  refine ⟨⟨plate_sound.1.1, ?_⟩, polyOk_boxes (by norm_num) (by norm_num) (by norm_num) (by norm_num) (by norm_num) (by norm_num)⟩
  intro h hh
  rw [List.mem_singleton.1 hh]
  intro i a b c ha hb hc
  simp only [boxPts, List.take, List.cons_append, List.nil_append] at ha hb hc
  match i, ha, hb, hc with
  | 0, ha, hb, hc | 1, ha, hb, hc | 2, ha, hb, hc | 3, ha, hb, hc | 4, ha, hb, hc =>
    simp only [List.getElem?_cons_zero, List.getElem?_cons_succ, Option.some.injEq] at ha hb hc
    subst ha hb hc
    simp
  | i + 5, ha, hb, hc =>
    simp only [List.getElem?_cons_succ] at hc
    simp at hc

set_option maxRecDepth 100000 in
/-- There are roundings, and the square and the line can be made. The square touches the point on its side, in both orders. It does not touch the point
(5.1, 5.5) within it, nor the line that goes from there into its hole. -/
example : ∃ (F : Fp) (q : ℚ → ℚ), Rounding F.rnd ∧ Spec.Float32.Rounding q ∧ (∀ pts, F.ns pts < 2 ^ 31) ∧
    ∀ (H : HArith ℚ) (Q : Qsort) (fuel : Nat), QsortOk Q → ∃ ga gb : Geo ℚ ℚ, (Shape.atom plateA).By (F.maker (F.ix32 q)) H Q ga ∧
      (Shape.atom probe).By (F.maker (F.ix32 q)) H Q gb ∧
      geoTouches ⟨F.ix32 q, F.arith, F.rarith, fuel⟩ (.atom (.point onPlate)) ga = some true ∧
      geoTouches ⟨F.ix32 q, F.arith, F.rarith, fuel⟩ ga (.atom (.point onPlate)) = some true ∧
      geoTouches ⟨F.ix32 q, F.arith, F.rarith, fuel⟩ (.atom (.point inTri)) ga = some false ∧
      geoTouches ⟨F.ix32 q, F.arith, F.rarith, fuel⟩ gb ga = some false := by
  obtain ⟨rnd, h, -⟩ := Double.exists_rounding
  obtain ⟨q, hq⟩ := Float32.exists_rounding
  let F : Fp := ⟨rnd, fun _ => 0, fun _ => 0⟩
  have hn : ∀ pts, F.ns pts < 2 ^ 31 := fun _ => by norm_num [F]
  refine ⟨F, q, h, hq, hn, fun H Q fuel hQ => ?_⟩
  have hF : Rounding F.rnd := h
  have hM : (180 : ℚ) ≤ 2 ^ 100 := by norm_num
  have hok : Env.initial.Ok := ⟨by decide, by decide⟩
  have ring : ∀ pts : List (Pt ℚ), (kindsOf Env.initial pts.length true 0#32).2 ≠ true →
      ∃ r : FRing ℚ ℚ, FBy (F.maker (F.ix32 q)) ⟨Env.initial, 0#32, pts⟩ r := by
    intro pts hp
    obtain ⟨o, ho⟩ := F.orient_some pts
    obtain ⟨r, hr⟩ := C24_built (plain_fits hF hq).lawful F.arith hok pts true 0#32 fun hk => absurd hk hp
    refine ⟨⟨r, o.convex, o.clockwise⟩, hok, hr, ?_, ?_⟩ <;> (show (F.orient _).map _ = _; rw [ho]; rfl)
  obtain ⟨r1, h1⟩ := ring (boxPts (-20) (-20) 20 20) (by show (kindsOf Env.initial 5 true 0#32).2 ≠ true; decide)
  obtain ⟨r2, h2⟩ := ring (boxPts (-15) (-15) (-5) (-5)) (by show (kindsOf Env.initial 5 true 0#32).2 ≠ true; decide)
  obtain ⟨m, hm⟩ := C24_built (plain_fits hF hq).lawful F.arith hok [inTri, ⟨-10, -11⟩] false 0#32 fun hk => absurd hk (by decide)
  have ha : (Shape.atom plateA).By (F.maker (F.ix32 q)) H Q (.atom (.poly (.poly r1 [r2]))) := ⟨h1, .cons h2 .nil⟩
  have hb : (Shape.atom probe).By (F.maker (F.ix32 q)) H Q (.atom (.line m)) := ⟨hok, hm⟩
  have one : ∀ {p : AShape ℚ → Prop} {x : AShape ℚ}, p x → ∀ y ∈ (Shape.atom x).atoms, p y := fun {p x} hp y hy => by
    rw [Shape.atoms, List.mem_singleton] at hy
    rw [hy]
    exact hp
  have u3 := usual_small (n := -10) (by norm_num)
  have u4 := usual_small (n := -11) (by norm_num)
  push_cast at u3 u4
  have aw := plate_line (v := ⟨-10, -11⟩) ⟨u3, u4⟩ (by decide +kernel) (by decide +kernel) (by norm_num)
  have ua : ∀ v ∈ plateA.verts, UsualPt 180 v := (plate_sound.1.1 _ List.mem_cons_self).2
  have cin : plateA.ClearOf 180 inTri := plate_clear (by decide +kernel) (.inr (by decide +kernel))
  have onb : OnBoundary (segments (boxPts (-20 : ℚ) (-20) 20 20) true) onPlate := by
    refine ⟨⟨⟨20, -20⟩, ⟨20, 20⟩⟩, by decide +kernel, (onPlate.y + 20) / 40, ?_, ?_, ?_, ?_⟩ <;> norm_num [onPlate]
  have nin : ¬ plateA.Inner onPlate := fun hi => by
    have := (box_inside (by norm_num) (by norm_num) _).1 hi.1
    norm_num [onPlate] at this
  have has : plateA.Has onPlate := by
    refine ⟨.inl onb, fun h hh hi => ?_⟩
    rw [List.mem_singleton.1 hh] at hi
    have := (box_inside (by norm_num) (by norm_num) _).1 hi
    norm_num [onPlate] at this
  obtain ⟨b, k1, k2⟩ := C87_touches_point hF hM hq hn ha (one plate_sound'.2) hQ (one ua) onPlate_clear.2 (one onPlate_clear.1) fuel
  obtain ⟨c, k3, k4⟩ := C87_point_touches hF hM hq ha (one plate_sound'.2) onPlate_clear.2 (one onPlate_clear.1) fuel
  obtain ⟨d, k5, k6⟩ := C87_touches_point hF hM hq hn ha (one plate_sound'.2) hQ (one ua) (tri_clear Env.initial 0#32).2 (one cin) fuel
  have k7 := C87_touches hF hM hq hn ha (one plate_sound'.2) hQ hb (one trivial) (one plate_sound'.1) (one aw.2) (one (one aw.1.toAside))
    (one (one fun _ _ _ _ _ h2 => by cases h2)) fuel
  refine ⟨_, _, ha, hb, ?_, ?_, ?_, k7⟩
  · rw [k1, k2.2 ⟨has, one nin⟩]
  · rw [k3, k4.2 ⟨plateA, by simp [Shape.atoms], has, nin⟩]
  · rw [k5]
    cases d with
    | false => rfl
    | true =>
      refine absurd ?_ ((k6.1 rfl).2 plateA (by simp [Shape.atoms]))
      refine ⟨(box_inside (by norm_num) (by norm_num) _).2 (by decide +kernel), fun h hh hr => ?_⟩
      rw [List.mem_singleton.1 hh] at hr
      have := region_rect (l := boxPts (-15 : ℚ) (-15) (-5) (-5)) (r := ⟨⟨-15, -15⟩, ⟨-5, -5⟩⟩) rfl
        (by show ∀ v ∈ boxPts (-15 : ℚ) (-15) (-5) (-5), _ ∧ _ ∧ _ ∧ _; decide +kernel) (p := inTri) hr
      exact absurd this.2.1 (by decide +kernel)

end Tg
