import Verif.Lemmas.MarginAll
import Verif.Lemmas.Box
import Verif.Props.Margin
/-!
C85: `tg_geom_intersects` and `tg_geom_disjoint` for two geometries of any kind, with coordinates that are any doubles of usual size. C81 has them for a
geometry and a point, and for two lines. Here they are for all pairs, with polygons that have holes, and with collections. The vertices of each have to be
away from the lines of the other by about `M / 2 ^ 46`, unless comparisons tell. Two segments may cross anywhere.
-/
namespace Tg

open S Spec.Double Double

variable {F : Fp} (hF : Rounding F.rnd) {M : ℚ} (hM : M ≤ 2 ^ 100)
include hF hM

/-- C85. The flag `convex` of a ring of doubles is that of the exact computation, if no turn is too slight. -/
theorem C85_convex {pts : List (Pt ℚ)} (hu : ∀ v ∈ pts, UsualPt M v) (ht : TurnsClear M pts) : F.ringConvex pts = ringConvex pts :=
  ringConvex_far hF hM hu ht

section
variable {q : ℚ → ℚ} (hq : Spec.Float32.Rounding q) (hn : ∀ pts, F.ns pts < 2 ^ 31) {H : HArith ℚ} {Q : Qsort} (hQ : QsortOk Q) {a b : Shape ℚ} {ga gb : Geo ℚ ℚ}
  (ha : a.By (F.maker (F.ix32 q)) H Q ga) (hb : b.By (F.maker (F.ix32 q)) H Q gb) (oka : ∀ x ∈ a.atoms, x.Ok) (okb : ∀ x ∈ b.atoms, x.Ok)
  (sa : ∀ x ∈ a.atoms, x.Sound M) (sb : ∀ x ∈ b.atoms, x.Sound M)
include hq hn hQ ha hb oka okb sa sb

/-- C85. `tg_geom_intersects` answers whether the geometries have a point in common, with any index. -/
theorem C85_intersects (hap : a.Apart M b) (fuel : Nat) :
    ∃ r, geoIntersects ⟨F.ix32 q, F.arith, F.rarith, fuel⟩ ga gb = some r ∧ (r = true ↔ ∃ w, a.Has w ∧ b.Has w) :=
  intersects_far hF hM (plain_fits hF hq) hn hQ ha hb oka okb sa sb hap

/-- C85. `tg_geom_disjoint` answers whether they have none. -/
theorem C85_disjoint (hap : a.Apart M b) (fuel : Nat) :
    ∃ r, geoDisjoint ⟨F.ix32 q, F.arith, F.rarith, fuel⟩ ga gb = some r ∧ (r = true ↔ ∀ w, a.Has w → ¬ b.Has w) := by
  obtain ⟨r, k1, k2⟩ := C85_intersects hF hM hq hn hQ ha hb oka okb sa sb hap fuel
  refine ⟨!r, by rw [geoDisjoint, k1]; rfl, ?_⟩
  rw [Bool.not_eq_true', ← Bool.not_eq_true, k2]
  simp

/-- C85. The answer does not depend on the order. -/
theorem C85_symm (hab : a.Apart M b) (fuel : Nat) :
    geoIntersects ⟨F.ix32 q, F.arith, F.rarith, fuel⟩ ga gb = geoIntersects ⟨F.ix32 q, F.arith, F.rarith, fuel⟩ gb ga := by
  have hba : b.Apart M a := fun y hy x hx => by
    have h := hab x hx y hy
    exact ⟨h.right, h.left, fun u hu v hv => (h.sides_rim v hv u hu).symm hF hM, fun u hu v hv => (h.rim_sides v hv u hu).symm hF hM,
      fun e g e' g' h1 h2 => (h.boxes e' g' e g h2 h1).symm⟩
  obtain ⟨r, k1, k2⟩ := C85_intersects hF hM hq hn hQ ha hb oka okb sa sb hab fuel
  obtain ⟨s, k3, k4⟩ := C85_intersects hF hM hq hn hQ hb ha okb oka sb sa hba fuel
  rw [k1, k3, Option.some.injEq, Bool.eq_iff_iff, k2, k4]
  exact ⟨fun ⟨w, h1, h2⟩ => ⟨w, h2, h1⟩, fun ⟨w, h1, h2⟩ => ⟨w, h2, h1⟩⟩

end

/-! ### Examples -/

omit hF hM

/-- A frame around the triangle `tri`: its hole is from -15 to 15. -/
def S.frameA : AShape ℚ := .poly ⟨Env.initial, 0#32, boxPts (-20) (-20) 20 20⟩ [⟨Env.initial, 0#32, boxPts (-15) (-15) 15 15⟩]

/-- The triangle (0.1, 0.2), (10.3, 0.3), (5.5, 7.7). -/
def S.triA : AShape ℚ := .poly ⟨Env.initial, 0#32, tri⟩ []

/-- The line from (5.1, 5.5) to (17, 16). -/
def S.spoke : AShape ℚ := .line ⟨Env.initial, 0#32, [inTri, ⟨17, 16⟩]⟩

theorem S.usual_small {n : ℤ} (h : |n| ≤ 180) : Usual 180 (n : ℚ) := by
  refine usual_int n 0 (by simp) (h.trans (by norm_num)) (by norm_num) (by norm_num) ?_ (by exact_mod_cast h)
  by_cases h0 : n = 0
  · exact .inl (by rw [h0]; norm_num)
  · have : (1 : ℚ) ≤ |(n : ℚ)| := by exact_mod_cast Int.one_le_abs h0
    exact .inr (le_trans (by norm_num) this)

theorem S.usual_box {m n : ℤ} (hm : |m| ≤ 180) (hn : |n| ≤ 180) : ∀ v ∈ boxPts (m : ℚ) m n n, UsualPt 180 v := by
  have h1 := usual_small hm
  have h2 := usual_small hn
  intro v hv
  simp only [boxPts, List.mem_cons, List.not_mem_nil, or_false] at hv
  rcases hv with rfl | rfl | rfl | rfl | rfl
  exacts [⟨h1, h1⟩, ⟨h2, h1⟩, ⟨h2, h2⟩, ⟨h1, h2⟩, ⟨h1, h1⟩]

theorem S.tri_usual : ∀ v ∈ tri, UsualPt 180 v := (tri_clear Env.initial 0#32).1.usual

theorem S.frame_sound : frameA.Sound 180 ∧ frameA.Ok := by
  have u1 := usual_box (m := -20) (n := 20) (by norm_num) (by norm_num)
  have u2 := usual_box (m := -15) (n := 15) (by norm_num) (by norm_num)
  push_cast at u1 u2
  refine ⟨⟨?_, ?_⟩, polyOk_boxes (by norm_num) (by norm_num) (by norm_num) (by norm_num) (by norm_num) (by norm_num)⟩
  · intro s hs
    simp only [List.mem_cons, List.not_mem_nil, or_false] at hs
    rcases hs with rfl | rfl
    · exact ⟨⟨by show 3 ≤ 5; norm_num, rfl⟩, u1⟩
    · exact ⟨⟨by show 3 ≤ 5; norm_num, rfl⟩, u2⟩
  · intro h hh
    rw [List.mem_singleton.1 hh]
    intro i a b c ha hb hc
    simp only [boxPts, List.take, List.cons_append, List.nil_append] at ha hb hc
    match i, ha, hb, hc with
    | 0, ha, hb, hc | 1, ha, hb, hc | 2, ha, hb, hc | 3, ha, hb, hc | 4, ha, hb, hc =>
      simp only [List.getElem?_cons_zero, List.getElem?_cons_succ, Option.some.injEq] at ha hb hc
      subst ha hb hc
      simp
    | i + 5, ha, hb, hc =>
      simp only [List.getElem?_cons_succ] at hc
      simp at hc

theorem S.tri_sound : triA.Sound 180 ∧ triA.Ok := by
  refine ⟨⟨?_, by simp⟩, ⟨fun s hs w hw => ?_, by simp, by simp⟩⟩
  · intro s hs
    rw [List.mem_singleton.1 hs]
    exact ⟨⟨by decide, by decide +kernel⟩, tri_usual⟩
  · rw [List.mem_singleton.1 hs] at hw
    exact ⟨.inl hw, by simp⟩

/-- A ring is clear of points, from what can be computed. -/
theorem S.ringClear_of {s : Series ℚ} {p hi lo : Pt ℚ} (hc : Closed s) (hu : ∀ v ∈ s.pts, UsualPt 180 v) (ho : ∀ t ∈ segments s.pts true, Off 180 t p)
    (h1 : hi ∈ s.pts) (h2 : lo ∈ s.pts) (h3 : ∀ v ∈ s.pts, lo.y ≤ v.y ∧ v.y ≤ hi.y) (h4 : hi.y < p.y ∨ p.y ≤ hi.y - (hi.y - lo.y) / 2 ^ 20) :
    RingClear 180 s p := ⟨hc, hu, fun t ht => .inl (ho t ht), hi, h1, lo, h2, h3, h4.imp_right .inl⟩

theorem S.frame_clear {p : Pt ℚ} (h : ∀ t ∈ segments (boxPts (-20 : ℚ) (-20) 20 20) true ++ segments (boxPts (-15 : ℚ) (-15) 15 15) true, Off 180 t p)
    (h4 : p.y ≤ 14 ∨ 15 < p.y ∧ p.y < 19) : frameA.ClearOf 180 p := by
  have hs := frame_sound.1.1
  intro s hs'
  obtain ⟨k1, k2⟩ := hs s hs'
  simp only [List.mem_cons, List.not_mem_nil, or_false] at hs'
  rcases hs' with rfl | rfl
  · refine ringClear_of (hi := ⟨20, 20⟩) (lo := ⟨20, -20⟩) k1 k2 (fun t ht => h t (List.mem_append_left _ ht)) (by simp [boxPts]) (by simp [boxPts]) ?_ (.inr ?_)
    · show ∀ v ∈ boxPts (-20 : ℚ) (-20) 20 20, _
      decide +kernel
    · norm_num
      rcases h4 with h4 | h4 <;> linarith [h4]
  · refine ringClear_of (hi := ⟨15, 15⟩) (lo := ⟨15, -15⟩) k1 k2 (fun t ht => h t (List.mem_append_right _ ht)) (by simp [boxPts]) (by simp [boxPts]) ?_ ?_
    · show ∀ v ∈ boxPts (-15 : ℚ) (-15) 15 15, _
      decide +kernel
    · norm_num
      rcases h4 with h4 | h4
      · exact .inr (by linarith)
      · exact .inl h4.1

set_option maxRecDepth 100000 in
/-- The frame and the triangle are apart. -/
theorem S.frame_tri : frameA.Apart 180 triA := by
  have hall : ∀ u ∈ segments (boxPts (-20 : ℚ) (-20) 20 20) true ++ segments (boxPts (-15 : ℚ) (-15) 15 15) true, ∀ v ∈ segments tri true,
      Off 180 u v.a ∧ Off 180 u v.b ∧ Off 180 v u.a ∧ Off 180 v u.b := by decide +kernel
  have hsides : frameA.sides = segments (boxPts (-20 : ℚ) (-20) 20 20) true ++ segments (boxPts (-15 : ℚ) (-15) 15 15) true := by
    simp [frameA, AShape.sides, Series.segs]
  have tsides : triA.sides = segments tri true := by simp [triA, AShape.sides, Series.segs]
  refine ⟨?_, ?_, ?_, ?_, ?_⟩
  · intro p hp
    have h1 : ∀ p ∈ tri, p.y ≤ 14 := by decide +kernel
    have h2 : ∀ p ∈ tri, ∀ t ∈ segments (boxPts (-20 : ℚ) (-20) 20 20) true ++ segments (boxPts (-15 : ℚ) (-15) 15 15) true, Off 180 t p := by decide +kernel
    exact frame_clear (h2 p hp) (.inl (h1 p hp))
  · intro p hp s hs
    rw [List.mem_singleton.1 hs]
    have h1 : ∀ p ∈ boxPts (-20 : ℚ) (-20) 20 20, ∀ t ∈ segments tri true, Off 180 t p := by decide +kernel
    refine ringClear_of (hi := ⟨6192449487634432 / 2 ^ 50, 8669429282688205 / 2 ^ 50⟩) (lo := ⟨3602879701896397 / 2 ^ 55, 3602879701896397 / 2 ^ 54⟩)
      ⟨by decide, by decide +kernel⟩ tri_usual (h1 p hp) (by simp [tri]) (by simp [tri]) ?_ ?_
    · show ∀ v ∈ tri, _
      decide +kernel
    · have : ∀ p ∈ boxPts (-20 : ℚ) (-20) 20 20, (8669429282688205 / 2 ^ 50 : ℚ) < p.y ∨
        p.y ≤ 8669429282688205 / 2 ^ 50 - (8669429282688205 / 2 ^ 50 - 3602879701896397 / 2 ^ 54) / 2 ^ 20 := by decide +kernel
      exact this p hp
  · intro u hu v hv
    rw [tsides] at hv
    exact .inl (hall u (List.mem_append_left _ hu) v hv)
  · intro u hu v hv
    rw [hsides] at hu
    exact .inl (hall u hu v hv)
  · intro e h e' h' h1 h2
    cases h1
    cases h2
    constructor
    · intro R S hR hS l1 _ _ _
      exfalso
      have k1 := (hR.1 ⟨-20, -20⟩ (by simp [boxPts])).1
      have k2 := (hS.2 ⟨⟨0, 0⟩, ⟨15, 15⟩⟩ (by
        intro v hv
        have : ∀ v ∈ tri, (0 : ℚ) ≤ v.x ∧ v.x ≤ 15 ∧ 0 ≤ v.y ∧ v.y ≤ 15 := by decide +kernel
        exact this v hv)).1
      dsimp only at k1 k2
      linarith
    · intro R S hR hS _ _ _ _
      left
      obtain ⟨k1, k2, -, -⟩ := hR.2 ⟨⟨0, 0⟩, ⟨15, 15⟩⟩ (by
        intro v hv
        have : ∀ v ∈ tri, (0 : ℚ) ≤ v.x ∧ v.x ≤ 15 ∧ 0 ≤ v.y ∧ v.y ≤ 15 := by decide +kernel
        exact this v hv)
      have k3 := (hS.1 ⟨-20, -20⟩ (by simp [boxPts])).1
      have k4 := (hS.1 ⟨20, 20⟩ (by simp [boxPts])).2.1
      dsimp only at k1 k2 k3 k4
      norm_num
      linarith

/-- The line goes from the triangle through the hole into the frame. -/
theorem S.frame_spoke : frameA.Apart 180 spoke := by
  have hall : ∀ u ∈ segments (boxPts (-20 : ℚ) (-20) 20 20) true ++ segments (boxPts (-15 : ℚ) (-15) 15 15) true, ∀ v ∈ edges [inTri, ⟨17, 16⟩],
      Off 180 u v.a ∧ Off 180 u v.b ∧ Off 180 v u.a ∧ Off 180 v u.b := by decide +kernel
  have hsides : frameA.sides = segments (boxPts (-20 : ℚ) (-20) 20 20) true ++ segments (boxPts (-15 : ℚ) (-15) 15 15) true := by
    simp [frameA, AShape.sides, Series.segs]
  have us : ∀ v ∈ [inTri, ⟨17, 16⟩], UsualPt 180 v := by
    have h1 := usual_small (n := 17) (by norm_num)
    have h2 := usual_small (n := 16) (by norm_num)
    push_cast at h1 h2
    intro v hv
    simp only [List.mem_cons, List.not_mem_nil, or_false] at hv
    rcases hv with rfl | rfl
    exacts [(tri_clear Env.initial 0#32).2, ⟨h1, h2⟩]
  refine ⟨?_, ?_, ?_, ?_, ?_⟩
  · intro p hp
    have h1 : ∀ p ∈ [inTri, ⟨17, 16⟩], p.y ≤ 14 ∨ 15 < p.y ∧ p.y < 19 := by decide +kernel
    have h2 : ∀ p ∈ [inTri, ⟨17, 16⟩], ∀ t ∈ segments (boxPts (-20 : ℚ) (-20) 20 20) true ++ segments (boxPts (-15 : ℚ) (-15) 15 15) true, Off 180 t p := by
      decide +kernel
    exact frame_clear (h2 p hp) (h1 p hp)
  · intro p hp
    have h1 : ∀ p ∈ boxPts (-20 : ℚ) (-20) 20 20, ∀ t ∈ edges [inTri, ⟨17, 16⟩], Off 180 t p := by decide +kernel
    exact ⟨us, fun t ht => .inl (h1 p hp t ht)⟩
  · intro u hu v hv
    exact .inl (hall u (List.mem_append_left _ hu) v hv)
  · intro u hu v hv
    rw [hsides] at hu
    exact .inl (hall u hu v hv)
  · intro e h e' h' _ h2
    cases h2

/-- The triangle is in the hole of the frame. -/
theorem S.frame_tri_disjoint : ¬ ∃ w, frameA.Has w ∧ triA.Has w := by
  rintro ⟨w, ⟨-, h1⟩, h2, -⟩
  refine h1 _ (List.mem_singleton_self _) ((box_inside (by norm_num) (by norm_num) w).2 ?_)
  have hr : ∀ v ∈ tri, (⟨⟨0, 0⟩, ⟨14, 14⟩⟩ : Rect ℚ).Has v := by
    have : ∀ v ∈ tri, (0 : ℚ) ≤ v.x ∧ v.x ≤ 14 ∧ 0 ≤ v.y ∧ v.y ≤ 14 := by decide +kernel
    exact this
  have hw : (⟨⟨0, 0⟩, ⟨14, 14⟩⟩ : Rect ℚ).Has w := by
    have : segments tri true = edges tri := by decide +kernel
    refine region_rect (l := tri) (by decide +kernel) hr ?_
    rw [← this]
    exact h2
  obtain ⟨h1, h2, h3, h4⟩ := hw
  dsimp only at h1 h2 h3 h4
  exact ⟨by linarith, by linarith, by linarith, by linarith⟩

/-- There are roundings, and the frame, the triangle and the line can be made. The triangle is in the hole: the answer is that it does not intersect the
frame. The line does. -/
example : ∃ (F : Fp) (q : ℚ → ℚ), Rounding F.rnd ∧ Spec.Float32.Rounding q ∧ (∀ pts, F.ns pts < 2 ^ 31) ∧
    ∀ (H : HArith ℚ) (Q : Qsort) (fuel : Nat), QsortOk Q → ∃ ga gb gc : Geo ℚ ℚ, (Shape.atom frameA).By (F.maker (F.ix32 q)) H Q ga ∧
      (Shape.atom triA).By (F.maker (F.ix32 q)) H Q gb ∧ (Shape.atom spoke).By (F.maker (F.ix32 q)) H Q gc ∧
      geoIntersects ⟨F.ix32 q, F.arith, F.rarith, fuel⟩ ga gb = some false ∧ geoIntersects ⟨F.ix32 q, F.arith, F.rarith, fuel⟩ ga gc = some true := by
  obtain ⟨rnd, h, -⟩ := Double.exists_rounding
  obtain ⟨q, hq⟩ := Float32.exists_rounding
  let F : Fp := ⟨rnd, fun _ => 0, fun _ => 0⟩
  have hn : ∀ pts, F.ns pts < 2 ^ 31 := fun _ => by norm_num [F]
  refine ⟨F, q, h, hq, hn, fun H Q fuel hQ => ?_⟩
  have hF : Rounding F.rnd := h
  have hM : (180 : ℚ) ≤ 2 ^ 100 := by norm_num
  have hok : Env.initial.Ok := ⟨by decide, by decide⟩
  have ring : ∀ pts : List (Pt ℚ), (kindsOf Env.initial pts.length true 0#32).2 ≠ true →
      ∃ r : FRing ℚ ℚ, FBy (F.maker (F.ix32 q)) ⟨Env.initial, 0#32, pts⟩ r := by
    intro pts hp
    obtain ⟨o, ho⟩ := F.orient_some pts
    obtain ⟨r, hr⟩ := C24_built (plain_fits hF hq).lawful F.arith hok pts true 0#32 fun hk => absurd hk hp
    refine ⟨⟨r, o.convex, o.clockwise⟩, hok, hr, ?_, ?_⟩ <;> (show (F.orient _).map _ = _; rw [ho]; rfl)
  obtain ⟨r1, h1⟩ := ring (boxPts (-20) (-20) 20 20) (by show (kindsOf Env.initial 5 true 0#32).2 ≠ true; decide)
  obtain ⟨r2, h2⟩ := ring (boxPts (-15) (-15) 15 15) (by show (kindsOf Env.initial 5 true 0#32).2 ≠ true; decide)
  obtain ⟨r3, h3⟩ := ring tri (by show (kindsOf Env.initial 4 true 0#32).2 ≠ true; decide)
  obtain ⟨l, hl⟩ := C24_built (plain_fits hF hq).lawful F.arith hok [inTri, ⟨17, 16⟩] false 0#32 fun hk => absurd hk (by decide)
  have ha : (Shape.atom frameA).By (F.maker (F.ix32 q)) H Q (.atom (.poly (.poly r1 [r2]))) := ⟨h1, .cons h2 .nil⟩
  have hb : (Shape.atom triA).By (F.maker (F.ix32 q)) H Q (.atom (.poly (.ring r3))) := ⟨rfl, h3⟩
  have hc : (Shape.atom spoke).By (F.maker (F.ix32 q)) H Q (.atom (.line l)) := ⟨hok, hl⟩
  have one : ∀ {p : AShape ℚ → Prop} {x : AShape ℚ}, p x → ∀ y ∈ (Shape.atom x).atoms, p y := fun {p x} hp y hy => by
    rw [Shape.atoms, List.mem_singleton] at hy
    rw [hy]
    exact hp
  have us : spoke.Sound 180 := (frame_spoke.right ⟨-20, -20⟩ (by simp [frameA, AShape.verts, boxPts])).1
  obtain ⟨b, k1, k2⟩ := C85_intersects hF hM hq hn hQ ha hb (one frame_sound.2) (one tri_sound.2) (one frame_sound.1) (one tri_sound.1)
    (one (one frame_tri)) fuel
  obtain ⟨c, k3, k4⟩ := C85_intersects hF hM hq hn hQ ha hc (one frame_sound.2) (one trivial) (one frame_sound.1) (one us)
    (one (one frame_spoke)) fuel
  refine ⟨_, _, _, ha, hb, hc, ?_, ?_⟩
  · rw [k1]
    cases b with
    | false => rfl
    | true => exact absurd (k2.1 rfl) frame_tri_disjoint
  · rw [k3, k4.2]
    refine ⟨⟨17, 16⟩, ⟨.inr ((box_inside (by norm_num) (by norm_num) _).2 (by norm_num)), fun h hh => ?_⟩, ⟨⟨inTri, ⟨17, 16⟩⟩, by simp [edges], ?_⟩⟩
    · rw [List.mem_singleton.1 hh]
      intro hi
      have := (box_inside (by norm_num) (by norm_num) _).1 hi
      norm_num at this
    · exact onSeg_right _

end Tg
