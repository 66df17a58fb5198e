import Verif.Lemmas.MarginCovers
import Verif.Props.MarginMeet
/-!
C86: `tg_geom_covers`, `tg_geom_contains`, `tg_geom_within` and `tg_geom_coveredby` for a polygon and a geometry of any kind, with coordinates that are any
doubles of usual size. C62 has them without rounding, C67 for coordinates of few bits. Here the coordinates have all their bits, and the vertices of each
have to be away from the lines of the other by about `M / 2 ^ 46`, unless comparisons tell.
-/
namespace Tg

open S Spec.Double Double

section
variable {F : Fp} (hF : Rounding F.rnd) {M : ℚ} (hM : M ≤ 2 ^ 100)
include hF hM
variable {q : ℚ → ℚ} (hq : Spec.Float32.Rounding q) (hn : ∀ pts, F.ns pts < 2 ^ 31) {H : HArith ℚ} {Q : Qsort} {ext : Series ℚ} {holes : List (Series ℚ)}
  {b : Shape ℚ} {pa : PolyS ℚ ℚ} {gb : Geo ℚ ℚ} (ha : PolyBy (F.maker (F.ix32 q)) ext holes pa) (hb : b.By (F.maker (F.ix32 q)) H Q gb)
  (sa : PolySound M ext holes) (firm : AShape.Firm (.poly ext holes)) (okb : ∀ y ∈ b.atoms, y.Ok) (sb : ∀ y ∈ b.atoms, y.Sound M)
  (away : ∀ y ∈ b.atoms, AShape.Away M (.poly ext holes) y)
include hq hn ha hb sa firm okb sb away

/-- C86. A polygon covers a geometry of any kind and nesting if and only if no part of the geometry is empty and all of its points are in the interior of
the polygon. The same for `contains`. -/
theorem C86_covers (fuel : Nat) :
    ∃ r, geoCovers ⟨F.ix32 q, F.arith, F.rarith, fuel⟩ (.atom (.poly pa)) gb = some r ∧
      geoContains ⟨F.ix32 q, F.arith, F.rarith, fuel⟩ (.atom (.poly pa)) gb = some r ∧
      (r = true ↔ b.NoEmpty ∧ ∀ w, b.Has w → AShape.Inner (.poly ext holes) w) :=
  covers_far hF hM (plain_fits hF hq).lawful hn ha hb sa firm okb sb away

/-- C86. The same for `within` and `coveredby`, with the polygon as the second geometry. -/
theorem C86_within (fuel : Nat) :
    ∃ r, geoWithin ⟨F.ix32 q, F.arith, F.rarith, fuel⟩ gb (.atom (.poly pa)) = some r ∧
      geoCoveredBy ⟨F.ix32 q, F.arith, F.rarith, fuel⟩ gb (.atom (.poly pa)) = some r ∧
      (r = true ↔ b.NoEmpty ∧ ∀ w, b.Has w → AShape.Inner (.poly ext holes) w) := by
  obtain ⟨r, h1, h2, h3⟩ := C86_covers hF hM hq hn ha hb sa firm okb sb away fuel
  exact ⟨r, h2, h1, h3⟩

end

/-! ### Examples -/

/-- A square with a hole that is not near the triangle `tri`. -/
def S.plateA : AShape ℚ := .poly ⟨Env.initial, 0#32, boxPts (-20) (-20) 20 20⟩ [⟨Env.initial, 0#32, boxPts (-15) (-15) (-5) (-5)⟩]

/-- The line from (5.1, 5.5) into the hole. -/
def S.probe : AShape ℚ := .line ⟨Env.initial, 0#32, [inTri, ⟨-10, -11⟩]⟩

theorem S.Off.not_on {M : ℚ} (hM : 0 ≤ M) {s : Seg ℚ} {p : Pt ℚ} (h : Off M s p) : ¬ OnSeg s p := by
  rintro ⟨t, -, -, hx, hy⟩
  have h0 : cross s p = 0 := by
    unfold cross
    rw [hx, hy]
    ring
  unfold Off at h
  rw [h0, abs_zero] at h
  have : 0 ≤ M * (|s.b.x - s.a.x| + |s.b.y - s.a.y|) / 2 ^ 46 := by positivity
  linarith

/-- The sides of the square and of its hole. -/
def S.plateSides : List (Seg ℚ) := segments (boxPts (-20 : ℚ) (-20) 20 20) true ++ segments (boxPts (-15 : ℚ) (-15) (-5) (-5)) true

/-- The corners of the square and of its hole. -/
def S.plateNodes : List (Pt ℚ) := boxPts (-20 : ℚ) (-20) 20 20 ++ boxPts (-15 : ℚ) (-15) (-5) (-5)

theorem S.plate_sides : plateA.sides = plateSides := by simp [plateA, plateSides, AShape.sides, Series.segs]

theorem S.plate_nodes : plateA.nodes = plateNodes := by simp [plateA, plateNodes, AShape.nodes]

theorem S.plate_sound : PolySound 180 ⟨Env.initial, 0#32, boxPts (-20) (-20) 20 20⟩ [⟨Env.initial, 0#32, boxPts (-15) (-15) (-5) (-5)⟩] ∧ plateA.Firm := by
  have u1 := usual_box (m := -20) (n := 20) (by norm_num) (by norm_num)
  have u2 := usual_box (m := -15) (n := -5) (by norm_num) (by norm_num)
  push_cast at u1 u2
  refine ⟨⟨?_, ?_⟩, fun _ => box_convex (by norm_num) (by norm_num), (box_convex (by norm_num) (by norm_num)).escapes⟩
  · intro s hs
    simp only [List.mem_cons, List.not_mem_nil, or_false] at hs
    rcases hs with rfl | rfl
    · exact ⟨⟨by show 3 ≤ 5; norm_num, rfl⟩, u1⟩
    · exact ⟨⟨by show 3 ≤ 5; norm_num, rfl⟩, u2⟩
  · intro i a b c ha hb hc
    simp only [boxPts, List.take, List.cons_append, List.nil_append] at ha hb hc
    match i, ha, hb, hc with
    | 0, ha, hb, hc | 1, ha, hb, hc | 2, ha, hb, hc | 3, ha, hb, hc | 4, ha, hb, hc =>
      simp only [List.getElem?_cons_zero, List.getElem?_cons_succ, Option.some.injEq] at ha hb hc
      subst ha hb hc
      simp
    | i + 5, ha, hb, hc =>
      simp only [List.getElem?_cons_succ] at hc
      simp at hc

theorem S.plate_clear {p : Pt ℚ} (h : ∀ t ∈ plateSides, Off 180 t p) (h4 : p.y ≤ -6 ∨ -5 < p.y ∧ p.y < 19) : plateA.ClearOf 180 p := by
  have hs := plate_sound.1.1
  intro s hs'
  obtain ⟨k1, k2⟩ := hs s hs'
  simp only [List.mem_cons, List.not_mem_nil, or_false] at hs'
  rcases hs' with rfl | rfl
  · refine ringClear_of (hi := ⟨20, 20⟩) (lo := ⟨20, -20⟩) k1 k2 (fun t ht => h t (List.mem_append_left _ ht)) (by simp [boxPts]) (by simp [boxPts]) ?_ (.inr ?_)
    · show ∀ v ∈ boxPts (-20 : ℚ) (-20) 20 20, _
      decide +kernel
    · norm_num
      rcases h4 with h4 | h4 <;> linarith [h4]
  · refine ringClear_of (hi := ⟨-5, -5⟩) (lo := ⟨-5, -15⟩) k1 k2 (fun t ht => h t (List.mem_append_right _ ht)) (by simp [boxPts]) (by simp [boxPts]) ?_ ?_
    · show ∀ v ∈ boxPts (-15 : ℚ) (-15) (-5) (-5), _
      decide +kernel
    · norm_num
      rcases h4 with h4 | h4
      · exact .inr (by linarith)
      · exact .inl h4.1

set_option maxRecDepth 100000 in
theorem S.plate_tri : plateA.Away 180 triA := by
  have tsides : triA.sides = segments tri true := by simp [triA, AShape.sides, Series.segs]
  have tnodes : triA.nodes = tri := by simp [triA, AShape.nodes]
  have o1 : ∀ p ∈ tri, ∀ t ∈ plateSides, Off 180 t p := by decide +kernel
  have o2 : ∀ p ∈ plateNodes, ∀ t ∈ segments tri true, Off 180 t p := by decide +kernel
  refine ⟨⟨?_, ?_, ?_, ⟨?_, ?_⟩⟩, ?_⟩
  · intro p hp
    rw [tnodes] at hp
    have h1 : ∀ p ∈ tri, -5 < p.y ∧ p.y < 19 := by decide +kernel
    exact plate_clear (o1 p hp) (.inr (h1 p hp))
  · intro p hp s hs
    rw [plate_nodes] at hp
    rw [List.mem_singleton.1 hs]
    refine ringClear_of (hi := ⟨6192449487634432 / 2 ^ 50, 8669429282688205 / 2 ^ 50⟩) (lo := ⟨3602879701896397 / 2 ^ 55, 3602879701896397 / 2 ^ 54⟩)
      ⟨by decide, by decide +kernel⟩ tri_usual (o2 p hp) (by simp [tri]) (by simp [tri]) ?_ ?_
    · show ∀ v ∈ tri, _
      decide +kernel
    · have : ∀ p ∈ plateNodes, (8669429282688205 / 2 ^ 50 : ℚ) < p.y ∨
        p.y ≤ 8669429282688205 / 2 ^ 50 - (8669429282688205 / 2 ^ 50 - 3602879701896397 / 2 ^ 54) / 2 ^ 20 := by decide +kernel
      exact this p hp
  · intro u hu v hv
    rw [tsides] at hv
    rw [plate_sides] at hu
    have hall : ∀ u ∈ plateSides, ∀ v ∈ segments tri true, Off 180 u v.a ∧ Off 180 u v.b ∧ Off 180 v u.a ∧ Off 180 v u.b := by decide +kernel
    exact .inl (hall u hu v hv)
  · rintro p hp ⟨t, ht, h⟩
    rw [plate_nodes] at hp
    rw [tsides] at ht
    exact (o2 p hp t ht).not_on (by norm_num) h
  · rintro p hp ⟨t, ht, h⟩
    rw [tnodes] at hp
    rw [plate_sides] at ht
    exact (o1 p hp t ht).not_on (by norm_num) h
  · intro e h e' h' h1 h2 s hs
    cases h1
    cases h2
    rw [List.mem_singleton.1 hs]
    have key : ∀ R S : Rect ℚ, BoxOf (boxPts (-15) (-15) (-5) (-5)) R → BoxOf tri S → R.lo.x < S.lo.x ∧ R.hi.x < S.hi.x := by
      intro R S hR hS
      have k0 := (hR.1 ⟨-15, -15⟩ (by simp [boxPts])).1
      have k1 := (hR.2 ⟨⟨-15, -15⟩, ⟨-5, -5⟩⟩ (by show ∀ v ∈ boxPts (-15 : ℚ) (-15) (-5) (-5), _ ∧ _ ∧ _ ∧ _; decide +kernel)).2.1
      have k2 := hS.2 ⟨⟨0, 0⟩, ⟨15, 15⟩⟩ (by
        have : ∀ v ∈ tri, (0 : ℚ) ≤ v.x ∧ v.x ≤ 15 ∧ 0 ≤ v.y ∧ v.y ≤ 15 := by decide +kernel
        exact this)
      have k3 := hS.1 ⟨3602879701896397 / 2 ^ 55, 3602879701896397 / 2 ^ 54⟩ (by simp [tri])
      have k4 := k2.1
      have k5 := k3.2.1
      dsimp only at k0 k1 k4 k5
      norm_num at k5
      exact ⟨by linarith, by linarith⟩
    refine ⟨fun R S hR hS h1 _ _ _ => ?_, fun R S hR hS h1 h2 _ _ => ?_⟩
    · exact absurd h1 (not_lt.2 (key R S hR hS).1.le)
    · exact absurd h2 (not_lt.2 (key S R hS hR).2.le)

/-- A line from (5.1, 5.5) is away from the square, if its other end is. -/
theorem S.plate_line {v : Pt ℚ} (hv : UsualPt 180 v) (o1 : ∀ p ∈ [inTri, v], ∀ t ∈ plateSides, Off 180 t p)
    (o2 : ∀ p ∈ plateNodes, Off 180 ⟨inTri, v⟩ p) (h4 : v.y ≤ -6 ∨ -5 < v.y ∧ v.y < 19) :
    plateA.Away 180 (.line ⟨Env.initial, 0#32, [inTri, v]⟩) ∧ AShape.Sound 180 (.line ⟨Env.initial, 0#32, [inTri, v]⟩) := by
  have us : ∀ p ∈ [inTri, v], UsualPt 180 p := by
    intro p hp
    simp only [List.mem_cons, List.not_mem_nil, or_false] at hp
    rcases hp with rfl | rfl
    exacts [(tri_clear Env.initial 0#32).2, hv]
  have ends : ∀ u ∈ plateSides, u.a ∈ plateNodes ∧ u.b ∈ plateNodes := by decide +kernel
  refine ⟨⟨⟨?_, ?_, ?_, ⟨?_, ?_⟩⟩, ?_⟩, us⟩
  · intro p hp
    refine plate_clear (o1 p hp) ?_
    simp only [AShape.nodes, List.mem_cons, List.not_mem_nil, or_false] at hp
    rcases hp with rfl | rfl
    · exact .inr (by decide +kernel)
    · exact h4
  · intro p hp
    rw [plate_nodes] at hp
    refine ⟨us, fun t ht => ?_⟩
    simp only [edges, List.mem_cons, List.not_mem_nil, or_false] at ht
    rw [ht]
    exact .inl (o2 p hp)
  · intro u hu w hw
    rw [plate_sides] at hu
    simp only [AShape.sides, edges, List.mem_cons, List.not_mem_nil, or_false] at hw
    rw [hw]
    exact .inl ⟨o1 _ (by simp) u hu, o1 _ (by simp) u hu, o2 _ (ends u hu).1, o2 _ (ends u hu).2⟩
  · rintro p hp ⟨t, ht, h⟩
    rw [plate_nodes] at hp
    simp only [AShape.sides, edges, List.mem_cons, List.not_mem_nil, or_false] at ht
    rw [ht] at h
    exact (o2 p hp).not_on (by norm_num) h
  · rintro p hp ⟨t, ht, h⟩
    rw [plate_sides] at ht
    exact (o1 p hp t ht).not_on (by norm_num) h
  · intro e h e' h' _ h2
    cases h2

set_option maxRecDepth 100000 in
/-- There are roundings, and the square, the triangle and the lines can be made. The square covers the triangle and contains the line to
(17, 16). It does not cover the line into its hole. -/
example : ∃ (F : Fp) (q : ℚ → ℚ), Rounding F.rnd ∧ Spec.Float32.Rounding q ∧ (∀ pts, F.ns pts < 2 ^ 31) ∧
    ∀ (H : HArith ℚ) (Q : Qsort) (fuel : Nat), ∃ (pa : PolyS ℚ ℚ) (gb gc gd : Geo ℚ ℚ), plateA.By (F.maker (F.ix32 q)) (.poly pa) ∧
      (Shape.atom triA).By (F.maker (F.ix32 q)) H Q gb ∧ (Shape.atom spoke).By (F.maker (F.ix32 q)) H Q gc ∧ (Shape.atom probe).By (F.maker (F.ix32 q)) H Q gd ∧
      geoCovers ⟨F.ix32 q, F.arith, F.rarith, fuel⟩ (.atom (.poly pa)) gb = some true ∧
      geoContains ⟨F.ix32 q, F.arith, F.rarith, fuel⟩ (.atom (.poly pa)) gc = some true ∧
      geoCovers ⟨F.ix32 q, F.arith, F.rarith, fuel⟩ (.atom (.poly pa)) gd = some false := by
  obtain ⟨rnd, h, -⟩ := Double.exists_rounding
  obtain ⟨q, hq⟩ := Float32.exists_rounding
  let F : Fp := ⟨rnd, fun _ => 0, fun _ => 0⟩
  have hn : ∀ pts, F.ns pts < 2 ^ 31 := fun _ => by norm_num [F]
  refine ⟨F, q, h, hq, hn, fun H Q fuel => ?_⟩
  have hF : Rounding F.rnd := h
  have hM : (180 : ℚ) ≤ 2 ^ 100 := by norm_num
  have hok : Env.initial.Ok := ⟨by decide, by decide⟩
  have ring : ∀ pts : List (Pt ℚ), (kindsOf Env.initial pts.length true 0#32).2 ≠ true →
      ∃ r : FRing ℚ ℚ, FBy (F.maker (F.ix32 q)) ⟨Env.initial, 0#32, pts⟩ r := by
    intro pts hp
    obtain ⟨o, ho⟩ := F.orient_some pts
    obtain ⟨r, hr⟩ := C24_built (plain_fits hF hq).lawful F.arith hok pts true 0#32 fun hk => absurd hk hp
    refine ⟨⟨r, o.convex, o.clockwise⟩, hok, hr, ?_, ?_⟩ <;> (show (F.orient _).map _ = _; rw [ho]; rfl)
  obtain ⟨r1, h1⟩ := ring (boxPts (-20) (-20) 20 20) (by show (kindsOf Env.initial 5 true 0#32).2 ≠ true; decide)
  obtain ⟨r2, h2⟩ := ring (boxPts (-15) (-15) (-5) (-5)) (by show (kindsOf Env.initial 5 true 0#32).2 ≠ true; decide)
  obtain ⟨r3, h3⟩ := ring tri (by show (kindsOf Env.initial 4 true 0#32).2 ≠ true; decide)
  obtain ⟨l, hl⟩ := C24_built (plain_fits hF hq).lawful F.arith hok [inTri, ⟨17, 16⟩] false 0#32 fun hk => absurd hk (by decide)
  obtain ⟨m, hm⟩ := C24_built (plain_fits hF hq).lawful F.arith hok [inTri, ⟨-10, -11⟩] false 0#32 fun hk => absurd hk (by decide)
  have ha : PolyBy (F.maker (F.ix32 q)) ⟨Env.initial, 0#32, boxPts (-20) (-20) 20 20⟩ [⟨Env.initial, 0#32, boxPts (-15) (-15) (-5) (-5)⟩] (.poly r1 [r2]) :=
    ⟨h1, .cons h2 .nil⟩
  have hb : (Shape.atom triA).By (F.maker (F.ix32 q)) H Q (.atom (.poly (.ring r3))) := ⟨rfl, h3⟩
  have hc : (Shape.atom spoke).By (F.maker (F.ix32 q)) H Q (.atom (.line l)) := ⟨hok, hl⟩
  have hd : (Shape.atom probe).By (F.maker (F.ix32 q)) H Q (.atom (.line m)) := ⟨hok, hm⟩
  have one : ∀ {p : AShape ℚ → Prop} {x : AShape ℚ}, p x → ∀ y ∈ (Shape.atom x).atoms, p y := fun {p x} hp y hy => by
    rw [Shape.atoms, List.mem_singleton] at hy
    rw [hy]
    exact hp
  have u := fun n hn => usual_small (n := n) hn
  have u1 := u 17 (by norm_num)
  have u2 := u 16 (by norm_num)
  have u3 := u (-10) (by norm_num)
  have u4 := u (-11) (by norm_num)
  push_cast at u1 u2 u3 u4
  have aw := plate_line (v := ⟨17, 16⟩) ⟨u1, u2⟩ (by decide +kernel) (by decide +kernel) (by norm_num)
  have aw' := plate_line (v := ⟨-10, -11⟩) ⟨u3, u4⟩ (by decide +kernel) (by decide +kernel) (by norm_num)
  obtain ⟨b, k1, -, k2⟩ := C86_covers hF hM hq hn ha hb plate_sound.1 plate_sound.2 (one tri_sound.2) (one tri_sound.1) (one plate_tri) fuel
  obtain ⟨c, -, k3, k4⟩ := C86_covers hF hM hq hn ha hc plate_sound.1 plate_sound.2 (one trivial) (one aw.2) (one aw.1) fuel
  obtain ⟨d, k5, -, k6⟩ := C86_covers hF hM hq hn ha hd plate_sound.1 plate_sound.2 (one trivial) (one aw'.2) (one aw'.1) fuel
  -- points with coordinates between 0 and 18 are in the interior
  have inner : ∀ w : Pt ℚ, (⟨⟨0, 0⟩, ⟨18, 18⟩⟩ : Rect ℚ).Has w → plateA.Inner w := by
    rintro w ⟨w1, w2, w3, w4⟩
    dsimp only at w1 w2 w3 w4
    refine ⟨(box_inside (by norm_num) (by norm_num) _).2 ⟨by linarith, by linarith, by linarith, by linarith⟩, fun h hh hr => ?_⟩
    rw [List.mem_singleton.1 hh] at hr
    have := region_rect (l := boxPts (-15 : ℚ) (-15) (-5) (-5)) (r := ⟨⟨-15, -15⟩, ⟨-5, -5⟩⟩) rfl
      (by show ∀ v ∈ boxPts (-15 : ℚ) (-15) (-5) (-5), _ ∧ _ ∧ _ ∧ _; decide +kernel) (p := w) hr
    have := this.2.1
    dsimp only at this
    linarith
  refine ⟨.poly r1 [r2], .atom (.poly (.ring r3)), .atom (.line l), .atom (.line m), ha, hb, hc, hd, ?_, ?_, ?_⟩
  · rw [k1, k2.2]
    refine ⟨⟨inTri, ?_⟩, fun w hw => inner w ?_⟩
    · have hin : Inside (segments tri true) inTri := by
        rw [← insideB_iff]
        decide +kernel
      exact ⟨.inr hin, by simp⟩
    · have : segments tri true = edges tri := by decide +kernel
      refine region_rect (l := tri) (by decide +kernel) (by show ∀ v ∈ tri, _ ∧ _ ∧ _ ∧ _; decide +kernel) ?_
      rw [← this]
      exact hw.1
  · rw [k3, k4.2]
    refine ⟨⟨inTri, ⟨inTri, ⟨17, 16⟩⟩, by simp [edges], onSeg_left _⟩, fun w hw => inner w ?_⟩
    obtain ⟨t, ht, hw⟩ := hw
    simp only [edges, List.mem_cons, List.not_mem_nil, or_false] at ht
    rw [ht] at hw
    obtain ⟨h1, h2, h3, h4⟩ := onSeg_rect hw
    have e : (0 : ℚ) ≤ inTri.x ∧ inTri.x ≤ 17 ∧ 0 ≤ inTri.y ∧ inTri.y ≤ 16 := by decide +kernel
    have g1 := min_le_iff.1 h1
    have g2 := le_max_iff.1 h2
    have g3 := min_le_iff.1 h3
    have g4 := le_max_iff.1 h4
    dsimp only at g1 g2 g3 g4
    refine ⟨?_, ?_, ?_, ?_⟩ <;> dsimp only
    · rcases g1 with g | g <;> linarith [e.1]
    · rcases g2 with g | g <;> linarith [e.2.1]
    · rcases g3 with g | g <;> linarith [e.2.2.1]
    · rcases g4 with g | g <;> linarith [e.2.2.2]
  · rw [k5]
    cases d with
    | false => rfl
    | true =>
      exfalso
      have := (k6.1 rfl).2 ⟨-10, -11⟩ ⟨⟨inTri, ⟨-10, -11⟩⟩, by simp [edges], onSeg_right _⟩
      exact this.2 _ (List.mem_singleton_self _) (.inr ((box_inside (by norm_num) (by norm_num) _).2 (by norm_num)))

end Tg
