import Verif.Lemmas.MarginGeo
/-!
C81: the answers for coordinates that are any doubles of usual size. The theorems about doubles (C66 and the ones that follow from it) are for coordinates
on a grid of 24 bits, where nothing is rounded that matters. Here the coordinates are any doubles up to `M ≤ 2 ^ 100` that are zero or not less than
`2 ^ -100`, as read from decimals. The answers are right for all points that are not nearer than about `M / 2 ^ 46` to the line of a segment. For degrees
that is less than a micrometre on the ground.
-/
namespace Tg

open S Spec.Double Double

variable {F : Fp} (hF : Rounding F.rnd) {M : ℚ} (hM : M ≤ 2 ^ 100)
include hF hM

/-! ### Segments -/

/-- C81. `raycast` answers `ON` for the points of the closed segment, and `IN` if the ray to the right crosses the segment without its upper end. -/
theorem C81_ray {s : Seg ℚ} {p : Pt ℚ} (hs : UsualSeg M s) (hp : UsualPt M p) (hc : Clear M s p) :
    (raycast F.arith s p = .on ↔ OnSeg s p) ∧ (raycast F.arith s p = .in_ ↔ Crosses s p) := by
  obtain ⟨ε, e0, h⟩ := exists_small s p
  rw [ray_far hF hM e0 (fun _ => 0) hs hp (h ε le_rfl) hc]
  exact ⟨raycast_on_iff, raycast_in_iff e0 (h ε le_rfl)⟩

/-- C81. `tg_segment_covers_point` holds exactly for the points of the closed segment. -/
theorem C81_covers_point {s : Seg ℚ} {p : Pt ℚ} (hs : UsualSeg M s) (hp : UsualPt M p) (hc : Clear M s p) : segCoversPt F.arith s p = true ↔ OnSeg s p :=
  seg_covers_pt_far hF hM hs hp hc

/-- C81. `tg_segment_intersects_segment` holds exactly if the closed segments share a point, in either order. -/
theorem C81_intersects {s t : Seg ℚ} (hs : UsualSeg M s) (ht : UsualSeg M t) (h : Apart M s t) :
    (segIntersects F.arith s t = true ↔ Share s t) ∧ (segIntersects F.arith t s = true ↔ Share s t) := by
  refine ⟨seg_meet_far hF hM hs ht h, (seg_meet_far hF hM ht hs (h.symm hF hM)).trans ?_⟩
  exact ⟨fun ⟨p, x, y⟩ => ⟨p, y, x⟩, fun ⟨p, x, y⟩ => ⟨p, y, x⟩⟩

/-! ### Rings, lines and geometries -/

section
variable {q : ℚ → ℚ} (hq : Spec.Float32.Rounding q) (hn : ∀ pts, F.ns pts < 2 ^ 31)
include hq

/-- C81. The point test of a ring follows the even-odd rule, with any index. -/
theorem C81_point_in_ring (hn : ∀ pts, F.ns pts < 2 ^ 31) {s : Series ℚ} (he : 2 ≤ s.e.spread ∧ s.e.spread ≤ 4096) {p : Pt ℚ} (hp : UsualPt M p) (hc : RingClear M s p)
    {r : Ring ℚ ℚ} (hr : newIx (F.ix32 q) F.arith s.e s.pts true s.ix = some r) (edge : Bool) :
    ∃ b, (ringContainsPoint (F.ix32 q) F.arith r p edge).map (·.1) = some b ∧
      (b = true ↔ if edge then InRegion (segments s.pts true) p else Inside (segments s.pts true) p) := by
  obtain ⟨b, idx, h1, h2⟩ := ring_far hF hM (plain_fits hF hq).lawful hn he hp hc hr edge
  exact ⟨b, by rw [h1]; rfl, h2⟩

/-- C81. Two lines intersect exactly if they have a point in common, with any index. -/
theorem C81_lines {s t : Series ℚ} (us : ∀ v ∈ s.pts, UsualPt M v) (ut : ∀ v ∈ t.pts, UsualPt M v) (ap : ∀ u ∈ edges s.pts, ∀ v ∈ edges t.pts, Apart M u v)
    {a b : Atom ℚ ℚ} (ha : (AShape.line s).By (F.maker (F.ix32 q)) a) (hb : (AShape.line t).By (F.maker (F.ix32 q)) b) (R : RArith ℚ) (fuel : Nat) :
    ∃ r, geoIntersects ⟨F.ix32 q, F.arith, R, fuel⟩ (.atom a) (.atom b) = some r ∧ (r = true ↔ ∃ w, AShape.Has (.line s) w ∧ AShape.Has (.line t) w) := by
  obtain ⟨l, rfl⟩ : ∃ l, a = .line l := by
    cases a with
    | line l => exact ⟨l, rfl⟩
    | point _ => exact ha.elim
    | poly _ => exact ha.elim
  obtain ⟨m, rfl⟩ : ∃ l, b = .line l := by
    cases b with
    | line l => exact ⟨l, rfl⟩
    | point _ => exact hb.elim
    | poly _ => exact hb.elim
  obtain ⟨r, h1, h2⟩ := lines_far hF hM (plain_fits hF hq) (R := R) (fuel := fuel) ha.1 hb.1 us ut ap ha.2 hb.2
  refine ⟨r, ?_, h2⟩
  rw [geoIntersects, geoX, someGeo, atomX]
  exact h1

include hn
variable {H : HArith ℚ} {Q : Qsort} {a : Shape ℚ} {p : Pt ℚ} (hp : UsualPt M p) (hc : ∀ x ∈ a.atoms, x.ClearOf M p) {ga : Geo ℚ ℚ}
  (ha : a.By (F.maker (F.ix32 q)) H Q ga) (R : RArith ℚ) (fuel : Nat)
include hp hc ha

/-- C81. A geometry of any kind and nesting covers a point exactly if the point belongs to it. -/
theorem C81_covers : ∃ r, geoCovers ⟨F.ix32 q, F.arith, R, fuel⟩ ga (.atom (.point p)) = some r ∧
    geoCoveredBy ⟨F.ix32 q, F.arith, R, fuel⟩ (.atom (.point p)) ga = some r ∧ (r = true ↔ a.Has p) := by
  obtain ⟨r, k1, k2⟩ := geoCov_pt_by (p := p) (tab := atomCovers ⟨F.ix32 q, F.arith, R, fuel⟩) (q := fun x => x.Has p) ha fun x hx b hb =>
    atom_covers_far hF hM (plain_fits hF hq).lawful hn hb hp (hc x hx)
  exact ⟨r, k1, k1, by rw [k2, a.has_iff]⟩

/-- C81. It contains a point exactly if the point is in the interior of one of its parts. -/
theorem C81_contains : ∃ r, geoContains ⟨F.ix32 q, F.arith, R, fuel⟩ ga (.atom (.point p)) = some r ∧
    geoWithin ⟨F.ix32 q, F.arith, R, fuel⟩ (.atom (.point p)) ga = some r ∧ (r = true ↔ ∃ x ∈ a.atoms, x.Inner p) := by
  obtain ⟨r, k1, k2⟩ := geoCov_pt_by (p := p) (tab := atomContains ⟨F.ix32 q, F.arith, R, fuel⟩) (q := fun x => x.Inner p) ha fun x hx b hb =>
    atom_contains_far hF hM (plain_fits hF hq).lawful hn hb hp (hc x hx)
  exact ⟨r, k1, k1, k2⟩

/-- C81. A point intersects it exactly if the point belongs to it. -/
theorem C81_point_intersects : ∃ r, geoIntersects ⟨F.ix32 q, F.arith, R, fuel⟩ (.atom (.point p)) ga = some r ∧
    geoDisjoint ⟨F.ix32 q, F.arith, R, fuel⟩ (.atom (.point p)) ga = some (!r) ∧ (r = true ↔ a.Has p) := by
  obtain ⟨r, k1, k2⟩ := someGeo_by (t := atomX ⟨F.ix32 q, F.arith, R, fuel⟩ (.point p)) (q := fun x => x.Has p) ha fun x hx b hb =>
    atom_meets_far hF hM (plain_fits hF hq).lawful hn hb hp (hc x hx)
  have k3 : geoIntersects ⟨F.ix32 q, F.arith, R, fuel⟩ (.atom (.point p)) ga = some r := by rw [geoIntersects, geoX]; exact k1
  exact ⟨r, k3, by rw [geoDisjoint, k3]; rfl, by rw [k2, a.has_iff]⟩

end

/-! ### The distance is needed -/

omit hM

omit hF in
theorem S.usual_int {M x : ℚ} (n j : ℤ) (hx : x = n * 2 ^ j) (hn : |n| ≤ 2 ^ 53) (h1 : -1074 ≤ j) (h2 : j ≤ 960) (h3 : x = 0 ∨ 1 / 2 ^ 100 ≤ |x|)
    (h4 : |x| ≤ M) : Usual M x := ⟨by rw [hx]; exact isD_int hn h1 h2, h3, h4⟩

theorem S.fl_neg_one : F.fl (-1) = -1 := by
  have := F.fl_int0 hF (n := -1) (by norm_num)
  simpa using this

theorem S.fl_next_one {δ : ℚ} (h0 : 0 < δ) (h1 : δ ≤ 1 / 2 ^ 60) : F.fl (-δ - 1) = -1 := by
  have hr : InR (-δ - 1) := inR_of (by
    refine le_trans (b := 2 ^ 1) ?_ (pow_le_pow_right₀ (by norm_num) (by norm_num))
    rw [abs_le]
    norm_num at h1 ⊢
    constructor <;> linarith)
  have hr' : InR (-1) := inR_of (by
    refine le_trans (b := 2 ^ 1) ?_ (pow_le_pow_right₀ (by norm_num) (by norm_num))
    rw [abs_le]; norm_num)
  have h2 := F.fl_mono hF hr hr' (by linarith)
  rw [fl_neg_one hF] at h2
  have h3 := ((hF _ hr).2.2 _ (hF _ hr').2.1).1
  have e : val (F.rnd (-1)) = -1 := fl_neg_one hF
  rw [e, show val (F.rnd (-δ - 1)) = F.fl (-δ - 1) from rfl] at h3
  obtain ⟨m, hm⟩ := isD_mult (j := -52) (⟨_, (hF _ hr).2.1, rfl⟩ : IsD (F.fl (-δ - 1))) (by norm_num) (by
    rw [abs_of_neg (by linarith)]
    norm_num
    linarith)
  rw [hm] at h2 h3 ⊢
  have e2 : (2 : ℚ) ^ (-52 : ℤ) = 1 / 2 ^ 52 := by norm_num
  rw [e2] at h2 h3 ⊢
  rw [show |-δ - 1 - -1| = δ from by rw [show -δ - 1 - -1 = -δ by ring, abs_neg]; exact abs_of_pos h0] at h3
  have h4 := (abs_le.1 h3).2
  have l1 : (m : ℚ) ≤ -2 ^ 52 := by linarith
  have l2 : (-2 ^ 52 - 1 : ℚ) < m := by
    have : δ * 2 ^ 52 ≤ 1 / 2 ^ 8 := by linarith
    linarith
  have l1 : m ≤ -2 ^ 52 := by exact_mod_cast l1
  have l2 : -2 ^ 52 - 1 < m := by exact_mod_cast l2
  have : m = -2 ^ 52 := by omega
  rw [this]
  norm_num

/-- C81 fails for points that are nearer: this point is to the left of the segment from (1, 0) to (0, 1), by 2^-60, at the height of its upper end.
`raycast` says that the point is on the segment, because the difference -1 - 2^-60 is rounded to -1. -/
theorem C81_needed : let s : Seg ℚ := ⟨⟨1, 0⟩, ⟨0, 1⟩⟩; let p : Pt ℚ := ⟨-(1 / 2 ^ 60), 1⟩
    UsualSeg 1 s ∧ UsualPt 1 p ∧ ¬ InBox s p ∧ ¬ OnSeg s p ∧ raycast F.arith s p = .on := by
  intro s p
  have d0 : Usual 1 0 := usual_int 0 0 (by norm_num) (by norm_num) (by norm_num) (by norm_num) (.inl rfl) (by norm_num)
  have d1 : Usual 1 1 := usual_int 1 0 (by norm_num) (by norm_num) (by norm_num) (by norm_num) (.inr (by norm_num)) (by norm_num)
  have d2 : Usual 1 (-(1 / 2 ^ 60)) := usual_int (-1) (-60) (by norm_num) (by norm_num) (by norm_num) (by norm_num)
    (.inr (by rw [abs_neg, abs_of_pos (by norm_num)]; norm_num)) (by rw [abs_neg, abs_of_pos (by norm_num)]; norm_num)
  have hbox : ¬ InBox s p := by
    rintro ⟨h, -⟩
    norm_num [s, p] at h
  refine ⟨⟨⟨d1, d0⟩, d0, d1⟩, ⟨d2, d1⟩, hbox, ?_, ?_⟩
  · intro h
    have h1 := onSeg_rect h
    exact hbox ⟨min_le_iff.1 h1.1, le_max_iff.1 h1.2.1, min_le_iff.1 h1.2.2.1, le_max_iff.1 h1.2.2.2⟩
  have k1 : F.sub (-(1 / 2 ^ 60)) 1 = -1 := fl_next_one hF (by norm_num) le_rfl
  clear d0 d1 d2 hbox
  have p0 : 0 < (1 / 2 ^ 60 : ℚ) := by norm_num
  revert k1 p0
  dsimp only [s, p]
  generalize (1 / 2 ^ 60 : ℚ) = δ
  intro k1 p0
  have e0 : F.fl 0 = 0 := F.fl_zero hF
  have e1 : F.fl 1 = 1 := F.fl_one hF
  have e2 : F.fl (-1) = -1 := fl_neg_one hF
  have k2 : F.sub 1 0 = 1 := by rw [Fp.sub, sub_zero, e1]
  have k3 : F.sub 0 1 = -1 := by rw [Fp.sub, zero_sub, e2]
  have k4 : F.mul (-1) 1 = -1 := by rw [Fp.mul, mul_one, e2]
  have k5 : F.mul 1 (-1) = -1 := by rw [Fp.mul, one_mul, e2]
  have k6 : F.div (-1) 1 = -1 := by rw [Fp.div, if_neg one_ne_zero, div_one, e2]
  have k7 : F.div (-1) (-1) = 1 := by rw [Fp.div, if_neg (by norm_num), div_self (by norm_num), e1]
  have k8 : F.sub (-1) (-1) = 0 := by rw [Fp.sub, sub_self, e0]
  have k9 : F.sub 1 1 = 0 := by rw [Fp.sub, sub_self, e0]
  have hcr : F.cross0 ⟨1, 0⟩ ⟨0, 1⟩ ⟨-δ, 1⟩ = true := by
    rw [Fp.cross0]
    dsimp only
    rw [k1, k2, k3, k4, k5, k6, k7, k8, k9]
    simp only [lt_irrefl, if_false, gt_iff_lt, k8]
    simp [feq]
  have hd : -δ ≠ 0 := by linarith
  have hd1 : (1 : ℚ) ≠ -δ := by linarith
  have hcol : collinear F.arith ⟨1, 0⟩ ⟨0, 1⟩ ⟨-δ, 1⟩ = true := by
    unfold collinear
    dsimp only
    rw [if_neg (by rw [feq_iff]; norm_num), if_neg (by rw [feq_iff]; norm_num)]
    split_ifs
    · rfl
    · exact hcr
  unfold raycast
  dsimp only [Seg.rect]
  rw [if_neg (by norm_num), if_neg (by norm_num), if_neg (by norm_num; linarith), if_neg (by norm_num)]
  unfold raycastMid
  rw [if_neg (by simp [pteq_iff, hd, hd1.symm]), if_neg (by norm_num), if_neg (by norm_num), if_neg (by norm_num), if_pos hcol, if_pos (by norm_num; exact p0),
    if_neg (by norm_num)]

/-! ### Examples -/

omit hF

/-- 0.1, 0.2, 0.3, 5.1, 5.5, 7.7 and 10.3 as the parsers read them: all but 5.5 need the 53 bits of a double. -/
theorem S.usual_decimals : Usual 180 (3602879701896397 / 2 ^ 55) ∧ Usual 180 (3602879701896397 / 2 ^ 54) ∧ Usual 180 (5404319552844595 / 2 ^ 54) ∧
    Usual 180 (5742089524897382 / 2 ^ 50) ∧ Usual 180 (6192449487634432 / 2 ^ 50) ∧ Usual 180 (8669429282688205 / 2 ^ 50) ∧
    Usual 180 (5798384520239514 / 2 ^ 49) := by
  refine ⟨usual_int 3602879701896397 (-55) ?_ ?_ ?_ ?_ ?_ ?_, usual_int 3602879701896397 (-54) ?_ ?_ ?_ ?_ ?_ ?_, usual_int 5404319552844595 (-54) ?_ ?_ ?_ ?_ ?_ ?_,
    usual_int 5742089524897382 (-50) ?_ ?_ ?_ ?_ ?_ ?_, usual_int 6192449487634432 (-50) ?_ ?_ ?_ ?_ ?_ ?_, usual_int 8669429282688205 (-50) ?_ ?_ ?_ ?_ ?_ ?_,
    usual_int 5798384520239514 (-49) ?_ ?_ ?_ ?_ ?_ ?_⟩
  all_goals first | (right; rw [abs_of_pos (by norm_num)]; norm_num; done) | (rw [abs_of_pos (by norm_num)]; norm_num; done) | (norm_num; done)

/-- The triangle (0.1, 0.2), (10.3, 0.3), (5.5, 7.7). -/
def S.tri : List (Pt ℚ) := [⟨3602879701896397 / 2 ^ 55, 3602879701896397 / 2 ^ 54⟩, ⟨5798384520239514 / 2 ^ 49, 5404319552844595 / 2 ^ 54⟩,
  ⟨6192449487634432 / 2 ^ 50, 8669429282688205 / 2 ^ 50⟩, ⟨3602879701896397 / 2 ^ 55, 3602879701896397 / 2 ^ 54⟩]

/-- The point (5.1, 5.5). -/
def S.inTri : Pt ℚ := ⟨5742089524897382 / 2 ^ 50, 6192449487634432 / 2 ^ 50⟩

instance {M : ℚ} {s : Seg ℚ} {p : Pt ℚ} : Decidable (Off M s p) := by unfold Off; infer_instance

/-- The point is clear of the triangle, for any options of the ring. -/
theorem S.tri_clear (e : Env) (ix : BitVec 32) : RingClear 180 ⟨e, ix, tri⟩ inTri ∧ UsualPt 180 inTri := by
  obtain ⟨d1, d2, d3, d4, d5, d6, d7⟩ := usual_decimals
  refine ⟨⟨⟨(by decide : 3 ≤ tri.length), (by decide +kernel : tri.getLast? = tri.head?)⟩, ?_, ?_, ?_⟩, d4, d5⟩
  · intro v hv
    simp only [tri, List.mem_cons, List.not_mem_nil, or_false] at hv
    rcases hv with rfl | rfl | rfl | rfl
    exacts [⟨d1, d2⟩, ⟨d7, d3⟩, ⟨d5, d6⟩, ⟨d1, d2⟩]
  · intro t ht
    have h : ∀ t ∈ segments tri true, Off 180 t inTri := by decide +kernel
    exact .inl (h t ht)
  · refine ⟨⟨6192449487634432 / 2 ^ 50, 8669429282688205 / 2 ^ 50⟩, by simp [tri], ⟨3602879701896397 / 2 ^ 55, 3602879701896397 / 2 ^ 54⟩, by simp [tri], ?_, .inr (.inl ?_)⟩
    · show ∀ q ∈ tri, _
      decide +kernel
    · decide +kernel

/-- There are roundings, and the polygon can be made; it covers and contains the point. -/
example : ∃ (F : Fp) (q : ℚ → ℚ), Rounding F.rnd ∧ Spec.Float32.Rounding q ∧ (∀ pts, F.ns pts < 2 ^ 31) ∧
    ∀ (H : HArith ℚ) (Q : Qsort) (R : RArith ℚ) (fuel : Nat), ∃ ga : Geo ℚ ℚ, (Shape.atom (.poly ⟨Env.initial, 0#32, tri⟩ [])).By (F.maker (F.ix32 q)) H Q ga ∧
      geoCovers ⟨F.ix32 q, F.arith, R, fuel⟩ ga (.atom (.point inTri)) = some true ∧
      geoContains ⟨F.ix32 q, F.arith, R, fuel⟩ ga (.atom (.point inTri)) = some true := by
  obtain ⟨rnd, h, -⟩ := Double.exists_rounding
  obtain ⟨q, hq⟩ := Float32.exists_rounding
  let F : Fp := ⟨rnd, fun _ => 0, fun _ => 0⟩
  refine ⟨F, q, h, hq, fun _ => by norm_num [F], fun H Q R fuel => ?_⟩
  have hF : Rounding F.rnd := h
  obtain ⟨o, ho⟩ := F.orient_some tri
  obtain ⟨r, hr⟩ := C24_built (plain_fits hF hq).lawful F.arith (e := Env.initial) ⟨by decide, by decide⟩ tri true 0#32 fun hk => absurd hk (by decide)
  let ga : Geo ℚ ℚ := .atom (.poly (.ring ⟨r, o.convex, o.clockwise⟩))
  have ha : (Shape.atom (.poly ⟨Env.initial, 0#32, tri⟩ [])).By (F.maker (F.ix32 q)) H Q ga := by
    refine ⟨rfl, ⟨by decide, by decide⟩, hr, ?_, ?_⟩ <;> (show (F.orient _).map _ = _; rw [ho]; rfl)
  obtain ⟨hc, hp⟩ := tri_clear Env.initial 0#32
  have hall : ∀ x ∈ (Shape.atom (.poly ⟨Env.initial, 0#32, tri⟩ [])).atoms, x.ClearOf 180 inTri := by
    intro x hx
    rw [Shape.atoms, List.mem_singleton] at hx
    subst hx
    intro s hs
    rw [List.mem_singleton.1 hs]
    exact hc
  have hM : (180 : ℚ) ≤ 2 ^ 100 := by norm_num
  obtain ⟨b, k1, -, k2⟩ := C81_covers hF hM hq (fun _ => by norm_num [F]) hp hall ha R fuel
  obtain ⟨c, k3, -, k4⟩ := C81_contains hF hM hq (fun _ => by norm_num [F]) hp hall ha R fuel
  have hin : Inside (segments tri true) inTri := by
    rw [← insideB_iff]
    decide +kernel
  refine ⟨ga, ha, ?_, ?_⟩
  · rw [k1, k2.2]
    exact ⟨.inr hin, by simp⟩
  · rw [k3, k4.2]
    exact ⟨_, List.mem_singleton_self _, hin, by simp⟩

/-- Two lines that cross at a point that is not a double. -/
example : (segIntersects arithQ ⟨⟨3602879701896397 / 2 ^ 55, 3602879701896397 / 2 ^ 54⟩, ⟨6192449487634432 / 2 ^ 50, 8669429282688205 / 2 ^ 50⟩⟩
      ⟨⟨5798384520239514 / 2 ^ 49, 3602879701896397 / 2 ^ 55⟩, ⟨5404319552844595 / 2 ^ 54, 5742089524897382 / 2 ^ 50⟩⟩ = true) ∧
    Apart 180 ⟨⟨3602879701896397 / 2 ^ 55, 3602879701896397 / 2 ^ 54⟩, ⟨6192449487634432 / 2 ^ 50, 8669429282688205 / 2 ^ 50⟩⟩
      ⟨⟨5798384520239514 / 2 ^ 49, 3602879701896397 / 2 ^ 55⟩, ⟨5404319552844595 / 2 ^ 54, 5742089524897382 / 2 ^ 50⟩⟩ := by
  refine ⟨by decide +kernel, .inl ?_⟩
  decide +kernel

end Tg
