import Verif.Lemmas.Decimal
import Verif.Props.Margin
import Verif.Props.EndToEnd
/-!
C82: the answers are right for the geometry as it is written in decimals, not only for the one of the rounded coordinates. `Pt.each F.fl p` is the point that
the library gets for `p`. The decimals have at most 15 digits, `k ≤ 20` of them after the point, and are at most `M ≤ 10 ^ 15`; the point is farther than
about `M / 2 ^ 44` from the segments, or comparisons tell where it is.
-/
namespace Tg

open S Spec Spec.Double Double

variable {F : Fp} (hF : Rounding F.rnd) {k M : ℕ} (hk : k ≤ 20) (h0 : 0 < M) (hM : M ≤ 10 ^ 15)
include hF hk h0 hM

omit hF hk h0 in
theorem dec_bound : (M : ℚ) ≤ 2 ^ 100 := by
  have : (M : ℚ) ≤ 10 ^ 15 := by exact_mod_cast hM
  exact this.trans (by norm_num)

/-- C82. `raycast` of the rounded coordinates tells where the decimal point is. -/
theorem C82_ray {s : Seg ℚ} {p : S.Pt ℚ} (hs : DecPt k M s.a ∧ DecPt k M s.b) (hp : DecPt k M p) (hc : ClearDec M s p) :
    (raycast F.arith (s.each F.fl) (p.each F.fl) = .on ↔ OnSeg s p) ∧ (raycast F.arith (s.each F.fl) (p.each F.fl) = .in_ ↔ Crosses s p) := by
  have K := keeps_fl hF hk h0 hM
  obtain ⟨h1, h2⟩ := C81_ray hF (dec_bound hM) ⟨usualPt_dec hF hk h0 hM hs.1, usualPt_dec hF hk h0 hM hs.2⟩ (usualPt_dec hF hk h0 hM hp) (K.clear hs.1 hs.2 hp hc)
  obtain ⟨k1, k2⟩ := K.seg hs.1 hs.2 hp hc
  exact ⟨h1.trans k1, h2.trans k2⟩

/-- C82. The segments of the rounded coordinates intersect exactly if the decimal segments share a point. -/
theorem C82_intersects {s t : Seg ℚ} (hs : DecPt k M s.a ∧ DecPt k M s.b) (ht : DecPt k M t.a ∧ DecPt k M t.b) (h : ApartDec M s t) :
    segIntersects F.arith (s.each F.fl) (t.each F.fl) = true ↔ Share s t := by
  have K := keeps_fl hF hk h0 hM
  obtain ⟨k1, k2⟩ := K.share hs ht h
  exact (C81_intersects hF (dec_bound hM) ⟨usualPt_dec hF hk h0 hM hs.1, usualPt_dec hF hk h0 hM hs.2⟩
    ⟨usualPt_dec hF hk h0 hM ht.1, usualPt_dec hF hk h0 hM ht.2⟩ k1).1.trans k2

section
variable {q : ℚ → ℚ} (hq : Spec.Float32.Rounding q)
include hq

/-- C82. Two lines made of the rounded coordinates of `s` and `t` intersect exactly if the decimal lines have a point in common. -/
theorem C82_lines {s t s' t' : Series ℚ} (us : ∀ v ∈ s.pts, DecPt k M v) (ut : ∀ v ∈ t.pts, DecPt k M v) (ap : ∀ u ∈ edges s.pts, ∀ v ∈ edges t.pts, ApartDec M u v)
    (hs : s.Maps (Pt.each F.fl) s') (ht : t.Maps (Pt.each F.fl) t') {a b : Atom ℚ ℚ} (ha : (AShape.line s').By (F.maker (F.ix32 q)) a)
    (hb : (AShape.line t').By (F.maker (F.ix32 q)) b) (R : RArith ℚ) (fuel : Nat) :
    ∃ r, geoIntersects ⟨F.ix32 q, F.arith, R, fuel⟩ (.atom a) (.atom b) = some r ∧ (r = true ↔ ∃ w, AShape.Has (.line s) w ∧ AShape.Has (.line t) w) := by
  have K := keeps_fl hF hk h0 hM
  have hs : s'.pts = s.pts.map (Pt.each F.fl) := hs
  have ht : t'.pts = t.pts.map (Pt.each F.fl) := ht
  have es : edges s'.pts = (edges s.pts).map (Seg.each F.fl) := by rw [hs]; exact edges_map _ _
  have et : edges t'.pts = (edges t.pts).map (Seg.each F.fl) := by rw [ht]; exact edges_map _ _
  have sh : ∀ u ∈ edges s.pts, ∀ v ∈ edges t.pts, Apart M (u.each F.fl) (v.each F.fl) ∧ (Share (u.each F.fl) (v.each F.fl) ↔ Share u v) := fun u hu v hv =>
    K.share ⟨us _ (seg_mem_pts (closed := false) hu).1, us _ (seg_mem_pts (closed := false) hu).2⟩
      ⟨ut _ (seg_mem_pts (closed := false) hv).1, ut _ (seg_mem_pts (closed := false) hv).2⟩ (ap u hu v hv)
  obtain ⟨r, h1, h2⟩ := C81_lines hF (dec_bound hM) hq (s := s') (t := t') (by rw [hs, List.forall_mem_map]; exact fun v hv => usualPt_dec hF hk h0 hM (us v hv))
    (by rw [ht, List.forall_mem_map]; exact fun v hv => usualPt_dec hF hk h0 hM (ut v hv))
    (by rw [es, et]; simp only [List.forall_mem_map]; exact fun u hu v hv => (sh u hu v hv).1) ha hb R fuel
  refine ⟨r, h1, h2.trans ?_⟩
  have flat : ∀ l m : List (Seg ℚ), (∃ w, OnBoundary l w ∧ OnBoundary m w) ↔ ∃ u ∈ l, ∃ v ∈ m, Share u v := fun l m =>
    ⟨fun ⟨w, ⟨u, hu, a⟩, v, hv, b⟩ => ⟨u, hu, v, hv, w, a, b⟩, fun ⟨u, hu, v, hv, w, a, b⟩ => ⟨w, ⟨u, hu, a⟩, v, hv, b⟩⟩
  show (∃ w, OnBoundary (edges s'.pts) w ∧ OnBoundary (edges t'.pts) w) ↔ ∃ w, OnBoundary (edges s.pts) w ∧ OnBoundary (edges t.pts) w
  rw [flat, flat, es, et]
  simp only [List.mem_map, exists_exists_and_eq_and]
  exact exists_congr fun u => and_congr_right fun hu => exists_congr fun v => and_congr_right fun hv => (sh u hu v hv).2

/-- C82. The point test of a ring made of the rounded coordinates of `s` follows the even-odd rule of the decimal ring. -/
theorem C82_point_in_ring (hn : ∀ pts, F.ns pts < 2 ^ 31) {s t : Series ℚ} (he : 2 ≤ t.e.spread ∧ t.e.spread ≤ 4096) {p : S.Pt ℚ} (hp : DecPt k M p)
    (hc : RingDec k M s p) (hm : s.Maps (Pt.each F.fl) t) {r : Ring ℚ ℚ} (hr : newIx (F.ix32 q) F.arith t.e t.pts true t.ix = some r) (edge : Bool) :
    ∃ b, (ringContainsPoint (F.ix32 q) F.arith r (p.each F.fl) edge).map (·.1) = some b ∧
      (b = true ↔ if edge then InRegion (segments s.pts true) p else Inside (segments s.pts true) p) := by
  obtain ⟨a1, a2, a3⟩ := ring_dec hF hk h0 hM hp hc hm
  obtain ⟨b, h1, h2⟩ := C81_point_in_ring hF (dec_bound hM) hq hn he (usualPt_dec hF hk h0 hM hp) a1 hr edge
  refine ⟨b, h1, h2.trans ?_⟩
  cases edge
  · exact a3
  · exact a2

variable (hn : ∀ pts, F.ns pts < 2 ^ 31) {H : HArith ℚ} {Q : Qsort} {e : Env} {ix : BitVec 32} {ga : Geo ℚ ℚ} {p : S.Pt ℚ} (hp : DecPt k M p)
  {xs : List (AShape ℚ)} (hc : ∀ x ∈ xs, x.ClearDec k M p) (R : RArith ℚ) (fuel : Nat)
include hn hp hc

/-- C82. A geometry made of the rounded coordinates of the shapes `xs`, however nested, covers the rounded point exactly if one of the decimal shapes has the
decimal point, contains it exactly if the point is in the interior of one, and is intersected by it exactly if one has it. -/
theorem C82_point {a : Shape ℚ} (hx : List.Forall₂ (AShape.Maps (Pt.each F.fl)) xs a.atoms) (ha : a.By (F.maker (F.ix32 q)) H Q ga) :
    ∃ r i, geoCovers ⟨F.ix32 q, F.arith, R, fuel⟩ ga (.atom (.point (p.each F.fl))) = some r ∧
      geoIntersects ⟨F.ix32 q, F.arith, R, fuel⟩ (.atom (.point (p.each F.fl))) ga = some r ∧
      geoContains ⟨F.ix32 q, F.arith, R, fuel⟩ ga (.atom (.point (p.each F.fl))) = some i ∧
      (r = true ↔ ∃ x ∈ xs, x.Has p) ∧ (i = true ↔ ∃ x ∈ xs, x.Inner p) := by
  obtain ⟨a1, a2, a3⟩ := shapes_dec hF hk h0 hM hp hc hx
  obtain ⟨r, k1, -, k2⟩ := C81_covers hF (dec_bound hM) hq hn (usualPt_dec hF hk h0 hM hp) a1 ha R fuel
  obtain ⟨i, k3, -, k4⟩ := C81_contains hF (dec_bound hM) hq hn (usualPt_dec hF hk h0 hM hp) a1 ha R fuel
  obtain ⟨r', k5, -, k6⟩ := C81_point_intersects hF (dec_bound hM) hq hn (usualPt_dec hF hk h0 hM hp) a1 ha R fuel
  have : r' = r := by rw [Bool.eq_iff_iff, k6, k2]
  subst this
  exact ⟨r', i, k1, k5, k3, by rw [k2, a.has_iff, a2], k4.trans a3⟩

omit hF hk h0 hM hq hn hp hc in
/-- An object that shows a point is a point. -/
theorem point_shape {b : Geom} {z m : Bool} {c : List F64} (hb : view b = some (.point z m (some c))) (e : Env) (ix : BitVec 32) :
    b.shape e ix = .atom (.point (posPt c)) := by
  cases b with
  | point fl p =>
    rw [view] at hb
    split_ifs at hb
    cases hb
    rfl
  | gpoint fl p z m x =>
    rw [view] at hb
    by_cases hE : fl.isEmpty = true
    · rw [if_pos hE] at hb
      split_ifs at hb
      cases hb
    · rw [if_neg hE, Option.some.injEq, GV.point.injEq, Option.some.injEq] at hb
      rw [Geom.shape, if_neg hE, ← hb.2.2]
      rfl
  | line | poly => rw [view] at hb; split_ifs at hb; cases hb
  | gline _ l | gpoly _ l =>
    cases l <;> rw [view] at hb <;> split_ifs at hb <;> cases hb
  | mpoint => rw [view] at hb; cases hb
  | mline | mpoly | coll =>
    rw [view] at hb
    split_ifs at hb
    all_goals first | (cases hb; done) | (split at hb <;> cases hb)
  | err => rw [view] at hb; cases hb

/-- C82. The same for two objects, one of which shows a point: `xs` are the parts of the geometry `v` with their decimal coordinates. -/
theorem C82_objects {a b : Geom} {v : GV} {z m : Bool} {c : List F64} (ha : view a = some v) (hb : view b = some (.point z m (some c)))
    (hx : List.Forall₂ (AShape.Maps (Pt.each F.fl)) xs (parts e ix v)) (hpc : posPt c = p.each F.fl) {gb : Geo ℚ ℚ} {e' : Env} {ix' : BitVec 32}
    (ma : (a.shape e ix).By (F.maker (F.ix32 q)) H Q ga) (mb : (b.shape e' ix').By (F.maker (F.ix32 q)) H Q gb) :
    ∃ r i, geoCovers ⟨F.ix32 q, F.arith, R, fuel⟩ ga gb = some r ∧ geoIntersects ⟨F.ix32 q, F.arith, R, fuel⟩ gb ga = some r ∧
      geoContains ⟨F.ix32 q, F.arith, R, fuel⟩ ga gb = some i ∧ (r = true ↔ ∃ x ∈ xs, x.Has p) ∧ (i = true ↔ ∃ x ∈ xs, x.Inner p) := by
  rw [point_shape hb, hpc] at mb
  obtain rfl : gb = .atom (.point (p.each F.fl)) := by
    cases gb with
    | atom t => cases t with
      | point w => rw [show w = _ from mb]
      | line _ => exact mb.elim
      | poly _ => exact mb.elim
    | null => exact mb.elim
    | empty => exact mb.elim
    | multi => exact mb.elim
  have same := view_parts e ix a v ha
  obtain ⟨a1, a2, a3⟩ := shapes_dec hF hk h0 hM hp hc hx
  have a1' : ∀ y ∈ (a.shape e ix).atoms, y.ClearOf M (p.each F.fl) := (same.forall_iff _ fun y hy => by
    obtain ⟨s, hs, rfl⟩ := solid_false hy
    simp [AShape.ClearOf, hs, edges]).2 a1
  obtain ⟨r, k1, -, k2⟩ := C81_covers hF (dec_bound hM) hq hn (usualPt_dec hF hk h0 hM hp) a1' ma R fuel
  obtain ⟨i, k3, -, k4⟩ := C81_contains hF (dec_bound hM) hq hn (usualPt_dec hF hk h0 hM hp) a1' ma R fuel
  obtain ⟨r', k5, -, k6⟩ := C81_point_intersects hF (dec_bound hM) hq hn (usualPt_dec hF hk h0 hM hp) a1' ma R fuel
  have : r' = r := by rw [Bool.eq_iff_iff, k6, k2]
  subst this
  refine ⟨r', i, k1, k5, k3, ?_, ?_⟩
  · rw [k2, Shape.has_iff, same.exists_iff _ fun x hx => void_has hx _, a2]
  · rw [k4, same.exists_iff _ fun x hx => ?_, a3]
    obtain ⟨s, hs, rfl⟩ := solid_false hx
    simp [AShape.Inner, hs, edges, OnBoundary]

/-- C82. A WKT text and the GeoJSON text of a point. -/
theorem C82_texts {sd : List Byte → F64} {sd' : List Byte → F64 × Nat} {rnd : ℚ → F64} (hs : Wkt.Strtod sd rnd) (hs' : StrtodAll sd' rnd)
    {v : GV} {z m : Bool} {c : List F64} (hv : Wkt.Wf v) (hu : Wkt.Wf (.point z m (some c))) (hz : Geojson.ZFirst (.point z m (some c))) {d t w w' : List Byte}
    (hd : Wkt.IsText (Wkt.NumOf rnd) v d) (hcn : d.count 0x28#8 ≤ 1024) (ht : Geojson.IsGeometry (ShortNum rnd) (.point z m (some c)) t) (hw : Spec.Json.Ws w)
    (hw' : Spec.Json.Ws w') (hl : Spec.Json.Val Spec.Json.Str 1024 t) (hxx : ¬ ([0xF4, 0x8F, 0xBF, 0xBF] : List Byte) <:+: w ++ (t ++ w'))
    (hx : List.Forall₂ (AShape.Maps (Pt.each F.fl)) xs (parts e ix v)) (hpc : posPt c = p.each F.fl) (e' : Env) (ix' : BitVec 32) :
    ∃ a b, Wp.tgParseWkt sd d = .geom a ∧ Gp.tgParseGeojson sd' (w ++ (t ++ w')) = .geom b ∧
      ∀ ga gb : Geo ℚ ℚ, (a.shape e ix).By (F.maker (F.ix32 q)) H Q ga → (b.shape e' ix').By (F.maker (F.ix32 q)) H Q gb →
        ∃ r i, geoCovers ⟨F.ix32 q, F.arith, R, fuel⟩ ga gb = some r ∧ geoIntersects ⟨F.ix32 q, F.arith, R, fuel⟩ gb ga = some r ∧
          geoContains ⟨F.ix32 q, F.arith, R, fuel⟩ ga gb = some i ∧ (r = true ↔ ∃ x ∈ xs, x.Has p) ∧ (i = true ↔ ∃ x ∈ xs, x.Inner p) := by
  obtain ⟨a, a1, a2⟩ := C52_wkt_accepted sd rnd hs v hv d hd hcn
  obtain ⟨b, b1, b2, -⟩ := C55_geojson_accepted sd' rnd hs' _ hu hz t w w' ht hw hw' hl hxx
  rw [Geojson.reread] at b2
  refine ⟨a, b, a1, b1, fun ga gb ma mb => ?_⟩
  exact C82_objects hF hk h0 hM hq hn hp hc R fuel a2 b2 (by rw [parts_bare]; exact hx) hpc ma mb

end

/-! ### The distance is needed -/

omit hk h0 hM in
theorem S.fl_tenth : F.fl (1 / 10) = 7205759403792794 * 2 ^ (-56 : ℤ) := by
  have := F.fl_nearest hF (q := 1 / 10) (n := 7205759403792794) (j := -56) (by norm_num) (by norm_num) (by norm_num) (by norm_num) (by
    rw [abs_of_neg (by norm_num)]; norm_num)
  simpa using this

omit hk h0 hM in
theorem S.fl_seven_tenths : F.fl (7 / 10) = 6305039478318694 * 2 ^ (-53 : ℤ) := by
  have := F.fl_nearest hF (q := 7 / 10) (n := 6305039478318694) (j := -53) (by norm_num) (by norm_num) (by norm_num) (by norm_num) (by
    rw [abs_of_pos (by norm_num)]; norm_num)
  simpa using this

omit hk h0 hM in
/-- C82 fails for points on a slanted segment: the point (0.1, 0.7) is on the segment from (0, 0) to (1, 7), and the rounded point is not, and
`tg_segment_covers_point` says so. -/
theorem C82_needed : let s : Seg ℚ := ⟨⟨0, 0⟩, ⟨1, 7⟩⟩; let p : S.Pt ℚ := ⟨1 / 10, 7 / 10⟩
    (DecPt 1 7 s.a ∧ DecPt 1 7 s.b ∧ DecPt 1 7 p) ∧ OnSeg s p ∧ ¬ OnSeg (s.each F.fl) (p.each F.fl) ∧ segCoversPt F.arith (s.each F.fl) (p.each F.fl) = false := by
  intro s p
  have d0 : Dec 1 7 0 := ⟨⟨0, by norm_num, by norm_num⟩, by norm_num⟩
  have d1 : Dec 1 7 1 := ⟨⟨10, by norm_num, by norm_num⟩, by norm_num⟩
  have d7 : Dec 1 7 7 := ⟨⟨70, by norm_num, by norm_num⟩, by norm_num⟩
  have dx : Dec 1 7 (1 / 10) := ⟨⟨1, by norm_num, by norm_num⟩, by rw [abs_of_pos (by norm_num)]; norm_num⟩
  have dy : Dec 1 7 (7 / 10) := ⟨⟨7, by norm_num, by norm_num⟩, by rw [abs_of_pos (by norm_num)]; norm_num⟩
  have e0 : F.fl 0 = 0 := F.fl_zero hF
  have e1 : F.fl 1 = 1 := F.fl_one hF
  have e7 : F.fl 7 = 7 := by simpa using F.fl_int0 hF (n := 7) (by norm_num)
  have ex : F.fl (1 / 10) = 3602879701896397 / 2 ^ 55 := by rw [fl_tenth hF]; norm_num
  have ey : F.fl (7 / 10) = 3152519739159347 / 2 ^ 52 := by rw [fl_seven_tenths hF]; norm_num
  have hs : s.each F.fl = ⟨⟨0, 0⟩, ⟨1, 7⟩⟩ := by simp only [Seg.each, Pt.each, s, e0, e1, e7]
  have hp : p.each F.fl = ⟨3602879701896397 / 2 ^ 55, 3152519739159347 / 2 ^ 52⟩ := by simp only [Pt.each, p, ex, ey]
  have fx : F.fl (3602879701896397 / 2 ^ 55) = 3602879701896397 / 2 ^ 55 := by
    have := F.fl_int hF (n := 3602879701896397) (j := -55) (by norm_num) (by norm_num) (by norm_num)
    norm_num at this ⊢
    exact this
  have fy : F.fl (3152519739159347 / 2 ^ 52) = 3152519739159347 / 2 ^ 52 := by
    have := F.fl_int hF (n := 3152519739159347) (j := -52) (by norm_num) (by norm_num) (by norm_num)
    norm_num at this ⊢
    exact this
  have fm : F.fl (3602879701896397 / 2 ^ 55 * 7) = 6305039478318695 / 2 ^ 53 := by
    have := F.fl_nearest hF (q := 3602879701896397 / 2 ^ 55 * 7) (n := 6305039478318695) (j := -53) (by norm_num) (by norm_num) (by norm_num) (by norm_num) (by
      rw [abs_of_neg (by norm_num)]; norm_num)
    rw [this]; norm_num
  have fd : F.fl (6305039478318695 / 2 ^ 53 / 7) = 3602879701896397 / 2 ^ 55 := by
    have := F.fl_nearest hF (q := 6305039478318695 / 2 ^ 53 / 7) (n := 7205759403792794) (j := -56) (by norm_num) (by norm_num) (by norm_num) (by norm_num) (by
      rw [abs_of_pos (by norm_num)]; norm_num)
    rw [this]; norm_num
  have fs : F.fl (6305039478318695 / 2 ^ 53 - 3152519739159347 / 2 ^ 52) = 1 / 2 ^ 53 := by
    have := F.fl_int hF (n := 1) (j := -53) (by norm_num) (by norm_num) (by norm_num)
    norm_num at this ⊢
    exact this
  have hcol : collinear F.arith ⟨0, 0⟩ ⟨1, 7⟩ ⟨3602879701896397 / 2 ^ 55, 3152519739159347 / 2 ^ 52⟩ = false := by
    have hcr : F.cross0 ⟨0, 0⟩ ⟨1, 7⟩ ⟨3602879701896397 / 2 ^ 55, 3152519739159347 / 2 ^ 52⟩ = false := by
      rw [Fp.cross0]
      simp only [Fp.sub, Fp.mul, Fp.div, sub_zero, e1, e7, fx, fy, fm, mul_one, div_one, fd, sub_self, e0, lt_irrefl, gt_iff_lt, if_false, if_neg, fs,
        one_ne_zero, (by norm_num : (7 : ℚ) ≠ 0)]
      rw [← Bool.not_eq_true, feq_iff]
      norm_num
    unfold collinear
    rw [if_neg (by rw [feq_iff]; norm_num), if_neg (by rw [feq_iff]; norm_num), if_neg]
    · exact hcr
    · simp only [Bool.or_eq_true, Bool.and_eq_true, feq_iff]
      norm_num
  refine ⟨⟨⟨d0, d0⟩, ⟨d1, d7⟩, dx, dy⟩, ⟨1 / 10, by norm_num, by norm_num, by norm_num [s, p], by norm_num [s, p]⟩, ?_, ?_⟩
  · rw [hs, hp, onSeg_box]
    rintro ⟨-, h⟩
    unfold cross at h
    norm_num at h
  · rw [hs, hp]
    unfold segCoversPt
    dsimp only
    rw [hcol]
    split_ifs <;> rfl

/-! ### A case -/

omit hF hk h0 hM

theorem S.dec_of {k M : ℕ} {x : ℚ} (n : ℤ) (h1 : |n| < 10 ^ 15) (h2 : x = n / 10 ^ k) (h3 : |x| ≤ M) : Dec k M x := ⟨⟨n, h1, h2⟩, h3⟩

instance {M : ℚ} {s : Seg ℚ} {p : S.Pt ℚ} : Decidable (OffDec M s p) := by unfold OffDec; infer_instance

/-- The triangle (0.1, 0.2), (10.3, 0.3), (5.5, 7.7), as it is written. -/
def S.decTri : List (S.Pt ℚ) := [⟨1 / 10, 2 / 10⟩, ⟨103 / 10, 3 / 10⟩, ⟨55 / 10, 77 / 10⟩, ⟨1 / 10, 2 / 10⟩]

/-- The point (5.1, 5.5) is clear of the triangle and in its interior. -/
theorem S.decTri_clear (e : Env) (ix : BitVec 32) : RingDec 1 180 ⟨e, ix, decTri⟩ ⟨51 / 10, 55 / 10⟩ ∧ DecPt 1 180 ⟨51 / 10, 55 / 10⟩ ∧
    Inside (segments decTri true) ⟨51 / 10, 55 / 10⟩ := by
  have d : ∀ n : ℤ, 0 ≤ n → n ≤ 1800 → Dec 1 180 (n / 10) := by
    intro n h1 h2
    have h1' : (0 : ℚ) ≤ n := by exact_mod_cast h1
    have h2' : (n : ℚ) ≤ 1800 := by exact_mod_cast h2
    refine dec_of n ?_ (by norm_num) ?_
    · rw [abs_of_nonneg h1]; omega
    · rw [abs_of_nonneg (div_nonneg h1' (by norm_num)), div_le_iff₀ (by norm_num)]
      push_cast
      linarith
  have d1 : Dec 1 180 (1 / 10) := by simpa using d 1 (by norm_num) (by norm_num)
  have d2 : Dec 1 180 (2 / 10) := by simpa using d 2 (by norm_num) (by norm_num)
  have d3 : Dec 1 180 (3 / 10) := by simpa using d 3 (by norm_num) (by norm_num)
  have d4 : Dec 1 180 (51 / 10) := by simpa using d 51 (by norm_num) (by norm_num)
  have d5 : Dec 1 180 (55 / 10) := by simpa using d 55 (by norm_num) (by norm_num)
  have d6 : Dec 1 180 (77 / 10) := by simpa using d 77 (by norm_num) (by norm_num)
  have d7 : Dec 1 180 (103 / 10) := by simpa using d 103 (by norm_num) (by norm_num)
  refine ⟨⟨⟨(by decide : 3 ≤ decTri.length), (by decide +kernel : decTri.getLast? = decTri.head?)⟩, ?_, ?_, ?_⟩, ⟨d4, d5⟩, ?_⟩
  · intro v hv
    simp only [decTri, List.mem_cons, List.not_mem_nil, or_false] at hv
    rcases hv with rfl | rfl | rfl | rfl
    exacts [⟨d1, d2⟩, ⟨d7, d3⟩, ⟨d5, d6⟩, ⟨d1, d2⟩]
  · intro t ht
    have h : ∀ t ∈ segments decTri true, OffDec 180 t ⟨51 / 10, 55 / 10⟩ := by decide +kernel
    exact .inl (by exact_mod_cast h t ht)
  · refine ⟨⟨55 / 10, 77 / 10⟩, by simp [decTri], ⟨1 / 10, 2 / 10⟩, by simp [decTri], ?_, .inr ?_⟩
    · show ∀ q ∈ decTri, _
      decide +kernel
    · decide +kernel
  · rw [← insideB_iff]
    decide +kernel

/-- The polygon of the triangle can be made, and it covers and contains the point. -/
example : ∃ (F : Fp) (q : ℚ → ℚ), Rounding F.rnd ∧ Spec.Float32.Rounding q ∧ (∀ pts, F.ns pts < 2 ^ 31) ∧
    ∀ (H : HArith ℚ) (Q : Qsort) (R : RArith ℚ) (fuel : Nat), ∃ ga : Geo ℚ ℚ,
      (Shape.atom (.poly ⟨Env.initial, 0#32, decTri.map (Pt.each F.fl)⟩ [])).By (F.maker (F.ix32 q)) H Q ga ∧
      geoCovers ⟨F.ix32 q, F.arith, R, fuel⟩ ga (.atom (.point (Pt.each F.fl ⟨51 / 10, 55 / 10⟩))) = some true ∧
      geoContains ⟨F.ix32 q, F.arith, R, fuel⟩ ga (.atom (.point (Pt.each F.fl ⟨51 / 10, 55 / 10⟩))) = some true := by
  obtain ⟨rnd, h, -⟩ := Double.exists_rounding
  obtain ⟨q, hq⟩ := Float32.exists_rounding
  let F : Fp := ⟨rnd, fun _ => 0, fun _ => 0⟩
  refine ⟨F, q, h, hq, fun _ => by norm_num [F], fun H Q R fuel => ?_⟩
  have hF : Rounding F.rnd := h
  obtain ⟨o, ho⟩ := F.orient_some (decTri.map (Pt.each F.fl))
  obtain ⟨r, hr⟩ := C24_built (plain_fits hF hq).lawful F.arith (e := Env.initial) ⟨by decide, by decide⟩ (decTri.map (Pt.each F.fl)) true 0#32
    fun hk => absurd hk (by rw [List.length_map]; decide)
  let ga : Geo ℚ ℚ := .atom (.poly (.ring ⟨r, o.convex, o.clockwise⟩))
  have ha : (Shape.atom (.poly ⟨Env.initial, 0#32, decTri.map (Pt.each F.fl)⟩ [])).By (F.maker (F.ix32 q)) H Q ga := by
    refine ⟨rfl, (⟨by decide, by decide⟩ : 2 ≤ Env.initial.spread ∧ Env.initial.spread ≤ 4096), hr, ?_, ?_⟩ <;> (show (F.orient _).map _ = _; rw [ho]; rfl)
  obtain ⟨hc, hp, hin⟩ := decTri_clear Env.initial 0#32
  obtain ⟨r', i, k1, -, k3, k4, k5⟩ := C82_point hF (k := 1) (M := 180) (by norm_num) (by norm_num) (by norm_num) hq (fun _ => by norm_num [F]) hp
    (xs := [.poly ⟨Env.initial, 0#32, decTri⟩ []]) (by
      intro x hx
      rw [List.mem_singleton] at hx
      subst hx
      intro s hs
      rw [List.mem_singleton.1 hs]
      exact hc) R fuel (a := Shape.atom (.poly ⟨Env.initial, 0#32, decTri.map (Pt.each F.fl)⟩ [])) (.cons ⟨rfl, .nil⟩ .nil) ha
  refine ⟨ga, ha, ?_, ?_⟩
  · rw [k1, k4.2]
    exact ⟨_, List.mem_singleton_self _, .inr hin, by simp⟩
  · rw [k3, k5.2]
    exact ⟨_, List.mem_singleton_self _, hin, by simp⟩

/-- Two segments that cross. -/
example : let s : Seg ℚ := ⟨⟨1 / 10, 2 / 10⟩, ⟨55 / 10, 77 / 10⟩⟩; let t : Seg ℚ := ⟨⟨103 / 10, 3 / 10⟩, ⟨2 / 10, 51 / 10⟩⟩
    ApartDec 180 s t ∧ Share s t := by
  intro s t
  refine ⟨.inl (by decide +kernel), ?_⟩
  rw [← C27_intersects (ε := 1) (ns := fun _ => 0)]
  decide +kernel

end Tg
