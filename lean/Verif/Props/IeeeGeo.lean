import Verif.Lemmas.IeeeRing
import Verif.Props.Intersects
import Verif.Props.PointRel
import Verif.Props.General
import Verif.Props.LineTouch
/-!
C67: with IEEE doubles the predicates on geometries give the exact answers for fixed-point coordinates. `Shape.By (F.maker f)` says that a geometry is
made by the constructors with each operation rounded; `f` is the conversion to the coordinates of indexes.
-/
namespace Tg

open S Spec.Double

variable {β : Type*} [LinearOrder β] {F : Fp} (hF : Rounding F.rnd) {k : ℤ} (h1 : -400 ≤ k) (h2 : k ≤ 400) (hn : ∀ pts, F.ns pts < 2 ^ 31)
  {f : Ix ℚ β} (hf : Ag.Fits (OnGrid k) f) {H : HArith ℚ} {Q : Qsort} (hQ : QsortOk Q)
include hF h1 h2 hn hf

theorem S.ieee_setup {ε : ℚ} (hε : 0 < ε) (hle : ε ≤ 2 ^ k / 2 ^ 28) : Ag.Setup (OnGrid k) (F.maker f) ε F.ns (fun n => 32 ≤ n ∧ n < 2 ^ 31) where
  zero := ⟨0, by norm_num, by simp⟩
  fits := hf
  ray s p hs hp := ray_grid hF h1 h2 hε hle F.ns hs hp
  law := ieee_law hF h1 h2
  count pts := ⟨le_max_right _ _, max_lt (hn pts) (by norm_num)⟩
  convex pts hp := ringConvex_grid hF h1 h2 hp

omit hn hf in
theorem S.ieee_agree {ε : ℚ} (hε : 0 < ε) (hle : ε ≤ 2 ^ k / 2 ^ 28) : Ag.Agree (OnGrid k) F.arith (exact ε F.ns) F.rarith exactR where
  col a b p ha hb hp := collinear_grid hF h1 h2 ε F.ns ha hb hp
  ray s p hs hp := ray_grid hF h1 h2 hε hle F.ns hs hp
  segX s t hs ht := by
    unfold segIntersects
    rw [show F.arith.segX s t = (exact ε F.ns).segX s t from segX_grid hF h1 h2 ε hs ht]
  area r hl hh := area_grid hF h1 h2 hl hh
  clockwise p q r s t hp hq hr hs ht := clockwise_grid hF h1 h2 (by simp) (by
    intro x hx
    simp only [List.mem_cons, List.not_mem_nil, or_false] at hx
    rcases hx with rfl | rfl | rfl | rfl | rfl <;> assumption)

omit hF h1 h2 hn hf in
theorem S.exact_segX_symm {ε : ℚ} {ns : List (Pt ℚ) → Nat} (s t : Seg ℚ) : (exact ε ns).segX s t = (exact ε ns).segX t s := by
  show exactSegX ε s t = exactSegX ε t s
  rw [Bool.eq_iff_iff, exactSegX_iff, exactSegX_iff]
  exact ⟨fun ⟨w, a, b⟩ => ⟨w, b, a⟩, fun ⟨w, a, b⟩ => ⟨w, b, a⟩⟩

include hQ

/-- The geometry has a twin made with exact arithmetic. -/
theorem S.ieee_twin {ε : ℚ} (hε : 0 < ε) (hle : ε ≤ 2 ^ k / 2 ^ 28) {c : Prop} {a : Shape ℚ} {ga : Geo ℚ β} (ha : a.By (F.maker f) H Q ga)
    (da : ∀ p ∈ a.nodes, GridPt k p) {ps : List (Pt ℚ)} (fa : ∀ s ∈ a.rings, Fit F.ns s ps) (hc : c → ∀ s ∈ a.rings, SumOk k s.pts) :
    ∃ ga' : Geo ℚ ℚ, a.Is ε F.ns H Q ga' ∧ Ag.TwinG (OnGrid k) f Ix.exact F.arith (exact ε F.ns) c ga ga' := by
  have key : ∀ s ∈ a.rings, Ag.RingFit (F.maker f) ε F.ns c s := fun s hs => by
    refine ⟨fun h => ?_, fun t ht => ((fa s hs).good ε hε t ht).1⟩
    obtain ⟨M, m1, m2, m3⟩ := hc h s hs
    show F.ringClockwise s.pts = _
    unfold Fp.ringClockwise ringClockwise
    rw [orient_grid hF h1 h2 m2 m1 m3]
  obtain ⟨ga', x, y, -⟩ := Ag.shape_exists (c := c) (ieee_setup hF h1 h2 hn hf hε hle) hQ ha da key
  exact ⟨ga', x, y⟩

/-- C67. With doubles, `tg_geom_intersects` of two geometries of any kind and nesting with fixed-point coordinates answers whether they have a point in
common. -/
theorem C67_intersects (a b : Shape ℚ) (da : ∀ p ∈ a.nodes, GridPt k p) (db : ∀ p ∈ b.nodes, GridPt k p) (oka : ∀ x ∈ a.atoms, x.Ok)
    (okb : ∀ x ∈ b.atoms, x.Ok) (fa : ∀ s ∈ a.rings, Fit F.ns s b.verts) (fb : ∀ s ∈ b.rings, Fit F.ns s a.verts) (fuel : Nat) (ga gb : Geo ℚ β)
    (ha : a.By (F.maker f) H Q ga) (hb : b.By (F.maker f) H Q gb) :
    ∃ r, geoIntersects ⟨f, F.arith, F.rarith, fuel⟩ ga gb = some r ∧ (r = true ↔ ∃ w, a.Has w ∧ b.Has w) := by
  obtain ⟨e, e0, he⟩ := C53_intersects F.ns (H := H) hQ a b oka okb fa fb
  have hw : (0 : ℚ) < 2 ^ k / 2 ^ 28 := div_pos (zpow_pos (by norm_num) _) (by norm_num)
  have hε := lt_min e0 hw
  obtain ⟨ga', a1, a2⟩ := ieee_twin hF h1 h2 hn hf hQ (c := False) hε (min_le_right _ _) ha da fa (fun h => h.elim)
  obtain ⟨gb', b1, b2⟩ := ieee_twin hF h1 h2 hn hf hQ (c := False) hε (min_le_right _ _) hb db fb (fun h => h.elim)
  obtain ⟨r, r1, r2⟩ := he _ hε (min_le_left _ _) fuel ga' gb' a1 b1
  refine ⟨r, ?_, r2⟩
  rw [← r1]
  exact Ag.geoX_congr (ieee_agree hF h1 h2 hε (min_le_right _ _)) hf.lawful Ix.exact_lawful exact_segX_symm b2 a2

/-- C67. `tg_geom_disjoint` answers whether they have none. -/
theorem C67_disjoint (a b : Shape ℚ) (da : ∀ p ∈ a.nodes, GridPt k p) (db : ∀ p ∈ b.nodes, GridPt k p) (oka : ∀ x ∈ a.atoms, x.Ok)
    (okb : ∀ x ∈ b.atoms, x.Ok) (fa : ∀ s ∈ a.rings, Fit F.ns s b.verts) (fb : ∀ s ∈ b.rings, Fit F.ns s a.verts) (fuel : Nat) (ga gb : Geo ℚ β)
    (ha : a.By (F.maker f) H Q ga) (hb : b.By (F.maker f) H Q gb) :
    ∃ r, geoDisjoint ⟨f, F.arith, F.rarith, fuel⟩ ga gb = some r ∧ (r = true ↔ ∀ w, a.Has w → ¬ b.Has w) := by
  obtain ⟨r, k1, k2⟩ := C67_intersects hF h1 h2 hn hf hQ a b da db oka okb fa fb fuel ga gb ha hb
  refine ⟨!r, by rw [geoDisjoint, k1]; rfl, ?_⟩
  rw [Bool.not_eq_true', ← Bool.not_eq_true, k2]
  simp

/-- C67. With doubles, a geometry of any kind and nesting with fixed-point coordinates covers a point if and only if the point belongs to it, and
contains it if and only if the point is in the interior of one of its parts. -/
theorem C67_point (a : Shape ℚ) (p : Pt ℚ) (da : ∀ p ∈ a.nodes, GridPt k p) (dp : GridPt k p) (fa : ∀ s ∈ a.rings, Fit F.ns s [p]) (fuel : Nat)
    (ga : Geo ℚ β) (ha : a.By (F.maker f) H Q ga) :
    (∃ r, geoCovers ⟨f, F.arith, F.rarith, fuel⟩ ga (.atom (.point p)) = some r ∧ (r = true ↔ a.Has p)) ∧
    ∃ r, geoContains ⟨f, F.arith, F.rarith, fuel⟩ ga (.atom (.point p)) = some r ∧ (r = true ↔ ∃ x ∈ a.atoms, x.Inner p) := by
  obtain ⟨e, e0, he⟩ := C61_covers_point F.ns H Q a p fa
  obtain ⟨e', e0', he'⟩ := C61_contains_point F.ns H Q a p fa
  have hw : (0 : ℚ) < 2 ^ k / 2 ^ 28 := div_pos (zpow_pos (by norm_num) _) (by norm_num)
  have hε := lt_min (lt_min e0 e0') hw
  obtain ⟨ga', a1, a2⟩ := ieee_twin hF h1 h2 hn hf hQ (c := False) hε (min_le_right _ _) ha da fa (fun h => h.elim)
  obtain ⟨r, r1, r2⟩ := he _ hε ((min_le_left _ _).trans (min_le_left _ _)) fuel ga' a1
  obtain ⟨s, s1, s2⟩ := he' _ hε ((min_le_left _ _).trans (min_le_right _ _)) fuel ga' a1
  obtain ⟨g1, g2⟩ := Ag.geo_pt_congr (fuel := fuel) (ieee_agree hF h1 h2 hε (min_le_right _ _)) hf.lawful Ix.exact_lawful exact_segX_symm dp a2
  exact ⟨⟨r, g1.trans r1, r2⟩, s, g2.trans s1, s2⟩

/-- C67. With doubles, `tg_geom_touches` of a geometry with fixed-point coordinates and a point answers whether the point belongs to it and is not in the
interior of any of its parts. -/
theorem C67_touches_point (a : Shape ℚ) (p : Pt ℚ) (da : ∀ p ∈ a.nodes, GridPt k p) (dp : GridPt k p) (sa : ∀ s ∈ a.rings, SumOk k s.pts)
    (oka : ∀ x ∈ a.atoms, x.Ok) (fa : ∀ s ∈ a.rings, Fit F.ns s [p]) (fuel : Nat) (ga : Geo ℚ β) (ha : a.By (F.maker f) H Q ga) :
    ∃ r, geoTouches ⟨f, F.arith, F.rarith, fuel⟩ (.atom (.point p)) ga = some r ∧ (r = true ↔ a.Has p ∧ ∀ x ∈ a.atoms, ¬ x.Inner p) := by
  obtain ⟨e, e0, he⟩ := C61_touches_point F.ns H hQ a p oka fa
  have hw : (0 : ℚ) < 2 ^ k / 2 ^ 28 := div_pos (zpow_pos (by norm_num) _) (by norm_num)
  have hε := lt_min e0 hw
  obtain ⟨ga', a1, a2⟩ := ieee_twin hF h1 h2 hn hf hQ (c := True) hε (min_le_right _ _) ha da fa (fun _ => sa)
  obtain ⟨r, r1, r2⟩ := he _ hε (min_le_left _ _) fuel ga' a1
  exact ⟨r, (Ag.geoTouches_congr (ieee_agree hF h1 h2 hε (min_le_right _ _)) hf.lawful Ix.exact_lawful exact_segX_symm trivial (.atom (.point dp)) a2).trans r1, r2⟩

/-- C67. With doubles and in general position, `covers` and `contains` agree, and a geometry other than a collection covers another one if and only if no
part of that is empty and all of its points are in the interior of the first. -/
theorem C67_covers (x : AShape ℚ) (b : Shape ℚ) (dx : ∀ p ∈ x.nodes, GridPt k p) (db : ∀ p ∈ b.nodes, GridPt k p) (sx : ∀ s ∈ x.rings, SumOk k s.pts)
    (sb : ∀ s ∈ b.rings, SumOk k s.pts) (firm : x.Firm) (okb : ∀ y ∈ b.atoms, y.Ok) (gen : Shape.General (.atom x) b)
    (fa : ∀ s ∈ x.rings, Fit F.ns s b.nodes) (fb : ∀ s ∈ b.rings, Fit F.ns s x.nodes) (fuel : Nat) (xa : Atom ℚ β) (gb : Geo ℚ β)
    (hx : x.By (F.maker f) xa) (hb : b.By (F.maker f) H Q gb) :
    ∃ r, geoCovers ⟨f, F.arith, F.rarith, fuel⟩ (.atom xa) gb = some r ∧ geoContains ⟨f, F.arith, F.rarith, fuel⟩ (.atom xa) gb = some r ∧
      (r = true ↔ b.NoEmpty ∧ ∀ w, b.Has w → x.Inner w) := by
  obtain ⟨e, e0, he⟩ := C62_covers F.ns H Q x b firm okb gen fa fb
  have hw : (0 : ℚ) < 2 ^ k / 2 ^ 28 := div_pos (zpow_pos (by norm_num) _) (by norm_num)
  have hε := lt_min e0 hw
  obtain ⟨xa', a1, a2⟩ := Ag.atom_exists (ieee_setup hF h1 h2 hn hf hε (min_le_right _ _)) (c := True) hx dx fun s hs =>
    ⟨fun _ => by
      obtain ⟨M, m1, m2, m3⟩ := sx s hs
      show F.ringClockwise s.pts = _
      unfold Fp.ringClockwise ringClockwise
      rw [orient_grid hF h1 h2 m2 m1 m3], fun t ht => ((fa s hs).good _ hε t ht).1⟩
  obtain ⟨gb', b1, b2⟩ := ieee_twin hF h1 h2 hn hf hQ (c := True) hε (min_le_right _ _) hb db fb (fun _ => sb)
  obtain ⟨r, r1, r2, r3⟩ := he _ hε (min_le_left _ _) fuel xa' gb' a1 b1
  obtain ⟨-, g1, g2, -⟩ := Ag.geo_congr (fuel := fuel) (ieee_agree hF h1 h2 hε (min_le_right _ _)) hf.lawful Ix.exact_lawful exact_segX_symm (.atom a2) b2 trivial
  exact ⟨r, g1.trans r1, g2.trans r2, r3⟩

/-- C67. With doubles and in general position, `touches` answers false. -/
theorem C67_touches (a b : Shape ℚ) (da : ∀ p ∈ a.nodes, GridPt k p) (db : ∀ p ∈ b.nodes, GridPt k p) (sa : ∀ s ∈ a.rings, SumOk k s.pts)
    (sb : ∀ s ∈ b.rings, SumOk k s.pts) (oka : ∀ x ∈ a.atoms, x.Ok) (okb : ∀ y ∈ b.atoms, y.Ok) (gen : a.General b)
    (fa : ∀ s ∈ a.rings, Fit F.ns s b.nodes) (fb : ∀ s ∈ b.rings, Fit F.ns s a.nodes) (fuel : Nat) (ga gb : Geo ℚ β)
    (ha : a.By (F.maker f) H Q ga) (hb : b.By (F.maker f) H Q gb) : geoTouches ⟨f, F.arith, F.rarith, fuel⟩ gb ga = some false := by
  obtain ⟨e, e0, he⟩ := C62_touches F.ns H hQ a b oka okb gen fa fb
  have hw : (0 : ℚ) < 2 ^ k / 2 ^ 28 := div_pos (zpow_pos (by norm_num) _) (by norm_num)
  have hε := lt_min e0 hw
  obtain ⟨ga', a1, a2⟩ := ieee_twin hF h1 h2 hn hf hQ (c := True) hε (min_le_right _ _) ha da fa (fun _ => sa)
  obtain ⟨gb', b1, b2⟩ := ieee_twin hF h1 h2 hn hf hQ (c := True) hε (min_le_right _ _) hb db fb (fun _ => sb)
  rw [← he _ hε (min_le_left _ _) fuel ga' gb' a1 b1]
  exact Ag.geoTouches_congr (ieee_agree hF h1 h2 hε (min_le_right _ _)) hf.lawful Ix.exact_lawful exact_segX_symm trivial b2 a2

/-- C67. With doubles and in general position, a geometry of any kind and nesting covers another one if and only if it contains it, and then each point
of the second is in the interior of a part of the first. -/
theorem C67_covers_any (a b : Shape ℚ) (da : ∀ p ∈ a.nodes, GridPt k p) (db : ∀ p ∈ b.nodes, GridPt k p) (sa : ∀ s ∈ a.rings, SumOk k s.pts)
    (sb : ∀ s ∈ b.rings, SumOk k s.pts) (firm : ∀ x ∈ a.atoms, x.Firm) (okb : ∀ y ∈ b.atoms, y.Ok) (gen : a.General b)
    (fa : ∀ s ∈ a.rings, Fit F.ns s b.nodes) (fb : ∀ s ∈ b.rings, Fit F.ns s a.nodes) (fuel : Nat) (ga gb : Geo ℚ β)
    (ha : a.By (F.maker f) H Q ga) (hb : b.By (F.maker f) H Q gb) :
    ∃ r, geoCovers ⟨f, F.arith, F.rarith, fuel⟩ ga gb = some r ∧ geoContains ⟨f, F.arith, F.rarith, fuel⟩ ga gb = some r ∧
      (r = true → ∀ w, b.Has w → ∃ x ∈ a.atoms, x.Inner w) := by
  obtain ⟨e, e0, he⟩ := C62_covers_any F.ns H Q a b firm okb gen fa fb
  have hw : (0 : ℚ) < 2 ^ k / 2 ^ 28 := div_pos (zpow_pos (by norm_num) _) (by norm_num)
  have hε := lt_min e0 hw
  obtain ⟨ga', a1, a2⟩ := ieee_twin hF h1 h2 hn hf hQ (c := True) hε (min_le_right _ _) ha da fa (fun _ => sa)
  obtain ⟨gb', b1, b2⟩ := ieee_twin hF h1 h2 hn hf hQ (c := True) hε (min_le_right _ _) hb db fb (fun _ => sb)
  obtain ⟨r, r1, r2, r3⟩ := he _ hε (min_le_left _ _) fuel ga' gb' a1 b1
  obtain ⟨-, g1, g2, -⟩ := Ag.geo_congr (fuel := fuel) (ieee_agree hF h1 h2 hε (min_le_right _ _)) hf.lawful Ix.exact_lawful exact_segX_symm a2 b2 trivial
  exact ⟨r, g1.trans r1, g2.trans r2, r3⟩

omit hQ in
/-- C67. With doubles, two lines with fixed-point coordinates that meet only at single points, and pass through their own ends only at their ends, touch if
and only if they meet and their interiors do not. -/
theorem C67_lines_touch (s t : Series ℚ) (ds : ∀ p ∈ s.pts, GridPt k p) (dt : ∀ p ∈ t.pts, GridPt k p) (rs : NoRepeat s.pts) (rt : NoRepeat t.pts)
    (es : EndsOnce s.pts) (et : EndsOnce t.pts) (no : NoOverlap s.pts t.pts) (fuel : Nat) (xa xb : Atom ℚ β) (ha : AShape.By (F.maker f) (.line s) xa)
    (hb : AShape.By (F.maker f) (.line t) xb) :
    ∃ r, geoTouches ⟨f, F.arith, F.rarith, fuel⟩ (.atom xb) (.atom xa) = some r ∧
      (r = true ↔ (∃ w, (AShape.line s).Has w ∧ (AShape.line t).Has w) ∧ ∀ w, ¬ ((AShape.line s).Inner w ∧ (AShape.line t).Inner w)) := by
  have hw : (0 : ℚ) < 2 ^ k / 2 ^ 28 := div_pos (zpow_pos (by norm_num) _) (by norm_num)
  have hS := ieee_setup hF h1 h2 hn hf hw le_rfl
  obtain ⟨xa', a1, a2⟩ := Ag.atom_exists hS (c := True) ha ds (by simp [AShape.rings])
  obtain ⟨xb', b1, b2⟩ := Ag.atom_exists hS (c := True) hb dt (by simp [AShape.rings])
  obtain ⟨r, r1, r2⟩ := C63_exact _ F.ns fuel s t xa' xb' a1 b1 rs rt es et no
  exact ⟨r, (Ag.geoTouches_congr (ieee_agree hF h1 h2 hw le_rfl) hf.lawful Ix.exact_lawful exact_segX_symm trivial (.atom b2) (.atom a2)).trans r1, r2⟩

omit hF h1 h2 hn hf hQ in
theorem S.newIx_small' (f : Ix ℚ β) {e : Env} {pts : List (Pt ℚ)} {closed : Bool} {ix : BitVec 32} (h : pts.length < spreadOf e ix * 2) (A : Arith ℚ) :
    ∃ r : Ring ℚ β, newIx f A e pts closed ix = some r := by
  have hk : kindsOf e pts.length closed ix = (false, false) := by
    unfold kindsOf indexKinds
    rw [if_neg (by omega)]
  unfold kindsOf at hk
  unfold newIx seriesNew
  dsimp only
  rw [show indexKinds pts.length (extractSpread e ix).2.toNat closed (extractSpread e ix).1.toNat e.index.toNat = (false, false) from hk]
  match pts with
  | [] => exact ⟨_, rfl⟩
  | [_] => exact ⟨_, rfl⟩
  | _ :: _ :: _ => exact ⟨_, rfl⟩

omit hF h1 h2 hn hf hQ in
theorem S.box_grid {x0 y0 x1 y1 : ℤ} (h : |x0| ≤ 2 ^ 24 ∧ |y0| ≤ 2 ^ 24 ∧ |x1| ≤ 2 ^ 24 ∧ |y1| ≤ 2 ^ 24) :
    ∀ p ∈ (boxPts x0 y0 x1 y1 : List (Pt ℚ)), GridPt 0 p := by
  intro p hp
  have z : ∀ n : ℤ, |n| ≤ 2 ^ 24 → OnGrid 0 (n : ℚ) := fun n hn => ⟨n, hn, by simp⟩
  simp only [boxPts, List.mem_cons, List.not_mem_nil, or_false] at hp
  rcases hp with rfl | rfl | rfl | rfl | rfl <;> exact ⟨z _ (by tauto), z _ (by tauto)⟩

omit hF h1 h2 hn hf hQ in
theorem S.ringShape_grid : ∀ p ∈ ringShape.nodes, GridPt 0 p := by
  intro p hp
  simp only [ringShape, Shape.nodes, Shape.atoms, Shape.allAtoms, List.nil_append, List.append_nil, List.flatMap_cons, List.flatMap_nil, AShape.nodes,
    List.mem_append] at hp
  rcases hp with hp | hp
  · exact box_grid (x0 := 0) (y0 := 0) (x1 := 10) (y1 := 10) (by norm_num) p (by simpa using hp)
  · exact box_grid (x0 := 4) (y0 := 4) (x1 := 6) (y1 := 6) (by norm_num) p (by simpa using hp)

omit h1 h2 hn hf hQ in
/-- The constructors with doubles make a collection of a square with a hole, and a line. -/
example (f : Ix ℚ β) : (∃ g, ringShape.By (F.maker f) exactH insertionQsort g) ∧ ∃ g, (lineShape ⟨5, 5⟩ ⟨6, 5⟩).By (F.maker f) exactH insertionQsort g := by
  have hok : Env.initial.Ok := ⟨by decide, by decide⟩
  obtain ⟨e, he⟩ := newIx_small' f (e := Env.initial) (pts := boxPts 0 0 10 10) (closed := true) (ix := 0#32) (by show 5 < _; decide) F.arith
  obtain ⟨h, hh⟩ := newIx_small' f (e := Env.initial) (pts := boxPts 4 4 6 6) (closed := true) (ix := 0#32) (by show 5 < _; decide) F.arith
  obtain ⟨l, hl⟩ := newIx_small' f (e := Env.initial) (pts := [⟨5, 5⟩, ⟨6, 5⟩]) (closed := false) (ix := 0#32) (by show 2 < _; decide) F.arith
  have flags : ∀ pts : List (Pt ℚ), (∀ p ∈ pts, GridPt 0 p) → ∀ cv, ringConvex pts = some cv → ∃ cw, F.ringConvex pts = some cv ∧ F.ringClockwise pts = some cw := by
    intro pts hp cv h
    rw [← ringConvex_grid hF (k := 0) (by norm_num) (by norm_num) hp] at h
    unfold Fp.ringConvex at h
    cases e : F.orient pts with
    | none => rw [e] at h; cases h
    | some o => exact ⟨o.clockwise, by rw [Fp.ringConvex, e]; rw [e] at h; exact h, by rw [Fp.ringClockwise, e]; rfl⟩
  obtain ⟨cw, c1, c2⟩ := flags (boxPts 0 0 10 10) (by simpa using box_grid (x0 := 0) (y0 := 0) (x1 := 10) (y1 := 10) (by norm_num)) true (by decide +kernel)
  obtain ⟨cw', c1', c2'⟩ := flags (boxPts 4 4 6 6) (by simpa using box_grid (x0 := 4) (y0 := 4) (x1 := 6) (y1 := 6) (by norm_num)) true (by decide +kernel)
  let g : Geo ℚ β := .atom (.poly (.poly ⟨e, true, cw⟩ [⟨h, true, cw'⟩]))
  obtain ⟨m, hm⟩ := C39_made (f := f) (H := exactH) (Q := insertionQsort) insertionQsort_ok (rectOf := Geo.rect)
    (geoms := [.empty, g]) (.inl (by simp))
  obtain ⟨h1, -⟩ := multiNew_ok insertionQsort_ok hm
  have hm' : multiNew f exactH insertionQsort Geo.rect [.empty, g] = some ⟨[.empty, g], m.rect, m.index, m.ixgeoms⟩ := by
    rw [hm]
    congr 1
    rw [← h1.geoms_eq]
  refine ⟨⟨.multi false [.empty, g] m.rect m.index m.ixgeoms, ?_⟩, .atom (.line l), ?_⟩
  · rw [ringShape, Shape.By]
    refine ⟨by simp, hm', ?_⟩
    simp only [Shape.ByAll, Shape.By, true_and, and_true]
    exact ⟨⟨hok, he, c1, c2⟩, .cons ⟨hok, hh, c1', c2'⟩ .nil⟩
  · rw [lineShape, Shape.By]
    exact ⟨hok, hl⟩

omit h1 h2 hf hQ in
/-- The line from the hole of the square to its side meets the square: the answer with doubles is true. -/
example (hf : Ag.Fits (OnGrid 0) f) (fuel : Nat) (ga gb : Geo ℚ β) (ha : ringShape.By (F.maker f) exactH insertionQsort ga)
    (hb : (lineShape ⟨5, 5⟩ ⟨6, 5⟩).By (F.maker f) exactH insertionQsort gb) : geoIntersects ⟨f, F.arith, F.rarith, fuel⟩ ga gb = some true := by
  obtain ⟨b1, b2, b3, b4⟩ := ringShape_ok F.ns ⟨5, 5⟩ ⟨6, 5⟩
  obtain ⟨r, r1, r2⟩ := C67_intersects hF (k := 0) (by norm_num) (by norm_num) hn hf insertionQsort_ok _ _ ringShape_grid (by
    intro p hp
    simp only [lineShape, Shape.nodes, Shape.atoms, List.flatMap_cons, List.flatMap_nil, AShape.nodes, List.append_nil, List.mem_cons, List.not_mem_nil, or_false] at hp
    rcases hp with rfl | rfl
    · exact ⟨⟨5, by norm_num, by norm_num⟩, ⟨5, by norm_num, by norm_num⟩⟩
    · exact ⟨⟨6, by norm_num, by norm_num⟩, ⟨5, by norm_num, by norm_num⟩⟩) b1 b2 b3 b4 fuel ga gb ha hb
  rw [r1, Option.some.injEq, r2]
  refine ⟨⟨6, 5⟩, ?_, ?_⟩
  · simp only [ringShape, Shape.Has, Shape.SomeHas, false_or, or_false]
    refine ⟨.inr ?_, ?_⟩
    · rw [Series.segs, box_inside (by norm_num) (by norm_num)]
      norm_num
    · intro h hh
      rw [List.mem_singleton.1 hh, Series.segs, box_inside (by norm_num) (by norm_num)]
      norm_num
  · simp only [lineShape, Shape.Has]
    exact ⟨⟨⟨5, 5⟩, ⟨6, 5⟩⟩, by simp [edges], onSeg_right _⟩

/-- The flags of rings are exact, for example of the square with corners (-180, -90) and (180, 90) in units of 2^-13. -/
example : SumOk (-13) (boxPts (-180) (-90) 180 90) := by
  refine ⟨180 * 2 ^ 13, by norm_num, ?_, by simp [boxPts]⟩
  intro p hp
  simp only [boxPts, List.mem_cons, List.not_mem_nil, or_false] at hp
  rcases hp with rfl | rfl | rfl | rfl | rfl
  · exact ⟨⟨-180 * 2 ^ 13, by norm_num, by norm_num⟩, ⟨-90 * 2 ^ 13, by norm_num, by norm_num⟩⟩
  · exact ⟨⟨180 * 2 ^ 13, by norm_num, by norm_num⟩, ⟨-90 * 2 ^ 13, by norm_num, by norm_num⟩⟩
  · exact ⟨⟨180 * 2 ^ 13, by norm_num, by norm_num⟩, ⟨90 * 2 ^ 13, by norm_num, by norm_num⟩⟩
  · exact ⟨⟨-180 * 2 ^ 13, by norm_num, by norm_num⟩, ⟨90 * 2 ^ 13, by norm_num, by norm_num⟩⟩
  · exact ⟨⟨-180 * 2 ^ 13, by norm_num, by norm_num⟩, ⟨-90 * 2 ^ 13, by norm_num, by norm_num⟩⟩

end Tg
