import Verif.Lemmas.MarginCovers
/-! Geometries of any kind that cover geometries of any kind, for coordinates that are any doubles of usual size, in general position. -/
set_option linter.unusedSectionVars false
namespace Tg.S

/-! ### Rectangles of points, for any index -/

section
variable {f : Ix ℚ ℚ} {pts : List (Pt ℚ)} {closed : Bool} {sp : Nat} {r : Ring ℚ ℚ}

theorem ptCoversRect_by (h : RingOk f pts closed sp r) (h2 : 2 ≤ pts.length) (p : Pt ℚ) (hc : ptCoversRect p r.rect = true) : ∀ q ∈ pts, q = p := by
  rw [ptCoversRect, Bool.and_eq_true, pteq_iff, pteq_iff] at hc
  obtain ⟨h3, h4⟩ := hc
  intro q hq
  obtain ⟨g1, g2, g3, g4⟩ := h.rect_has h2 q hq
  rw [h3] at g1 g3
  rw [h4] at g2 g4
  exact Pt.ext (le_antisymm g2 g1) (le_antisymm g4 g3)

/-- The rectangle of points on a horizontal or vertical line starts at one of them. -/
theorem rect_lo_by (h : RingOk f pts closed sp r) (h2 : 2 ≤ pts.length)
    (hd : r.rect.lo.x = r.rect.hi.x ∨ r.rect.lo.y = r.rect.hi.y) : r.rect.lo ∈ pts := by
  have hh := h.rect_has h2
  have hl := h.rect_least h2
  have hne : pts ≠ [] := by rintro rfl; simp at h2
  rcases hd with hd | hd
  · obtain ⟨v, hv, hmin⟩ : ∃ v ∈ pts, ∀ w ∈ pts, v.y ≤ w.y := exists_min pts (fun p => p.y) hne
    have := hl ⟨⟨r.rect.lo.x, v.y⟩, r.rect.hi⟩ fun q hq => ⟨(hh q hq).1, (hh q hq).2.1, hmin q hq, (hh q hq).2.2.2⟩
    have e : r.rect.lo = v := by
      have g := hh v hv
      refine Pt.ext (le_antisymm g.1 ?_) (le_antisymm g.2.2.1 this.2.2.1)
      rw [hd]; exact g.2.1
    rw [e]; exact hv
  · obtain ⟨v, hv, hmin⟩ : ∃ v ∈ pts, ∀ w ∈ pts, v.x ≤ w.x := exists_min pts (fun p => p.x) hne
    have := hl ⟨⟨v.x, r.rect.lo.y⟩, r.rect.hi⟩ fun q hq => ⟨hmin q hq, (hh q hq).2.1, (hh q hq).2.2.1, (hh q hq).2.2.2⟩
    have e : r.rect.lo = v := by
      have g := hh v hv
      refine Pt.ext (le_antisymm g.1 this.1) (le_antisymm g.2.2.1 ?_)
      rw [hd]; exact g.2.2.2
    rw [e]; exact hv

end

/-! ### Lines and points cover nothing -/

section
variable {F : Fp} (hF : F.Ok) {M : ℚ} (hM : M ≤ 2 ^ 100) {f : Ix ℚ ℚ}
include hF hM

theorem lineCoversLine_far {a b : Ring ℚ ℚ} {pts : List (Pt ℚ)} {sp : Nat} (ha : RingOk f pts false sp a) (us : ∀ q ∈ pts, UsualPt M q) {b0 : Seg ℚ}
    (hb : ringEmpty b = false → segAt b.points 0 = some b0)
    (h : ringEmpty b = false → ¬ OnBoundary (edges pts) b0.a ∧ UsualPt M b0.a ∧ ∀ t ∈ edges pts, Clear M t b0.a) (fuel : Nat) :
    lineCoversLine F.arith fuel a b = some false := by
  rw [lineCoversLine]
  cases he : ringEmpty b with
  | true => simp
  | false =>
    cases ringEmpty a with
    | true => simp
    | false =>
      simp only [Bool.or_false, Bool.false_eq_true, if_false]
      by_cases hc : (!a.rect.covers b.rect) = true
      · rw [if_pos hc]
      · rw [if_neg hc, hb he]
        obtain ⟨off, up, cl⟩ := h he
        dsimp only
        have hr := segAt_range ha
        have all : ∀ k ∈ List.range a.nsegs, ∃ s ∈ edges pts, segAt a.points k = some s := by
          intro k hk
          have : segAt a.points k ∈ (List.range a.nsegs).map (segAt a.points) := List.mem_map_of_mem hk
          rw [hr, edges_segments] at this
          obtain ⟨s, h1, h2⟩ := List.mem_map.1 this
          exact ⟨s, h1, h2.symm⟩
        obtain ⟨r, hf⟩ := firstCovering_some (A := F.arith) (a := a) (b0 := b0) (ks := List.range a.nsegs) fun k hk => by
          obtain ⟨s, -, h⟩ := all k hk
          exact ⟨s, h⟩
        rw [hf]
        cases r with
        | none => rfl
        | some j =>
          exfalso
          obtain ⟨hj, s, h1, h2⟩ := firstCovering_spec hf
          obtain ⟨s', hs, h3⟩ := all j hj
          have e : s' = s := Option.some.inj (h3.symm.trans h1)
          subst e
          rw [segCoversSeg, Bool.and_eq_true] at h2
          have hs' := hs
          rw [← edges_segments] at hs'
          exact off ⟨s', hs, (seg_covers_pt_far hF hM ⟨us _ (seg_mem_pts hs').1, us _ (seg_mem_pts hs').2⟩ up (cl s' hs)).1 h2.1⟩

variable (hf : f.Lawful)
include hf

/-- In general position a point or a line covers only an equal point. -/
theorem thin_covers_away {x y : AShape ℚ} (hx : ∀ e hs, x ≠ .poly e hs) {R : RArith ℚ} {fuel : Nat} {a b : Atom ℚ ℚ} (ha : x.By (F.maker f) a) (hb : y.By (F.maker f) b)
    (hn : ∀ pts, F.ns pts < 2 ^ 31) (oky : y.Ok) (sx : x.Sound M) (sy : y.Sound M) (away : x.Aside M y) :
    ∃ r, atomCovers ⟨f, F.arith, R, fuel⟩ a b = some r ∧ atomContains ⟨f, F.arith, R, fuel⟩ a b = some r ∧
      (r = true ↔ (∃ w, y.Has w) ∧ ∀ w, y.Has w → x.Inner w) := by
  have no : ∀ z : AShape ℚ, z = x → (∀ v ∈ y.nodes, ¬ z.Inner v) → ¬ ((∃ w, y.Has w) ∧ ∀ w, y.Has w → x.Inner w) := by
    rintro z rfl hz ⟨⟨w, hw⟩, h⟩
    obtain ⟨v, hv, hh⟩ := AShape.has_node oky hw
    exact hz v hv (h v hh)
  match y, b, hb with
  | .point p, .point p', hb =>
    rw [show p' = p from hb]
    have hc := away.left p (by simp [AShape.nodes])
    obtain ⟨r, h1, h2⟩ := atom_covers_far hF hM hf hn (R := R) (fuel := fuel) ha sy hc
    obtain ⟨r', h3, h4⟩ := atom_contains_far hF hM hf hn (R := R) (fuel := fuel) ha sy hc
    have hin : x.Has p ↔ x.Inner p := by
      refine ⟨fun hh => ?_, fun h => ?_⟩
      · by_contra hn
        exact away.general.2 p (by simp [AShape.nodes]) (AShape.Rim.side ⟨hh, hn⟩)
      · match x, h with
        | .point _, h => exact h
        | .line _, h => exact h.1
        | .poly e hs, _ => exact absurd rfl (hx e hs)
    have : r = r' := by rw [Bool.eq_iff_iff, h2, h4, hin]
    refine ⟨r', by rw [h1, this], h3, h4.trans ⟨fun h => ⟨⟨p, rfl⟩, by rintro w rfl; exact h⟩, fun h => h.2 p rfl⟩⟩
  | .line t, .line m, hb =>
    have b1 := (newIx_some hf hb.1 hb.2).1
    match x, a, ha with
    | .point p, .point p', ha =>
      rw [show p' = p from ha]
      have off := away.general.1 p (by simp [AShape.nodes])
      have hne : ∀ v ∈ t.pts, 2 ≤ t.pts.length → v ≠ p := fun v hv h2 e => by
        have := edges_segments t.pts ▸ seg_of_pts (closed := false) h2 (by simp) v hv
        rw [e] at this
        exact off this
      have h1 : ptCoversLine p m = false := by
        rw [ptCoversLine, ring_not_empty b1]
        by_cases h2 : t.pts.length < 2
        · simp [h2]
        · have : ptCoversRect p m.rect = false := by
            rw [← Bool.not_eq_true]
            intro hc
            obtain ⟨v, hv⟩ : ∃ v, v ∈ t.pts := by
              match hs : t.pts, h2 with
              | [], h2 => simp at h2
              | q :: _, _ => exact ⟨q, by simp⟩
            exact hne v hv (by omega) (ptCoversRect_by b1 (by omega) p hc v hv)
          simp [this]
      refine ⟨false, by rw [atomCovers, h1], by rw [atomContains, h1], iff_of_false (by simp) ?_⟩
      rintro ⟨⟨w, hw⟩, h⟩
      rw [show w = p from h w hw] at hw
      exact off hw
    | .line s, .line l, ha =>
      have a1 := (newIx_some hf ha.1 ha.2).1
      have h1 : lineCoversLine F.arith fuel l m = some false := by
        by_cases h2 : 2 ≤ t.pts.length
        · obtain ⟨s0, sN, k1, -, k3, -⟩ := line_ends_by hf hb.1 hb.2 h2
          have hm : s0.a ∈ t.pts := List.mem_of_mem_head? (l := t.pts) (by rw [k3]; rfl)
          exact lineCoversLine_far hF hM a1 sx (fun _ => k1) (fun _ => ⟨away.general.2 _ hm, sy _ hm, (away.left _ hm).2⟩) fuel
        · rw [lineCoversLine, if_pos]
          rw [ring_not_empty b1]
          simp
          omega
      exact ⟨false, h1, h1, iff_of_false (by simp) (no _ rfl fun v hv h => away.general.2 v hv h.1)⟩
    | .poly e hs, _, _ => exact absurd rfl (hx e hs)
  | .poly ext holes, .poly q, hb =>
    have hfb : FBy (F.maker f) ext q.ext := by cases q with | ring r => exact hb.2 | poly e hs => exact hb.1
    have b1 := (newIx_some hf hfb.ok hfb.made).1
    match x, a, ha with
    | .point p, .point p', ha =>
      rw [show p' = p from ha]
      have off := away.general.1 p (by simp [AShape.nodes])
      have hne : ∀ v ∈ ext.pts, 3 ≤ ext.pts.length → v ≠ p := fun v hv h3 e => by
        have := seg_of_pts (closed := true) (by omega) (fun _ => h3) v hv
        rw [e] at this
        obtain ⟨t, ht, hh⟩ := this
        exact off ⟨t, List.mem_flatMap.2 ⟨ext, by simp, ht⟩, hh⟩
      have some3 : 3 ≤ ext.pts.length → ∃ v, v ∈ ext.pts := fun h3 => by
        match hp : ext.pts, h3 with
        | v :: _, _ => exact ⟨v, by simp⟩
      have h1 : ptCoversPoly p q = false := by
        rw [ptCoversPoly, polyEmpty, polyRect, ring_not_empty b1]
        by_cases h3 : ext.pts.length < 3
        · simp [h3]
        · have : ptCoversRect p q.ext.ring.rect = false := by
            rw [← Bool.not_eq_true]
            intro hc
            obtain ⟨v, hv⟩ := some3 (by omega)
            exact hne v hv (by omega) (ptCoversRect_by b1 (by omega) p hc v hv)
          simp [this]
      refine ⟨false, by rw [atomCovers, h1], rfl, iff_of_false (by simp) ?_⟩
      rintro ⟨⟨w, hw⟩, h⟩
      have h3 : 3 ≤ ext.pts.length := by
        by_contra hn
        exact not_region_short (by omega) w hw.1
      obtain ⟨v, hv⟩ := some3 h3
      exact hne v hv h3 (h v (oky.boundary ext (by simp) v (seg_of_pts (by omega) (fun _ => h3) v hv)))
    | .line s, .line l, ha =>
      have a1 := (newIx_some hf ha.1 ha.2).1
      refine ⟨false, ?_, rfl, iff_of_false (by simp) (no _ rfl fun v hv h => away.general.2 v hv h.1)⟩
      rw [atomCovers, lineCoversPoly]
      by_cases he : (ringEmpty l || polyEmpty q) = true
      · rw [if_pos he]
      rw [if_neg he]
      by_cases hd : (!feq (polyRect q).lo.x (polyRect q).hi.x && !feq (polyRect q).lo.y (polyRect q).hi.y) = true
      · rw [if_pos hd]
      rw [if_neg hd]
      have h2 : 2 ≤ ext.pts.length := by
        by_contra hn
        refine he ?_
        rw [polyEmpty, ring_not_empty b1]
        simp
        omega
      have hlo : (polyRect q).lo ∈ ext.pts := by
        refine rect_lo_by b1 h2 ?_
        rw [Bool.and_eq_true, not_and_or, Bool.not_eq_true', Bool.not_eq_true', Bool.not_eq_false, Bool.not_eq_false, feq_iff, feq_iff] at hd
        exact hd
      have hlo' : (polyRect q).lo ∈ AShape.nodes (.poly ext holes) := List.mem_flatMap.2 ⟨ext, by simp, hlo⟩
      exact lineCoversLine_far hF hM a1 sx (b0 := ⟨(polyRect q).lo, ⟨(polyRect q).hi.x, (polyRect q).lo.y⟩⟩) (fun _ => rfl)
        (fun _ => ⟨away.general.2 _ hlo', (sy.1 ext (by simp)).2 _ hlo, (away.left _ hlo').2⟩) _
    | .poly e hs, _, _ => exact absurd rfl (hx e hs)

end

/-! ### Collections -/

section
variable {C : Maker ℚ ℚ} {H : HArith ℚ} {Q : Qsort} {t t' : Atom ℚ ℚ → Option Bool}

mutual
theorem everyGeo_congr_by : ∀ {s : Shape ℚ} {g : Geo ℚ ℚ}, s.By C H Q g → (∀ x ∈ s.atoms, ∀ a, x.By C a → t a = t' a) → everyGeo t g = everyGeo t' g
  | .null, .null, _, _ => by rw [everyGeo, everyGeo]
  | .empty, .empty, _, _ => by rw [everyGeo, everyGeo]
  | .atom x, .atom a, h, ht => by
    rw [Shape.By] at h
    rw [everyGeo, everyGeo, ht x (by simp [Shape.atoms]) a h]
  | .coll cs, .multi flag gs rect ix ixg, h, ht => by
    rw [Shape.By] at h
    rw [Shape.atoms] at ht
    rw [everyGeo, everyGeo, everyGeos_congr_by h.2.2 ht]
theorem everyGeos_congr_by : ∀ {ss : List (Shape ℚ)} {gs : List (Geo ℚ ℚ)}, Shape.ByAll C H Q ss gs →
    (∀ x ∈ Shape.allAtoms ss, ∀ a, x.By C a → t a = t' a) → everyGeos t gs = everyGeos t' gs
  | [], [], _, _ => by rw [everyGeos, everyGeos]
  | c :: cs, g :: gs, h, ht => by
    rw [Shape.ByAll] at h
    rw [Shape.allAtoms] at ht
    rw [everyGeos, everyGeos, everyGeo_congr_by h.1 fun x hx => ht x (List.mem_append_left _ hx),
      everyGeos_congr_by h.2 fun x hx => ht x (List.mem_append_right _ hx)]
end

variable (hf : C.f.Lawful)
include hf

mutual
/-- A geometry that `tg_geom_is_empty` calls empty has no points. -/
theorem empty_points_by : ∀ {s : Shape ℚ} {g : Geo ℚ ℚ}, s.By C H Q g → g.isEmpty = true → ∀ w, ¬ s.Has w
  | .null, .null, _, _, w => by simp [Shape.Has]
  | .empty, .empty, _, _, w => by simp [Shape.Has]
  | .atom x, .atom a, h, he, w => by
    rw [Shape.By] at h
    rw [Shape.Has]
    match x, a, h, he with
    | .point p, .point _, _, he => simp [Geo.isEmpty] at he
    | .line s, .line l, h, he =>
      obtain ⟨b1, -⟩ := newIx_some hf h.1 h.2
      rw [Geo.isEmpty, ring_not_empty b1] at he
      exact short_line (by simpa using he) w
    | .poly ext holes, .poly q, h, he =>
      have hf' : FBy C ext q.ext := by cases q with | ring r => exact h.2 | poly e hs => exact h.1
      obtain ⟨b1, -⟩ := newIx_some hf hf'.ok hf'.made
      rw [Geo.isEmpty, polyEmpty, ring_not_empty b1] at he
      intro hw
      refine not_region_short ?_ w hw.1
      simp at he
      omega
  | .coll cs, .multi flag gs rect ix ixg, h, he, w => by
    rw [Shape.By] at h
    rw [Shape.Has]
    refine allEmpty_points_by h.2.2 ?_ w
    rw [Geo.isEmpty, Bool.or_eq_true] at he
    rcases he with hf | he
    · rw [h.1 hf]; rfl
    · exact he
theorem allEmpty_points_by : ∀ {ss : List (Shape ℚ)} {gs : List (Geo ℚ ℚ)}, Shape.ByAll C H Q ss gs → allEmpty gs = true → ∀ w, ¬ Shape.SomeHas ss w
  | [], [], _, _, w => by simp [Shape.SomeHas]
  | c :: cs, g :: gs, h, he, w => by
    rw [Shape.ByAll] at h
    rw [allEmpty, Bool.and_eq_true] at he
    rw [Shape.SomeHas, not_or]
    exact ⟨empty_points_by h.1 he.1 w, allEmpty_points_by h.2 he.2 w⟩
end
end

theorem Shape.parts_by {C : Maker ℚ ℚ} {H : HArith ℚ} {Q : Qsort} : ∀ {s : Shape ℚ} {g : Geo ℚ ℚ}, s.By C H Q g → Shape.ByAll C H Q s.parts g.foreach
  | .null, .null, _ => by rw [Shape.parts, Geo.foreach, Shape.ByAll]; trivial
  | .empty, .empty, h => by simp [Shape.parts, Geo.foreach, Shape.ByAll, Shape.By]
  | .atom x, .atom a, h => by simp only [Shape.parts, Geo.foreach, Shape.ByAll, and_true]; exact h
  | .coll cs, .multi flag gs rect ix ixg, h => by rw [Shape.By] at h; exact h.2.2

section
variable {C : Maker ℚ ℚ} {H : HArith ℚ} {Q : Qsort} {tab tab' : Atom ℚ ℚ → Atom ℚ ℚ → Option Bool}

theorem coversLoopG_congr_by {t t' : Geo ℚ ℚ → Option Bool} : ∀ {ss : List (Shape ℚ)} {gs : List (Geo ℚ ℚ)}, Shape.ByAll C H Q ss gs →
    (∀ (c : Shape ℚ) (g : Geo ℚ ℚ), c.By C H Q g → (∀ y ∈ c.atoms, y ∈ Shape.allAtoms ss) → t g = t' g) → ∀ f, coversLoopG t gs f = coversLoopG t' gs f
  | [], [], _, _, f => by rw [coversLoopG, coversLoopG]
  | c :: cs, g :: gs, h, ht, f => by
    rw [Shape.ByAll] at h
    have hrec := coversLoopG_congr_by h.2 fun d k hd hm => ht d k hd fun y hy => by rw [Shape.allAtoms]; exact List.mem_append_right _ (hm y hy)
    rw [coversLoopG, coversLoopG, ht c g h.1 fun y hy => by rw [Shape.allAtoms]; exact List.mem_append_left _ hy]
    simp only [hrec]

mutual
/-- Tables that agree give the same answers. -/
theorem geoCov_congr_by : ∀ {a : Shape ℚ} {ga : Geo ℚ ℚ}, a.By C H Q ga → ∀ {b : Shape ℚ} {gb : Geo ℚ ℚ}, b.By C H Q gb →
    (∀ x ∈ a.atoms, ∀ y ∈ b.atoms, ∀ xa yb, x.By C xa → y.By C yb → tab xa yb = tab' xa yb) → geoCov tab ga gb = geoCov tab' ga gb
  | .null, .null, _, _, _, _, _ => by rw [geoCov, geoCov]
  | .empty, .empty, _, _, _, _, _ => by rw [geoCov, geoCov]
  | .atom x, .atom xa, h, b, gb, hb, ht => by
    rw [Shape.By] at h
    rw [geoCov, geoCov]
    exact everyGeo_congr_by hb fun y hy yb hyb => ht x (by simp [Shape.atoms]) y hy xa yb h hyb
  | .coll cs, .multi flag gs rect ix ixg, h, b, gb, hb, ht => by
    rw [Shape.By] at h
    rw [Shape.atoms] at ht
    rw [geoCov, geoCov, coversLoopG_congr_by (Shape.parts_by hb) fun c g hc hm => geoCovAny_congr_by h.2.2 hc fun x hx y hy =>
      ht x hx y (by rw [← Shape.parts_atoms]; exact hm y hy)]
theorem geoCovAny_congr_by : ∀ {ss : List (Shape ℚ)} {gs : List (Geo ℚ ℚ)}, Shape.ByAll C H Q ss gs → ∀ {b : Shape ℚ} {gb : Geo ℚ ℚ}, b.By C H Q gb →
    (∀ x ∈ Shape.allAtoms ss, ∀ y ∈ b.atoms, ∀ xa yb, x.By C xa → y.By C yb → tab xa yb = tab' xa yb) → geoCovAny tab gs gb = geoCovAny tab' gs gb
  | [], [], _, _, _, _, _ => by rw [geoCovAny, geoCovAny]
  | c :: cs, g :: gs, h, b, gb, hb, ht => by
    rw [Shape.ByAll] at h
    rw [Shape.allAtoms] at ht
    rw [geoCovAny, geoCovAny, geoCov_congr_by h.1 hb fun x hx => ht x (List.mem_append_left _ hx),
      geoCovAny_congr_by h.2 hb fun x hx => ht x (List.mem_append_right _ hx)]
end
end

section
variable {C : Maker ℚ ℚ} {H : HArith ℚ} {Q : Qsort} {tab : Atom ℚ ℚ → Atom ℚ ℚ → Option Bool} {R : AShape ℚ → AShape ℚ → Prop} {S : AShape ℚ → Pt ℚ → Prop}
  (hf : C.f.Lawful) (hRS : ∀ x y, R x y → ∀ w, y.Has w → S x w)
include hf hRS

omit hRS in
theorem coversLoopG_sound_by {t : Geo ℚ ℚ → Option Bool} {U : Pt ℚ → Prop} : ∀ {ss : List (Shape ℚ)} {gs : List (Geo ℚ ℚ)}, Shape.ByAll C H Q ss gs →
    (∀ (c : Shape ℚ) (g : Geo ℚ ℚ), c.By C H Q g → (∀ y ∈ c.atoms, y ∈ Shape.allAtoms ss) → ∃ r, t g = some r ∧ (r = true → ∀ w, c.Has w → U w)) →
    ∀ f, ∃ r, coversLoopG t gs f = some r ∧ (r = true → ∀ w, Shape.SomeHas ss w → U w)
  | [], [], _, _, f => ⟨f, by rw [coversLoopG], by simp [Shape.SomeHas]⟩
  | c :: cs, g :: gs, h, ht, f => by
    rw [Shape.ByAll] at h
    have hrec := coversLoopG_sound_by (U := U) h.2 fun d k hd hm => ht d k hd fun y hy => by rw [Shape.allAtoms]; exact List.mem_append_right _ (hm y hy)
    rw [coversLoopG]
    by_cases he : g.isEmpty = true
    · rw [if_pos he]
      obtain ⟨r, h1, h2⟩ := hrec f
      refine ⟨r, h1, fun hr w hw => ?_⟩
      rw [Shape.SomeHas] at hw
      exact h2 hr w (hw.resolve_left (empty_points_by hf h.1 he w))
    · rw [if_neg he]
      obtain ⟨r, h1, h2⟩ := ht c g h.1 fun y hy => by rw [Shape.allAtoms]; exact List.mem_append_left _ hy
      rw [h1]
      cases r with
      | false => exact ⟨false, rfl, by simp⟩
      | true =>
        obtain ⟨r, h3, h4⟩ := hrec true
        refine ⟨r, h3, fun hr w hw => ?_⟩
        rw [Shape.SomeHas] at hw
        rcases hw with hw | hw
        · exact h2 rfl w hw
        · exact h4 hr w hw

mutual
/-- If the answer is true, then all of the second geometry is in what the table says of the parts of the first. -/
theorem geoCov_sound_by : ∀ {a : Shape ℚ} {ga : Geo ℚ ℚ}, a.By C H Q ga → ∀ {b : Shape ℚ} {gb : Geo ℚ ℚ}, b.By C H Q gb →
    (∀ x ∈ a.atoms, ∀ y ∈ b.atoms, ∀ xa yb, x.By C xa → y.By C yb → ∃ r, tab xa yb = some r ∧ (r = true ↔ R x y)) →
    ∃ r, geoCov tab ga gb = some r ∧ (r = true → ∀ w, b.Has w → ∃ x ∈ a.atoms, S x w)
  | .null, .null, _, _, _, _, _ => ⟨false, by rw [geoCov], by simp⟩
  | .empty, .empty, _, _, _, _, _ => ⟨false, by rw [geoCov], by simp⟩
  | .atom x, .atom xa, h, b, gb, hb, ht => by
    rw [Shape.By] at h
    rw [geoCov]
    obtain ⟨r, h1, h2⟩ := everyGeo_by (q := R x) hb fun y hy yb hyb => ht x (by simp [Shape.atoms]) y hy xa yb h hyb
    refine ⟨r, h1, fun hr w hw => ⟨x, by simp [Shape.atoms], ?_⟩⟩
    obtain ⟨y, hy, hw⟩ := (b.has_iff w).1 hw
    exact hRS x y ((h2.1 hr).2 y hy) w hw
  | .coll cs, .multi flag gs rect ix ixg, h, b, gb, hb, ht => by
    rw [Shape.By] at h
    rw [Shape.atoms] at ht ⊢
    rw [geoCov]
    cases flag with
    | true => exact ⟨false, rfl, by simp⟩
    | false =>
      obtain ⟨r, h1, h2⟩ := coversLoopG_sound_by (t := fun o => geoCovAny tab gs o) (U := fun w => ∃ x ∈ Shape.allAtoms cs, S x w) hf (Shape.parts_by hb)
        (fun c g hc hm => geoCovAny_sound_by h.2.2 hc fun x hx y hy => ht x hx y (by rw [← Shape.parts_atoms]; exact hm y hy)) false
      exact ⟨r, h1, fun hr w hw => h2 hr w ((b.parts_has w).2 hw)⟩
theorem geoCovAny_sound_by : ∀ {ss : List (Shape ℚ)} {gs : List (Geo ℚ ℚ)}, Shape.ByAll C H Q ss gs → ∀ {b : Shape ℚ} {gb : Geo ℚ ℚ}, b.By C H Q gb →
    (∀ x ∈ Shape.allAtoms ss, ∀ y ∈ b.atoms, ∀ xa yb, x.By C xa → y.By C yb → ∃ r, tab xa yb = some r ∧ (r = true ↔ R x y)) →
    ∃ r, geoCovAny tab gs gb = some r ∧ (r = true → ∀ w, b.Has w → ∃ x ∈ Shape.allAtoms ss, S x w)
  | [], [], _, _, _, _, _ => ⟨false, by rw [geoCovAny], by simp⟩
  | c :: cs, g :: gs, h, b, gb, hb, ht => by
    rw [Shape.ByAll] at h
    rw [Shape.allAtoms] at ht ⊢
    obtain ⟨r, h1, h2⟩ := geoCov_sound_by h.1 hb fun x hx => ht x (List.mem_append_left _ hx)
    obtain ⟨r', h3, h4⟩ := geoCovAny_sound_by h.2 hb fun x hx => ht x (List.mem_append_right _ hx)
    rw [geoCovAny, h1]
    cases r with
    | true =>
      refine ⟨true, rfl, fun _ w hw => ?_⟩
      obtain ⟨x, hx, hh⟩ := h2 rfl w hw
      exact ⟨x, List.mem_append_left _ hx, hh⟩
    | false =>
      refine ⟨r', h3, fun hr w hw => ?_⟩
      obtain ⟨x, hx, hh⟩ := h4 hr w hw
      exact ⟨x, List.mem_append_right _ hx, hh⟩
end

omit hRS in
theorem coversLoopG_true_by {t : Geo ℚ ℚ → Option Bool} : ∀ {ss : List (Shape ℚ)} {gs : List (Geo ℚ ℚ)}, Shape.ByAll C H Q ss gs →
    (∀ c ∈ ss, ∀ g, c.By C H Q g → (∃ w, c.Has w) ∧ t g = some true) → ∀ f, coversLoopG t gs f = some (f || !ss.isEmpty)
  | [], [], _, _, f => by rw [coversLoopG]; simp
  | c :: cs, g :: gs, h, ht, f => by
    rw [Shape.ByAll] at h
    obtain ⟨⟨w, hw⟩, h1⟩ := ht c (by simp) g h.1
    have he : ¬ g.isEmpty = true := fun he => empty_points_by hf h.1 he w hw
    rw [coversLoopG, if_neg he, h1]
    dsimp only
    rw [coversLoopG_true_by h.2 fun d hd => ht d (by simp [hd])]
    simp

omit hRS hf in
theorem Shape.allSolid_mem : ∀ {cs : List (Shape ℚ)}, Shape.AllSolid cs → ∀ c ∈ cs, c.Solid
  | [], _, _, h => by simp at h
  | c :: cs, h, d, hd => by
    rw [Shape.AllSolid] at h
    rcases List.mem_cons.1 hd with rfl | hd
    · exact h.1
    · exact Shape.allSolid_mem h.2 d hd

omit hRS hf in
theorem Shape.mem_allAtoms : ∀ {cs : List (Shape ℚ)} {c : Shape ℚ}, c ∈ cs → ∀ x ∈ c.atoms, x ∈ Shape.allAtoms cs
  | d :: cs, c, h, x, hx => by
    rw [Shape.allAtoms]
    rcases List.mem_cons.1 h with rfl | h
    · exact List.mem_append_left _ hx
    · exact List.mem_append_right _ (Shape.mem_allAtoms h x hx)

omit hRS hf in
theorem Shape.solid_atom : ∀ {s : Shape ℚ}, s.Solid → ∃ y, y ∈ s.atoms
  | .null, h => by simp [Shape.Solid] at h
  | .empty, h => by simp [Shape.Solid] at h
  | .atom x, _ => ⟨x, by simp [Shape.atoms]⟩
  | .coll [], h => by simp [Shape.Solid] at h
  | .coll (c :: cs), h => by
    rw [Shape.Solid, Shape.AllSolid] at h
    obtain ⟨y, hy⟩ := Shape.solid_atom h.2.1
    exact ⟨y, by rw [Shape.atoms, Shape.allAtoms]; exact List.mem_append_left _ hy⟩

omit hRS hf in
theorem Shape.solid_has : ∀ {s : Shape ℚ}, s.Solid → (∀ y ∈ s.atoms, ∃ w, y.Has w) → ∃ w, s.Has w := by
  intro s hs hy
  obtain ⟨y, h⟩ := Shape.solid_atom hs
  obtain ⟨w, hw⟩ := hy y h
  exact ⟨w, (s.has_iff w).2 ⟨y, h, hw⟩⟩

omit hRS hf in
/-- The parts that `tg_geom_foreach` visits, of a geometry of which no part is missing. -/
theorem Shape.parts_solid : ∀ {s : Shape ℚ}, s.Solid → s.parts ≠ [] ∧ ∀ c ∈ s.parts, c.Solid
  | .null, h => by simp [Shape.Solid] at h
  | .empty, h => by simp [Shape.Solid] at h
  | .atom x, h => by
    refine ⟨by simp [Shape.parts], fun c hc => ?_⟩
    simp only [Shape.parts, List.mem_singleton] at hc
    rw [hc]
    exact h
  | .coll cs, h => by
    rw [Shape.Solid] at h
    exact ⟨h.1, Shape.allSolid_mem h.2⟩

mutual
/-- If one of the parts of the first covers all parts of the second, then the answer is true. -/
theorem geoCov_full_by : ∀ {a : Shape ℚ} {ga : Geo ℚ ℚ}, a.By C H Q ga → ∀ {b : Shape ℚ} {gb : Geo ℚ ℚ}, b.By C H Q gb →
    (∀ x ∈ a.atoms, ∀ y ∈ b.atoms, ∀ xa yb, x.By C xa → y.By C yb → ∃ r, tab xa yb = some r ∧ (r = true ↔ R x y)) →
    b.Solid → (∀ y ∈ b.atoms, ∃ w, y.Has w) → (∃ x ∈ a.atoms, ∀ y ∈ b.atoms, R x y) → geoCov tab ga gb = some true
  | .null, .null, _, _, _, _, _, _, _, hx => by simp [Shape.atoms] at hx
  | .empty, .empty, _, _, _, _, _, _, _, hx => by simp [Shape.atoms] at hx
  | .atom x, .atom xa, h, b, gb, hb, ht, hs, _, hx => by
    rw [Shape.By] at h
    rw [geoCov]
    obtain ⟨r, h1, h2⟩ := everyGeo_by (q := R x) hb fun y hy yb hyb => ht x (by simp [Shape.atoms]) y hy xa yb h hyb
    obtain ⟨x', hx', hR⟩ := hx
    rw [Shape.atoms, List.mem_singleton] at hx'
    rw [hx'] at hR
    rw [h1, h2.2 ⟨hs, hR⟩]
  | .coll cs, .multi flag gs rect ix ixg, h, b, gb, hb, ht, hs, hp, hx => by
    rw [Shape.By] at h
    rw [Shape.atoms] at ht hx
    rw [geoCov]
    cases hfl : flag with
    | true =>
      exfalso
      have := (Shape.ByAll.nil_iff h.2.2).2 (h.1 hfl)
      rw [this] at hx
      simp [Shape.allAtoms] at hx
    | false =>
      obtain ⟨p1, p2⟩ := Shape.parts_solid hs
      have hm : ∀ c ∈ b.parts, ∀ y ∈ c.atoms, y ∈ b.atoms := fun c hc y hy => by
        rw [← Shape.parts_atoms]
        exact Shape.mem_allAtoms hc y hy
      have := coversLoopG_true_by (t := fun o => geoCovAny tab gs o) hf (Shape.parts_by hb) (fun c hc g hcg =>
        ⟨Shape.solid_has (p2 c hc) fun y hy => hp y (hm c hc y hy), geoCovAny_full_by h.2.2 hcg (fun x hx y hy => ht x hx y (hm c hc y hy)) (p2 c hc)
          (fun y hy => hp y (hm c hc y hy)) (by
            obtain ⟨x, hx, hR⟩ := hx
            exact ⟨x, hx, fun y hy => hR y (hm c hc y hy)⟩)⟩) false
      simp only [Bool.false_eq_true, if_false]
      rw [this]
      cases hb' : b.parts with
      | nil => exact absurd hb' p1
      | cons _ _ => rfl
theorem geoCovAny_full_by : ∀ {ss : List (Shape ℚ)} {gs : List (Geo ℚ ℚ)}, Shape.ByAll C H Q ss gs → ∀ {b : Shape ℚ} {gb : Geo ℚ ℚ}, b.By C H Q gb →
    (∀ x ∈ Shape.allAtoms ss, ∀ y ∈ b.atoms, ∀ xa yb, x.By C xa → y.By C yb → ∃ r, tab xa yb = some r ∧ (r = true ↔ R x y)) →
    b.Solid → (∀ y ∈ b.atoms, ∃ w, y.Has w) → (∃ x ∈ Shape.allAtoms ss, ∀ y ∈ b.atoms, R x y) → geoCovAny tab gs gb = some true
  | [], [], _, _, _, _, _, _, _, hx => by simp [Shape.allAtoms] at hx
  | c :: cs, g :: gs, h, b, gb, hb, ht, hs, hp, hx => by
    rw [Shape.ByAll] at h
    rw [Shape.allAtoms] at ht hx
    obtain ⟨r, h1, -⟩ := geoCov_sound_by (S := S) hf hRS h.1 hb fun x hx => ht x (List.mem_append_left _ hx)
    rw [geoCovAny, h1]
    cases r with
    | true => rfl
    | false =>
      obtain ⟨x, hx, hR⟩ := hx
      rcases List.mem_append.1 hx with hx | hx
      · have := geoCov_full_by h.1 hb (fun x hx => ht x (List.mem_append_left _ hx)) hs hp ⟨x, hx, hR⟩
        rw [h1] at this
        cases this
      · exact geoCovAny_full_by h.2 hb (fun x hx => ht x (List.mem_append_right _ hx)) hs hp ⟨x, hx, hR⟩
end
end

/-! ### The answer -/

theorem atom_any_far {F : Fp} (hF : F.Ok) {M : ℚ} (hM : M ≤ 2 ^ 100) {f : Ix ℚ ℚ} (hf : f.Lawful) (hn : ∀ pts, F.ns pts < 2 ^ 31) {fuel : Nat}
    {x y : AShape ℚ} {xa yb : Atom ℚ ℚ} (hxa : x.By (F.maker f) xa) (hyb : y.By (F.maker f) yb) (sa : x.Firmly M) (firm : x.Firm) (okb : y.Ok) (sb : y.Sound M)
    (away : x.Away M y) :
    ∃ r, atomCovers ⟨f, F.arith, F.rarith, fuel⟩ xa yb = some r ∧ atomContains ⟨f, F.arith, F.rarith, fuel⟩ xa yb = some r ∧
      (r = true ↔ (∃ w, y.Has w) ∧ ∀ w, y.Has w → x.Inner w) := by
  match x, xa, hxa, sa, firm, away with
  | .point p, xa, hxa, sx, _, aw => exact thin_covers_away hF hM hf (by simp) hxa hyb hn okb sx sb aw.toAside
  | .line s, xa, hxa, sx, _, aw => exact thin_covers_away hF hM hf (by simp) hxa hyb hn okb sx sb aw.toAside
  | .poly ext holes, .poly q, hxa, sx, fx, aw => exact atom_covers_away hF hM hf hn hxa sx fx hyb okb sb aw

theorem covers_any_far {F : Fp} (hF : F.Ok) {M : ℚ} (hM : M ≤ 2 ^ 100) {f : Ix ℚ ℚ} (hf : f.Lawful) (hn : ∀ pts, F.ns pts < 2 ^ 31) {fuel : Nat}
    {H : HArith ℚ} {Q : Qsort} {a b : Shape ℚ} {ga gb : Geo ℚ ℚ} (ha : a.By (F.maker f) H Q ga) (hb : b.By (F.maker f) H Q gb)
    (sa : ∀ x ∈ a.atoms, x.Firmly M) (firm : ∀ x ∈ a.atoms, x.Firm) (okb : ∀ y ∈ b.atoms, y.Ok) (sb : ∀ y ∈ b.atoms, y.Sound M)
    (away : ∀ x ∈ a.atoms, ∀ y ∈ b.atoms, x.Away M y) :
    ∃ r, geoCovers ⟨f, F.arith, F.rarith, fuel⟩ ga gb = some r ∧ geoContains ⟨f, F.arith, F.rarith, fuel⟩ ga gb = some r ∧
      (r = true → ∀ w, b.Has w → ∃ x ∈ a.atoms, x.Inner w) ∧ ((b.NoEmpty ∧ ∃ x ∈ a.atoms, ∀ w, b.Has w → x.Inner w) → r = true) := by
  let P : Par ℚ ℚ := ⟨f, F.arith, F.rarith, fuel⟩
  have key : ∀ x ∈ a.atoms, ∀ y ∈ b.atoms, ∀ xa yb, x.By (F.maker f) xa → y.By (F.maker f) yb → ∃ r, atomCovers P xa yb = some r ∧ atomContains P xa yb = some r ∧
      (r = true ↔ (∃ w, y.Has w) ∧ ∀ w, y.Has w → x.Inner w) := fun x hx y hy xa yb hxa hyb =>
    atom_any_far hF hM hf hn hxa hyb (sa x hx) (firm x hx) (okb y hy) (sb y hy) (away x hx y hy)
  have tabs : ∀ x ∈ a.atoms, ∀ y ∈ b.atoms, ∀ xa yb, x.By (F.maker f) xa → y.By (F.maker f) yb →
      ∃ r, atomCovers P xa yb = some r ∧ (r = true ↔ (∃ w, y.Has w) ∧ ∀ w, y.Has w → x.Inner w) := fun x hx y hy xa yb hxa hyb => by
    obtain ⟨r, t1, -, t2⟩ := key x hx y hy xa yb hxa hyb
    exact ⟨r, t1, t2⟩
  have hRS : ∀ x y : AShape ℚ, ((∃ w, y.Has w) ∧ ∀ w, y.Has w → x.Inner w) → ∀ w, y.Has w → x.Inner w := fun x y h => h.2
  obtain ⟨r, k1, k2⟩ := geoCov_sound_by (tab := atomCovers P) (R := fun x y => (∃ w, y.Has w) ∧ ∀ w, y.Has w → x.Inner w) (S := fun x w => x.Inner w)
    (C := F.maker f) hf hRS ha hb tabs
  have same : geoCov (atomContains P) ga gb = geoCov (atomCovers P) ga gb := geoCov_congr_by ha hb fun x hx y hy xa yb hxa hyb => by
    obtain ⟨r, t1, t2, -⟩ := key x hx y hy xa yb hxa hyb
    rw [t1, t2]
  refine ⟨r, k1, by rw [geoContains]; exact same.trans k1, k2, ?_⟩
  rintro ⟨hne, x, hx, hw⟩
  obtain ⟨s1, s2⟩ := b.noEmpty_iff.1 hne
  have := geoCov_full_by (tab := atomCovers P) (R := fun x y => (∃ w, y.Has w) ∧ ∀ w, y.Has w → x.Inner w) (S := fun x w => x.Inner w)
    (C := F.maker f) hf hRS ha hb tabs s1 s2 ⟨x, hx, fun y hy => ⟨s2 y hy, fun w hh => hw w ((b.has_iff w).2 ⟨y, hy, hh⟩)⟩⟩
  exact Option.some.inj (k1.symm.trans this)

end Tg.S
