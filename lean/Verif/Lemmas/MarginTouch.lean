import Verif.Lemmas.MarginCovers
/-! `touches` for coordinates that are any doubles of usual size. -/
set_option linter.unusedSectionVars false
namespace Tg.S

/-! ### Loops -/

section
variable {C : Maker ℚ ℚ} {H : HArith ℚ} {Q : Qsort} {P : Par ℚ ℚ} {b : Geo ℚ ℚ} {T X : AShape ℚ → Prop} (hTX : ∀ x, T x → X x)
include hTX

mutual
/-- The loop of `tg_geom_touches`: one of the simple parts touches, and no part meets without touching. -/
theorem geoTouches_by : ∀ {s : Shape ℚ} {g : Geo ℚ ℚ}, s.By C H Q g →
    (∀ x ∈ s.atoms, ∀ a, x.By C a → ∃ r, atomTouchesGeo P a b = some r ∧ (r = true ↔ T x)) →
    (∀ (s' : Shape ℚ) (g' : Geo ℚ ℚ), s'.By C H Q g' → (∀ x ∈ s'.atoms, x ∈ s.atoms) → ∃ r, geoX P b g' = some r ∧ (r = true ↔ ∃ x ∈ s'.atoms, X x)) →
    ∃ r, geoTouches P b g = some r ∧ (r = true ↔ (∃ x ∈ s.atoms, T x) ∧ ∀ x ∈ s.atoms, X x → T x)
  | .null, .null, _, _, _ => ⟨false, by rw [geoTouches], by simp [Shape.atoms]⟩
  | .empty, .empty, _, _, _ => ⟨false, by rw [geoTouches], by simp [Shape.atoms]⟩
  | .atom x, .atom a, h, ht, _ => by
    rw [Shape.By] at h
    obtain ⟨r, h1, h2⟩ := ht x (by simp [Shape.atoms]) a h
    refine ⟨r, by rw [geoTouches, h1], ?_⟩
    rw [h2]
    simp only [Shape.atoms, List.mem_singleton, exists_eq_left, forall_eq]
    exact ⟨fun h => ⟨h, fun _ => h⟩, fun h => h.1⟩
  | .coll cs, .multi flag gs rect ix ixg, h, ht, hx => by
    rw [Shape.By] at h
    simp only [Shape.atoms] at ht hx ⊢
    obtain ⟨r, h1, h2⟩ := geoTouchesLoop_by h.2.2 ht hx false
    rw [geoTouches]
    cases hf : flag with
    | false => exact ⟨r, h1, by rw [h2]; simp⟩
    | true =>
      rw [h.1 hf, geoTouchesLoop] at h1
      cases h1
      exact ⟨false, rfl, by rw [h2]; simp⟩
theorem geoTouchesLoop_by : ∀ {ss : List (Shape ℚ)} {gs : List (Geo ℚ ℚ)}, Shape.ByAll C H Q ss gs →
    (∀ x ∈ Shape.allAtoms ss, ∀ a, x.By C a → ∃ r, atomTouchesGeo P a b = some r ∧ (r = true ↔ T x)) →
    (∀ (s' : Shape ℚ) (g' : Geo ℚ ℚ), s'.By C H Q g' → (∀ x ∈ s'.atoms, x ∈ Shape.allAtoms ss) → ∃ r, geoX P b g' = some r ∧ (r = true ↔ ∃ x ∈ s'.atoms, X x)) →
    ∀ f : Bool, ∃ r, geoTouchesLoop P b gs f = some r ∧
      (r = true ↔ (f = true ∨ ∃ x ∈ Shape.allAtoms ss, T x) ∧ ∀ x ∈ Shape.allAtoms ss, X x → T x)
  | [], [], _, _, _, f => ⟨f, by rw [geoTouchesLoop], by simp [Shape.allAtoms]⟩
  | c :: cs, g :: gs, h, ht, hx, f => by
    rw [Shape.ByAll] at h
    simp only [Shape.allAtoms] at ht hx ⊢
    obtain ⟨r, h1, h2⟩ := geoTouches_by h.1 (fun x hm => ht x (List.mem_append_left _ hm)) fun s' g' hs hm =>
      hx s' g' hs fun x hx => List.mem_append_left _ (hm x hx)
    have hrec := geoTouchesLoop_by h.2 (fun x hm => ht x (List.mem_append_right _ hm)) fun s' g' hs hm =>
      hx s' g' hs fun x hx => List.mem_append_right _ (hm x hx)
    rw [geoTouchesLoop, h1]
    rw [exists_append]
    simp only [List.mem_append, or_imp, forall_and]
    cases r with
    | true =>
      obtain ⟨r', h3, h4⟩ := hrec true
      refine ⟨r', h3, ?_⟩
      rw [h4]
      have := h2.1 rfl
      constructor
      · rintro ⟨-, k⟩
        exact ⟨.inr (.inl this.1), this.2, k⟩
      · rintro ⟨-, -, k⟩
        exact ⟨.inl rfl, k⟩
    | false =>
      obtain ⟨y, h5, h6⟩ := hx c g h.1 fun x hx => List.mem_append_left _ hx
      have hn : ¬ ((∃ x ∈ c.atoms, T x) ∧ ∀ x ∈ c.atoms, X x → T x) := fun hc => by cases h2.2 hc
      simp only [h5]
      cases y with
      | true =>
        refine ⟨false, rfl, iff_of_false (by simp) ?_⟩
        rintro ⟨-, k, -⟩
        obtain ⟨x, hm, hX⟩ := h6.1 rfl
        exact hn ⟨⟨x, hm, k x hm hX⟩, k⟩
      | false =>
        obtain ⟨r', h3, h4⟩ := hrec f
        refine ⟨r', h3, ?_⟩
        rw [h4]
        have hX : ∀ x ∈ c.atoms, ¬ X x := fun x hm hX => by cases h6.2 ⟨x, hm, hX⟩
        constructor
        · rintro ⟨k1, k2⟩
          refine ⟨?_, fun x hm h => absurd h (hX x hm), k2⟩
          rcases k1 with k | k
          · exact .inl k
          · exact .inr (.inr k)
        · rintro ⟨k1, -, k2⟩
          refine ⟨?_, k2⟩
          rcases k1 with k | ⟨x, hm, k⟩ | k
          · exact .inl k
          · exact absurd (hTX x k) (hX x hm)
          · exact .inr k
end
end

section
variable {C : Maker ℚ ℚ} {H : HArith ℚ} {Q : Qsort} {P : Par ℚ ℚ} {q : PolyS ℚ ℚ} {T X : AShape ℚ → Prop} (hTX : ∀ x, T x → X x)
include hTX

mutual
/-- The loop of `poly_touches_geom`. -/
theorem polyTouchesGeo_by : ∀ {s : Shape ℚ} {g : Geo ℚ ℚ}, s.By C H Q g →
    (∀ x ∈ s.atoms, ∀ a, x.By C a → ∃ r, atomTouches P (.poly q) a = some r ∧ (r = true ↔ T x)) →
    (∀ x ∈ s.atoms, ∀ a, x.By C a → ∃ r, atomX P (.poly q) a = some r ∧ (r = true ↔ X x)) →
    ∃ r, polyTouchesGeo P q g = some r ∧ (r = true ↔ (∃ x ∈ s.atoms, T x) ∧ ∀ x ∈ s.atoms, X x → T x)
  | .null, .null, _, _, _ => ⟨false, by rw [polyTouchesGeo], by simp [Shape.atoms]⟩
  | .empty, .empty, _, _, _ => ⟨false, by rw [polyTouchesGeo], by simp [Shape.atoms]⟩
  | .atom x, .atom a, h, ht, _ => by
    rw [Shape.By] at h
    obtain ⟨r, h1, h2⟩ := ht x (by simp [Shape.atoms]) a h
    refine ⟨r, by rw [polyTouchesGeo, h1], ?_⟩
    rw [h2]
    simp only [Shape.atoms, List.mem_singleton, exists_eq_left, forall_eq]
    exact ⟨fun h => ⟨h, fun _ => h⟩, fun h => h.1⟩
  | .coll cs, .multi flag gs rect ix ixg, h, ht, hx => by
    rw [Shape.By] at h
    simp only [Shape.atoms] at ht hx ⊢
    obtain ⟨r, h1, h2⟩ := polyTouchesGeos_by h.2.2 ht hx false
    rw [polyTouchesGeo]
    cases hf : flag with
    | false => exact ⟨r, h1, by rw [h2]; simp⟩
    | true =>
      rw [h.1 hf, polyTouchesGeos] at h1
      cases h1
      exact ⟨false, rfl, by rw [h2]; simp⟩
theorem polyTouchesGeos_by : ∀ {ss : List (Shape ℚ)} {gs : List (Geo ℚ ℚ)}, Shape.ByAll C H Q ss gs →
    (∀ x ∈ Shape.allAtoms ss, ∀ a, x.By C a → ∃ r, atomTouches P (.poly q) a = some r ∧ (r = true ↔ T x)) →
    (∀ x ∈ Shape.allAtoms ss, ∀ a, x.By C a → ∃ r, atomX P (.poly q) a = some r ∧ (r = true ↔ X x)) →
    ∀ f : Bool, ∃ r, polyTouchesGeos P q gs f = some r ∧
      (r = true ↔ (f = true ∨ ∃ x ∈ Shape.allAtoms ss, T x) ∧ ∀ x ∈ Shape.allAtoms ss, X x → T x)
  | [], [], _, _, _, f => ⟨f, by rw [polyTouchesGeos], by simp [Shape.allAtoms]⟩
  | c :: cs, g :: gs, h, ht, hx, f => by
    rw [Shape.ByAll] at h
    simp only [Shape.allAtoms] at ht hx ⊢
    obtain ⟨r, h1, h2⟩ := polyTouchesGeo_by h.1 (fun x hm => ht x (List.mem_append_left _ hm)) fun x hm => hx x (List.mem_append_left _ hm)
    have hrec := polyTouchesGeos_by h.2 (fun x hm => ht x (List.mem_append_right _ hm)) fun x hm => hx x (List.mem_append_right _ hm)
    rw [polyTouchesGeos, h1]
    rw [exists_append]
    simp only [List.mem_append, or_imp, forall_and]
    cases r with
    | true =>
      obtain ⟨r', h3, h4⟩ := hrec true
      refine ⟨r', h3, ?_⟩
      rw [h4]
      have := h2.1 rfl
      constructor
      · rintro ⟨-, k⟩
        exact ⟨.inr (.inl this.1), this.2, k⟩
      · rintro ⟨-, -, k⟩
        exact ⟨.inl rfl, k⟩
    | false =>
      obtain ⟨y, h5, h6⟩ := someGeo_by h.1 fun x hm => hx x (List.mem_append_left _ hm)
      have hn : ¬ ((∃ x ∈ c.atoms, T x) ∧ ∀ x ∈ c.atoms, X x → T x) := fun hc => by cases h2.2 hc
      simp only [h5]
      cases y with
      | true =>
        refine ⟨false, rfl, iff_of_false (by simp) ?_⟩
        rintro ⟨-, k, -⟩
        obtain ⟨x, hm, hX⟩ := h6.1 rfl
        exact hn ⟨⟨x, hm, k x hm hX⟩, k⟩
      | false =>
        obtain ⟨r', h3, h4⟩ := hrec f
        refine ⟨r', h3, ?_⟩
        rw [h4]
        have hX : ∀ x ∈ c.atoms, ¬ X x := fun x hm hX => by cases h6.2 ⟨x, hm, hX⟩
        constructor
        · rintro ⟨k1, k2⟩
          refine ⟨?_, fun x hm h => absurd h (hX x hm), k2⟩
          rcases k1 with k | k
          · exact .inl k
          · exact .inr (.inr k)
        · rintro ⟨k1, -, k2⟩
          refine ⟨?_, k2⟩
          rcases k1 with k | ⟨x, hm, k⟩ | k
          · exact .inl k
          · exact absurd (hTX x k) (hX x hm)
          · exact .inr k
end
end

/-! ### Points -/

section
variable {F : Fp} (hF : F.Ok) {M : ℚ} (hM : M ≤ 2 ^ 100) {f : Ix ℚ ℚ} (hf : f.Lawful)
include hF hM hf

/-- The boundary of a ring covers exactly its points. -/
theorem ring_pt_far {s : Series ℚ} (he : s.e.Ok) {p : Pt ℚ} (hp : UsualPt M p) (hc : RingClear M s p)
    {r : Ring ℚ ℚ} (h : newIx f F.arith s.e s.pts true s.ix = some r) :
    ∃ b, lineCoversPt f F.arith r p = some b ∧ (b = true ↔ OnBoundary s.segs p) := by
  classical
  have hlen : (segments s.pts true).length < s.pts.length ∨ s.pts.length % spreadOf s.e s.ix = 0 ∨ r.index = none := by
    rcases Sh.closed_leaves hc.closed (sp := spreadOf s.e s.ix) with h | h
    exacts [.inl h, .inr (.inl h)]
  have hq : (p.rect : Rect ℚ).Valid := ⟨le_rfl, le_rfl⟩
  have hs := C22_search_partial hf he h hlen p.rect hq (coversPtIter F.arith p) false
  refine ⟨_, hs, ?_⟩
  have hv : visit (fun x : Seg ℚ × Nat => coversPtIter F.arith p x.1 x.2) ((segments s.pts true).zipIdx.filter fun x => decide (Meets p.rect x.1)) false
      = ((segments s.pts true).zipIdx.filter fun x => decide (Meets p.rect x.1)).any fun x => segCoversPt F.arith x.1 p :=
    visit_any (fun x : Seg ℚ × Nat => segCoversPt F.arith x.1 p) _
  have hcov : ∀ t ∈ segments s.pts true, segCoversPt F.arith t p = true ↔ OnSeg t p := fun t ht =>
    seg_covers_pt_far hF hM (usual_seg hF hM hc.usual ht) hp (hc.clear t ht)
  rw [hv, List.any_eq_true]
  constructor
  · rintro ⟨⟨t, i⟩, h1, h2⟩
    rw [List.mem_filter, List.mem_zipIdx_iff_getElem?] at h1
    have ht := List.mem_of_getElem? h1.1
    exact ⟨t, ht, (hcov t ht).1 h2⟩
  · rintro ⟨t, h1, h2⟩
    obtain ⟨i, hi⟩ := List.getElem?_of_mem h1
    refine ⟨(t, i), ?_, (hcov t h1).2 h2⟩
    rw [List.mem_filter, List.mem_zipIdx_iff_getElem?]
    refine ⟨hi, decide_eq_true ⟨p, ⟨le_rfl, le_rfl, le_rfl, le_rfl⟩, ?_⟩⟩
    have h1 := onSeg_rect h2
    exact ⟨min_le_iff.1 h1.1, le_max_iff.1 h1.2.1, min_le_iff.1 h1.2.2.1, le_max_iff.1 h1.2.2.2⟩

theorem poly_touches_pt_far {P : Par ℚ ℚ} (hPf : P.f = f) (hPA : P.A = F.arith) {ext : Series ℚ} {holes : List (Series ℚ)} {q : PolyS ℚ ℚ}
    (hq : PolyBy (F.maker f) ext holes q) (hok : PolyOk ext holes) {p : Pt ℚ} (hp : UsualPt M p) (hc : AShape.ClearOf M p (.poly ext holes)) :
    ∃ b, ptTouchesPoly P p q = some b ∧ (b = true ↔ AShape.Rim (.poly ext holes) p) := by
  have hall : List.Forall₂ (FBy (F.maker f)) (ext :: holes) (q.ext :: q.holes) := by
    cases q with
    | ring r => obtain ⟨rfl, h⟩ := hq; exact .cons h .nil
    | poly e hs => exact .cons hq.1 hq.2
  obtain ⟨b, h1, h2⟩ := anyOf_forall2 (t := fun r : FRing ℚ ℚ => lineCoversPt P.f P.A r.ring p) (Q := fun s => OnBoundary s.segs p) hall fun s hm r hr => by
    rw [hPf, hPA]
    exact ring_pt_far hF hM hf hr.ok hp (hc s hm) hr.made
  refine ⟨b, h1, ?_⟩
  rw [h2]
  constructor
  · rintro ⟨s, hm, hb⟩
    refine ⟨hok.boundary s hm p hb, ?_⟩
    rintro ⟨k1, k2⟩
    rcases List.mem_cons.1 hm with rfl | hm
    · exact k1.1 hb
    · exact k2 s hm (.inl hb)
  · rintro ⟨⟨k1, k2⟩, k3⟩
    by_contra hn
    refine k3 ⟨k1.resolve_left fun hb => hn ⟨ext, by simp, hb⟩, fun h hm hr => ?_⟩
    rcases hr with hb | hi
    · exact hn ⟨h, by simp [hm], hb⟩
    · exact k2 h hm hi

/-- A shape touches a point: the point is on its boundary. The answer does not depend on the order. -/
theorem atom_touches_pt_far {P : Par ℚ ℚ} (hPf : P.f = f) (hPA : P.A = F.arith) {x : AShape ℚ} {a : Atom ℚ ℚ} (hx : x.By (F.maker f) a) (hok : x.Ok)
    {p : Pt ℚ} (hp : UsualPt M p) (hc : x.ClearOf M p) :
    ∃ r, atomTouches P a (.point p) = some r ∧ atomTouches P (.point p) a = some r ∧ (r = true ↔ x.Rim p) := by
  match x, a, hx, hok, hc with
  | .point q, .point q', hx, _, _ =>
    refine ⟨false, rfl, rfl, iff_of_false (by simp) fun h => h.2 h.1⟩
  | .line s, .line l, hx, _, _ =>
    have a1 := (newIx_some hf hx.1 hx.2).1
    have hsegs : segments s.pts false = edges s.pts := by rw [segments]; simp
    have hn : l.nsegs = s.pts.length - 1 := by rw [a1.nsegs_eq, hsegs, edges_length]
    rw [atomTouches, atomTouches, ptTouchesLine]
    by_cases h2 : s.pts.length < 2
    · rw [if_pos (by omega)]
      refine ⟨false, rfl, rfl, iff_of_false (by simp) ?_⟩
      rintro ⟨⟨t, ht, -⟩, -⟩
      match hsp : s.pts, h2 with
      | [], _ => rw [hsp] at ht; simp [edges] at ht
      | [_], _ => rw [hsp] at ht; simp [edges] at ht
    · rw [if_neg (by omega)]
      obtain ⟨s0, sN, k1, k2, k3, k4⟩ := line_ends_by hf hx.1 hx.2 (by omega)
      simp only [k1, k2]
      refine ⟨_, rfl, rfl, ?_⟩
      rw [Bool.or_eq_true, pteq_iff, pteq_iff, AShape.Rim, AShape.Inner, AShape.Has, k3, k4]
      have on : ∀ q ∈ s.pts, OnBoundary (edges s.pts) q := fun q hq => hsegs ▸ seg_of_pts (by omega) (by simp) q hq
      constructor
      · intro h
        refine ⟨?_, ?_⟩
        · rcases h with rfl | rfl
          · exact on _ (List.mem_of_mem_head? (by rw [k3]; rfl))
          · exact on _ (List.mem_of_getLast? k4)
        · rintro ⟨-, g1, g2⟩
          rcases h with rfl | rfl
          · exact g1 rfl
          · exact g2 rfl
      · rintro ⟨g1, g2⟩
        by_contra hc
        rw [not_or] at hc
        exact g2 ⟨g1, fun h => hc.1 (Option.some.inj h).symm, fun h => hc.2 (Option.some.inj h).symm⟩
  | .poly ext holes, .poly q, hx, hok, hc =>
    obtain ⟨b, h1, h2⟩ := poly_touches_pt_far hF hM hf hPf hPA hx hok hp hc
    exact ⟨b, h1, h1, h2⟩
end

/-! ### General position -/

section
variable {F : Fp} (hF : F.Ok) {M : ℚ} (hM : M ≤ 2 ^ 100)
include hF hM

theorem segTouches0_far {u : Seg ℚ} {p q : Pt ℚ} (hu : UsualSeg M u) (hp : UsualPt M p) (hc : Clear M u p) (hn : ¬ OnSeg u p) :
    segTouches0 F.arith u p q = false := by
  rw [segTouches0, if_pos]
  rw [Bool.not_eq_true', ← Bool.not_eq_true, seg_covers_pt_far hF hM hu hp hc]
  exact hn

theorem lines_touch_far {f : Ix ℚ ℚ} (hf : Ag.Fits Plain f) {R : RArith ℚ} {fuel : Nat} {s t : Series ℚ} (hs : s.e.Ok) (ht : t.e.Ok)
    (us : ∀ q ∈ s.pts, UsualPt M q) (ut : ∀ q ∈ t.pts, UsualPt M q) (away : AShape.Aside M (.line s) (.line t)) {a b : Ring ℚ ℚ}
    (ha : newIx f F.arith s.e s.pts false s.ix = some a) (hb : newIx f F.arith t.e t.pts false t.ix = some b) :
    lineTouchesLine ⟨f, F.arith, R, fuel⟩ a b = some false := by
  have hsegs : ∀ qts : List (Pt ℚ), segments qts false = edges qts := fun qts => by rw [segments]; simp
  have tight : ∀ pts : List (Pt ℚ), (∀ q ∈ pts, UsualPt M q) → f.Tight (segments pts false) := fun pts hu =>
    hf.tight fun u hu' => ⟨⟨usual_plain hM (hu _ (seg_mem_pts hu').1).1, usual_plain hM (hu _ (seg_mem_pts hu').1).2⟩,
      usual_plain hM (hu _ (seg_mem_pts hu').2).1, usual_plain hM (hu _ (seg_mem_pts hu').2).2⟩
  obtain ⟨l, -, l2, l3⟩ := ringRingSearch_order.{0} hf.lawful (A := F.arith) (newIx_some hf.lawful hs ha).1 (newIx_some hf.lawful ht hb).1
    (.inl (Ag.leaves_open _ _)) (.inl (Ag.leaves_open _ _)) (tight _ us) (tight _ ut)
  unfold lineTouchesLine
  dsimp only
  rw [show ringRingSearch f F.arith a b (fun s i t j _ => if anyTouching F.arith s i a.nsegs t j b.nsegs then (true, true) else (false, false)) false = _ from
    l3 Bool _ false, Option.map_some]
  rcases hl : l with _ | ⟨⟨⟨u, i⟩, ⟨v, j⟩⟩, l'⟩
  · rfl
  · obtain ⟨x1, x2, -⟩ := (l2 _).1 (by rw [hl]; exact List.mem_cons_self)
    have hu : u ∈ segments s.pts false := List.mem_of_getElem? x1.2.2
    have hv : v ∈ segments t.pts false := List.mem_of_getElem? x2.2.2
    have eu : u ∈ edges s.pts := by rw [← hsegs]; exact hu
    have ev : v ∈ edges t.pts := by rw [← hsegs]; exact hv
    have hg := away.general
    have h1 := usual_seg hF hM us (closed := false) hu
    have h2 := usual_seg hF hM ut (closed := false) hv
    have hf : anyTouching F.arith u i a.nsegs v j b.nsegs = false := by
      rw [anyTouching,
        segTouches0_far hF hM h2 h1.1 ((away.right _ (seg_mem_pts hu).1).2 v ev) fun h => hg.1 _ (seg_mem_pts hu).1 ⟨v, ev, h⟩,
        segTouches0_far hF hM h2 h1.2 ((away.right _ (seg_mem_pts hu).2).2 v ev) fun h => hg.1 _ (seg_mem_pts hu).2 ⟨v, ev, h⟩,
        segTouches0_far hF hM h1 h2.1 ((away.left _ (seg_mem_pts hv).1).2 u eu) fun h => hg.2 _ (seg_mem_pts hv).1 ⟨u, eu, h⟩,
        segTouches0_far hF hM h1 h2.2 ((away.left _ (seg_mem_pts hv).2).2 u eu) fun h => hg.2 _ (seg_mem_pts hv).2 ⟨u, eu, h⟩]
      simp
    simp [visitB, hf]

variable {f : Ix ℚ ℚ} (hf : f.Lawful) (hn : ∀ pts, F.ns pts < 2 ^ 31)
include hf

/-- No vertex of the other is on the ring. -/
theorem ring_off_far {s : Series ℚ} {r : FRing ℚ ℚ} (hr : FBy (F.maker f) s r) {ps : List (Pt ℚ)} {es : List (Seg ℚ)} (ra : RingAway M s ps es) {o : Ring ℚ ℚ}
    (hw : Within o ps es) : anyOf (fun p => lineCoversPt f F.arith r.ring p) (ptsOf o) = some false :=
  anyOf_false fun p hp => by
    have hp := hw.pts p hp
    obtain ⟨b, h1, h2⟩ := ring_pt_far hF hM hf hr.ok (ra.clear p hp).1 (ra.clear p hp).2 hr.made
    cases b with
    | false => exact h1
    | true => exact absurd (h2.1 rfl) (ra.off p hp)

include hn
variable {R : RArith ℚ} {fuel : Nat}

theorem poly_touches_line_far {ext : Series ℚ} {holes : List (Series ℚ)} {q : PolyS ℚ ℚ} (hq : PolyBy (F.maker f) ext holes q)
    (hs : AShape.Sound M (.poly ext holes)) (ok : PolyOk ext holes) {s : Series ℚ} (hse : s.e.Ok) (hu : ∀ p ∈ s.pts, UsualPt M p)
    (away : AShape.Aside M (.poly ext holes) (.line s)) {l : Ring ℚ ℚ} (hl : newIx f F.arith s.e s.pts false s.ix = some l) :
    polyTouchesLine ⟨f, F.arith, R, fuel⟩ q l = some false := by
  have ra := ringAway_of hF hM hs.1 (y := .line s) hu away.left away.right away.apart away.general
  obtain ⟨ε, ε0, hsee⟩ := ringsSee_of (fun _ => 0) ((ext :: holes).map Series.bare) s.pts fun x hx => by
    obtain ⟨t, ht, rfl⟩ := List.mem_map.1 hx
    exact bare_fit (hs.1 t ht).1 _
  have hsee := hsee ε ε0 le_rfl
  obtain ⟨l', hl'⟩ := C24_built Ix.exact_lawful (exact ε fun _ => 0) initial_ok s.pts false 1#32 fun h => absurd (indexKinds_closed h) (by simp)
  have hal := alike_of hf Ix.exact_lawful hse initial_ok hl hl'
  have hw := within_of hf hse hl
  rw [edges_segments] at hw
  have hes := node_ends (y := .line s)
  have exQ : FBy (F.maker f) ext q.ext := by cases q with | ring r => exact hq.2 | poly e hs => exact hq.1
  have hoQ : List.Forall₂ (FBy (F.maker f)) holes q.holes := by cases q with | ring r => rw [hq.1]; exact .nil | poly e hs => exact hq.2
  rw [polyTouchesLine]
  by_cases hx : (!(polyRect q).intersects l.rect) = true
  · rw [if_pos hx]
  rw [if_neg hx]
  dsimp only
  rw [ring_off_far hF hM hf exQ (ra ext (by simp)) hw]
  refine inHole_false hoQ fun h hm x hx => ⟨?_, ring_off_far hF hM hf hx (ra h (by simp [hm])) hw⟩
  obtain ⟨t, t1, t2, t3⟩ := ring_twin_gen hF hM hf hn hx (ra h (by simp [hm])) hes
    (hsee.mono (fun y hy => by rw [List.mem_singleton.1 hy]; exact List.mem_map.2 ⟨h, by simp [hm], rfl⟩) fun _ h => h)
  have t3 := t3 (ringConvex_far hF hM (hs.1 h (by simp [hm])).2 (hs.2 h hm))
  have e1 : hasLine ⟨f, F.arith, R, fuel⟩ x l true false = hasLine ⟨Ix.exact, exact ε fun _ => 0, exactR, fuel⟩ t l' true false := by
    unfold hasLine; dsimp only; rw [t3]; exact t2.hasLineYes hal hw R exactR _ _ _
  rw [e1]
  obtain ⟨b1, -⟩ := newIx_some Ix.exact_lawful initial_ok hl'
  by_cases h2 : 2 ≤ s.pts.length
  · have hsh := hsee h.bare (List.mem_map.2 ⟨h, by simp [hm], rfl⟩) _ t1.made
    have hgen : SegsGen (segments s.pts false) h.segs := by rw [edges_segments]; exact (ra h (by simp [hm])).gen
    rw [hasLine_eq (P := ⟨Ix.exact, exact ε fun _ => 0, exactR, fuel⟩) t1 b1 hsh hgen rfl rfl]
    obtain ⟨b, h1, -⟩ := hasLine_iff t1 (show FlagOk h.bare from ok.flags h hm) initial_ok hl' h2 hsh
      ⟨Ix.exact, exact ε fun _ => 0, exactR, fuel⟩ rfl rfl
    exact ⟨b, h1⟩
  · exact ⟨false, hasLine_empty (.inr (by rw [ring_not_empty b1]; simp; omega))⟩

theorem poly_touches_poly_far {ea eb : Series ℚ} {ha hb : List (Series ℚ)} {q r : PolyS ℚ ℚ} (hq : PolyBy (F.maker f) ea ha q) (hr : PolyBy (F.maker f) eb hb r)
    (sa : AShape.Sound M (.poly ea ha)) (sb : AShape.Sound M (.poly eb hb)) (oka : PolyOk ea ha) (okb : PolyOk eb hb)
    (away : AShape.Aside M (.poly ea ha) (.poly eb hb)) : polyTouchesPoly ⟨f, F.arith, R, fuel⟩ q r = some false := by
  have usual : ∀ {e : Series ℚ} {hs : List (Series ℚ)}, (∀ s ∈ e :: hs, Closed s ∧ ∀ q ∈ s.pts, UsualPt M q) → ∀ p ∈ AShape.nodes (.poly e hs), UsualPt M p := by
    intro e hs h p hp
    obtain ⟨t, ht, hp⟩ := List.mem_flatMap.1 hp
    exact (h t ht).2 p hp
  have ra := ringAway_of hF hM sa.1 (y := .poly eb hb) (usual sb.1) away.left away.right away.apart away.general
  have rb := ringAway_of hF hM sb.1 (y := .poly ea ha) (usual sa.1) away.right away.left (fun u hu v hv => (away.apart v hv u hu).symm hF hM) away.general.symm
  have exA : FBy (F.maker f) ea q.ext := by cases q with | ring r => exact hq.2 | poly e hs => exact hq.1
  have exB : FBy (F.maker f) eb r.ext := by cases r with | ring r => exact hr.2 | poly e hs => exact hr.1
  have hoA : List.Forall₂ (FBy (F.maker f)) ha q.holes := by cases q with | ring r => rw [hq.1]; exact .nil | poly e hs => exact hq.2
  have hoB : List.Forall₂ (FBy (F.maker f)) hb r.holes := by cases r with | ring r => rw [hr.1]; exact .nil | poly e hs => exact hr.2
  have win : ∀ {e : Series ℚ} {hs : List (Series ℚ)} {s : Series ℚ} {x : FRing ℚ ℚ}, s ∈ e :: hs → FBy (F.maker f) s x →
      Within x.ring (AShape.nodes (.poly e hs)) (AShape.sides (.poly e hs)) := by
    intro e hs s x hs' hx
    have := within_of hf hx.ok hx.made
    exact ⟨fun i hi v hv => List.mem_flatMap.2 ⟨s, hs', this.segs i hi v hv⟩, fun p hp => List.mem_flatMap.2 ⟨s, hs', this.pts p hp⟩⟩
  -- a ring of one of them and a ring of the other
  have see : ∀ {s : Series ℚ} {e : Series ℚ} {hs : List (Series ℚ)}, Closed s → ∃ ε > 0, ∀ ε', 0 < ε' → ε' ≤ ε →
      RingsSee ε' (fun _ => 0) [s.bare] (AShape.nodes (.poly e hs)) := fun {s e hs} hc => by
    obtain ⟨ε, ε0, h⟩ := ringsSee_of (fun _ => 0) [s.bare] (AShape.nodes (.poly e hs)) fun x hx => by
      rw [List.mem_singleton.1 hx]
      exact bare_fit hc _
    exact ⟨ε, ε0, h⟩
  have test : ∀ {s t e : Series ℚ} {hs : List (Series ℚ)} {x y : FRing ℚ ℚ}, FBy (F.maker f) s x → FlagOk s → TurnsClear M s.pts → FBy (F.maker f) t y →
      t ∈ e :: hs → Closed t → RingAway M s (AShape.nodes (.poly e hs)) (AShape.sides (.poly e hs)) →
      (∃ b, hasRing ⟨f, F.arith, R, fuel⟩ x y true = some b) ∧ anyOf (fun p => lineCoversPt f F.arith x.ring p) (ptsOf y.ring) = some false := by
    intro s t e hs x y hx hfl hto hy hm hc away
    refine ⟨?_, ring_off_far hF hM hf hx away (win hm hy)⟩
    obtain ⟨ε, ε0, hsee⟩ := see (s := s) (e := e) (hs := hs) away.closed
    have hsee := hsee ε ε0 le_rfl
    obtain ⟨x', x1, x2, x3⟩ := ring_twin_gen hF hM hf hn hx away node_ends hsee
    obtain ⟨z, hz⟩ := C24_built Ix.exact_lawful (exact ε fun _ => 0) initial_ok t.pts true 1#32 fun h => by rw [bare_kinds] at h; cases h
    obtain ⟨o, ho⟩ := orient_exact_some t.pts
    have z1 : FOk ε (fun _ => 0) t.bare ⟨z, o.convex, o.clockwise⟩ := ⟨initial_ok, hz, by rw [ringConvex, show t.bare.pts = t.pts from rfl, ho]; rfl,
      by rw [ringClockwise, show t.bare.pts = t.pts from rfl, ho]; rfl⟩
    have hal := alike_of hf Ix.exact_lawful hy.ok initial_ok hy.made hz
    have x3 := x3 (ringConvex_far hF hM away.usual hto)
    have e1 : hasRing ⟨f, F.arith, R, fuel⟩ x y true = hasRing ⟨Ix.exact, exact ε fun _ => 0, exactR, fuel⟩ x' ⟨z, o.convex, o.clockwise⟩ true := by
      unfold hasRing; dsimp only; rw [x3]; exact x2.hasRingYes hal (win hm hy) R exactR _ _ _
    rw [e1]
    have mem : ∀ p ∈ t.pts, p ∈ AShape.nodes (.poly e hs) := fun p hp => List.mem_flatMap.2 ⟨t, hm, hp⟩
    have sees : Sees ε (fun _ => 0) s.bare x'.ring t.bare.pts := (hsee s.bare (by simp) _ x1.made).mono mem
    rw [hasRing_eq (P := ⟨Ix.exact, exact ε fun _ => 0, exactR, fuel⟩) x1 z1 sees
      (fun u hu v hv => away.gen u (List.mem_flatMap.2 ⟨t, hm, hu⟩) v hv) (fun p hp => away.off p (mem p hp)) rfl rfl]
    obtain ⟨b, h1, -⟩ := hasRing_iff x1 (show FlagOk s.bare from hfl) z1 hc.1 sees ⟨Ix.exact, exact ε fun _ => 0, exactR, fuel⟩ rfl rfl
    exact ⟨b, h1⟩
  have cross : ∀ {s e : Series ℚ} {hs : List (Series ℚ)} {x : FRing ℚ ℚ}, FBy (F.maker f) s x →
      RingAway M s (AShape.nodes (.poly e hs)) (AShape.sides (.poly e hs)) → ∀ u ∈ e.segs,
      ∃ b, ringXSeg f F.arith x.ring u true = some b ∧ ringXSeg f F.arith x.ring u false = some b := by
    intro s e hs x hx away u hu
    obtain ⟨ε, ε0, hsee⟩ := see (s := s) (e := e) (hs := hs) away.closed
    have hsee := hsee ε ε0 le_rfl
    obtain ⟨x', x1, x2, -⟩ := ring_twin_gen hF hM hf hn hx away node_ends hsee
    have hm : u ∈ AShape.sides (.poly e hs) := List.mem_flatMap.2 ⟨e, by simp, hu⟩
    rw [x2.xSame u hm, x2.xSeg hm]
    obtain ⟨b, h1, -⟩ := ringXSeg_same (P := ⟨Ix.exact, exact ε fun _ => 0, exactR, fuel⟩) rfl rfl x1 (hsee s.bare (by simp) _ x1.made)
      (node_ends u hm).1 (node_ends u hm).2 (away.gen u hm)
    exact ⟨b, h1, h1⟩
  have ext : extTouches ⟨f, F.arith, R, fuel⟩ q.ext.ring r.ext.ring = some false := by
    obtain ⟨a1, -⟩ := newIx_some hf exA.ok exA.made
    obtain ⟨b1, -⟩ := newIx_some hf exB.ok exB.made
    have c1 := countTouches_same (P := ⟨f, F.arith, R, fuel⟩) (a := q.ext.ring) (n := 0) (segAt_range b1) (cross exA (ra ea (by simp)))
    have c2 := countTouches_same (P := ⟨f, F.arith, R, fuel⟩) (a := r.ext.ring) (n := 0) (segAt_range a1) (cross exB (rb eb (by simp)))
    rw [extTouches]
    rcases c1 with c1 | c1
    · rw [c1]
    · rw [c1]
      rcases c2 with c2 | c2
      · simp only [c2]
      · simp only [c2]
        simp
  rw [polyTouchesPoly]
  by_cases hx : (!(polyRect q).intersects (polyRect r)) = true
  · rw [if_pos hx]
  · rw [if_neg hx, ext]
    dsimp only
    rw [inHole_false hoB fun h hm x hx => test hx (okb.flags h hm) (sb.2 h hm) exA (by simp) (sa.1 ea (by simp)).1 (rb h (by simp [hm]))]
    exact inHole_false hoA fun h hm x hx => test hx (oka.flags h hm) (sa.2 h hm) exB (by simp) (sb.1 eb (by simp)).1 (ra h (by simp [hm]))

end

/-- In general position no two shapes touch. -/
theorem atom_touches_away {F : Fp} (hF : F.Ok) {M : ℚ} (hM : M ≤ 2 ^ 100) {f : Ix ℚ ℚ} (hf : Ag.Fits Plain f) (hn : ∀ pts, F.ns pts < 2 ^ 31) {R : RArith ℚ}
    {fuel : Nat} {x y : AShape ℚ} {a b : Atom ℚ ℚ} (hx : x.By (F.maker f) a) (hy : y.By (F.maker f) b) (okx : x.Ok) (oky : y.Ok) (sx : x.Sound M) (sy : y.Sound M)
    (away : x.Aside M y) : atomTouches ⟨f, F.arith, R, fuel⟩ a b = some false := by
  have pt : ∀ {z : AShape ℚ} {c : Atom ℚ ℚ} {p : Pt ℚ}, z.By (F.maker f) c → z.Ok → UsualPt M p → z.ClearOf M p → ¬ OnBoundary z.sides p →
      atomTouches ⟨f, F.arith, R, fuel⟩ c (.point p) = some false ∧ atomTouches ⟨f, F.arith, R, fuel⟩ (.point p) c = some false := by
    intro z c p hz ok hp hc hn
    obtain ⟨r, h1, h2, h3⟩ := atom_touches_pt_far hF hM hf.lawful (P := ⟨f, F.arith, R, fuel⟩) rfl rfl hz ok hp hc
    cases r with
    | false => exact ⟨h1, h2⟩
    | true => exact absurd (h3.1 rfl).side hn
  have sym : ∀ {x y : AShape ℚ}, x.Aside M y → y.Aside M x := fun away =>
    ⟨away.right, away.left, fun u hu v hv => (away.apart v hv u hu).symm hF hM, away.general.symm⟩
  match x, a, hx, y, b, hy with
  | .point p, .point p', hx, y, b, hy =>
    rw [show p' = p from hx]
    exact (pt hy oky sx (away.right p (by simp [AShape.nodes])) (away.general.1 p (by simp [AShape.nodes]))).2
  | .line s, .line l, hx, .point p, .point p', hy =>
    rw [show p' = p from hy]
    exact (pt (z := .line s) (c := .line l) hx okx sy (away.left p (by simp [AShape.nodes])) (away.general.2 p (by simp [AShape.nodes]))).1
  | .poly ext holes, .poly q, hx, .point p, .point p', hy =>
    rw [show p' = p from hy]
    exact (pt (z := .poly ext holes) (c := .poly q) hx okx sy (away.left p (by simp [AShape.nodes])) (away.general.2 p (by simp [AShape.nodes]))).1
  | .line s, .line l, hx, .line t, .line m, hy => exact lines_touch_far hF hM hf hx.1 hy.1 sx sy away hx.2 hy.2
  | .line s, .line l, hx, .poly ext holes, .poly q, hy => exact poly_touches_line_far hF hM hf.lawful hn hy sy oky hx.1 sx (sym away) hx.2
  | .poly ext holes, .poly q, hx, .line s, .line l, hy => exact poly_touches_line_far hF hM hf.lawful hn hx sx okx hy.1 sy away hy.2
  | .poly ea ha, .poly q, hx, .poly eb hb, .poly r, hy => exact poly_touches_poly_far hF hM hf.lawful hn hx hy sx sy okx oky away

/-! ### Geometries -/

section
variable {F : Fp} (hF : F.Ok) {M : ℚ} (hM : M ≤ 2 ^ 100) {f : Ix ℚ ℚ} (hf : Ag.Fits Plain f) (hn : ∀ pts, F.ns pts < 2 ^ 31) {fuel : Nat}
  {H : HArith ℚ} {Q : Qsort} (hQ : QsortOk Q) {a : Shape ℚ} {ga : Geo ℚ ℚ} (ha : a.By (F.maker f) H Q ga) (oka : ∀ x ∈ a.atoms, x.Ok)
include hF hM hf hn hQ ha oka

/-- A geometry of any kind and a point. -/
theorem touches_pt_far {p : Pt ℚ} (ua : ∀ x ∈ a.atoms, ∀ q ∈ x.verts, UsualPt M q) (hp : UsualPt M p) (hc : ∀ x ∈ a.atoms, x.ClearOf M p) :
    ∃ r, geoTouches ⟨f, F.arith, F.rarith, fuel⟩ (.atom (.point p)) ga = some r ∧ (r = true ↔ a.Has p ∧ ∀ x ∈ a.atoms, ¬ x.Inner p) := by
  let P : Par ℚ ℚ := ⟨f, F.arith, F.rarith, fuel⟩
  obtain ⟨r, k1, k2⟩ := geoTouches_by (P := P) (b := .atom (.point p)) (T := fun x => x.Rim p) (X := fun x => x.Has p) (fun x h => h.1) ha
    (fun x hx b hb => by
      obtain ⟨r, t1, -, t2⟩ := atom_touches_pt_far hF hM hf.lawful (P := P) rfl rfl hb (oka x hx) hp (hc x hx)
      refine ⟨r, ?_, t2⟩
      cases b with
      | point q => rw [atomTouchesGeo.eq_2 _ _ _ (by simp), someGeo]; exact t1
      | line l => rw [atomTouchesGeo.eq_2 _ _ _ (by simp), someGeo]; exact t1
      | poly q => rw [atomTouchesGeo, polyTouchesGeo]; exact t1)
    (fun s' g' hs' hm => geoX_by plain_zero (C := F.maker f) hf hQ (q := fun x => x.Has p) hs'
      (fun x hx q hq => ⟨usual_plain hM (ua x (hm x hx) q hq).1, usual_plain hM (ua x (hm x hx) q hq).2⟩) fun x hx b hb => by
      obtain ⟨r, t1, t2⟩ := atom_covers_far hF hM hf.lawful hn (R := F.rarith) (fuel := fuel) hb hp (hc x (hm x hx))
      refine ⟨r, ?_, t2⟩
      rw [someGeo]
      cases b <;> exact t1)
  refine ⟨r, k1, ?_⟩
  rw [k2, a.has_iff]
  constructor
  · rintro ⟨⟨x, hx, hr⟩, hall⟩
    exact ⟨⟨x, hx, hr.1⟩, fun y hy hi => (hall y hy hi.has).2 hi⟩
  · rintro ⟨⟨x, hx, hh⟩, hall⟩
    exact ⟨⟨x, hx, hh, hall x hx⟩, fun y hy hh => ⟨hh, hall y hy⟩⟩

/-- In general position no two geometries touch. -/
theorem touches_far {b : Shape ℚ} {gb : Geo ℚ ℚ} (hb : b.By (F.maker f) H Q gb) (okb : ∀ y ∈ b.atoms, y.Ok) (sa : ∀ x ∈ a.atoms, x.Sound M)
    (sb : ∀ y ∈ b.atoms, y.Sound M) (hap : a.Apart M b) (away : ∀ x ∈ a.atoms, ∀ y ∈ b.atoms, x.Aside M y) :
    geoTouches ⟨f, F.arith, F.rarith, fuel⟩ gb ga = some false := by
  let P : Par ℚ ℚ := ⟨f, F.arith, F.rarith, fuel⟩
  have touch : ∀ x ∈ a.atoms, ∀ y ∈ b.atoms, ∀ xa yb, x.By (F.maker f) xa → y.By (F.maker f) yb → atomTouches P xa yb = some false :=
    fun x hx y hy xa yb hxa hyb => atom_touches_away hF hM hf hn hxa hyb (oka x hx) (okb y hy) (sa x hx) (sb y hy) (away x hx y hy)
  have meet : ∀ x ∈ a.atoms, ∀ y ∈ b.atoms, ∀ xa yb, x.By (F.maker f) xa → y.By (F.maker f) yb →
      ∃ r, atomX P xa yb = some r ∧ (r = true ↔ ∃ w, x.Has w ∧ y.Has w) :=
    fun x hx y hy xa yb hxa hyb => atomX_far hF hM hf hn hxa hyb (oka x hx) (okb y hy) (sa x hx) (sb y hy) (hap x hx y hy)
  obtain ⟨r, k1, k2⟩ := geoTouches_by (P := P) (b := gb) (T := fun _ => False) (X := fun x => ∃ y ∈ b.atoms, ∃ w, x.Has w ∧ y.Has w) (fun x h => h.elim) ha
    (fun x hx xa hxa => by
      have some : ∃ r, someGeo (atomTouches P xa) gb = some r ∧ (r = true ↔ ∃ y ∈ b.atoms, False) :=
        someGeo_by hb fun y hy yb hyb => ⟨false, touch x hx y hy xa yb hxa hyb, by simp⟩
      simp only [and_false, exists_false] at some
      cases xa with
      | point q => rw [atomTouchesGeo.eq_2 _ _ _ (by simp)]; exact some
      | line l => rw [atomTouchesGeo.eq_2 _ _ _ (by simp)]; exact some
      | poly q =>
        rw [atomTouchesGeo]
        obtain ⟨r, g1, g2⟩ := polyTouchesGeo_by (P := P) (q := q) (T := fun _ => False) (X := fun y => ∃ w, x.Has w ∧ y.Has w) (fun y h => h.elim) hb
          (fun y hy yb hyb => ⟨false, touch x hx y hy _ yb hxa hyb, by simp⟩) (fun y hy yb hyb => meet x hx y hy _ yb hxa hyb)
        exact ⟨r, g1, g2.trans (by simp)⟩)
    (fun s' g' hs' hm => geoX_by plain_zero (C := F.maker f) hf hQ (q := fun x => ∃ y ∈ b.atoms, ∃ w, x.Has w ∧ y.Has w) hs'
      (fun x hx p hp => ⟨usual_plain hM ((sa x (hm x hx)).verts p hp).1, usual_plain hM ((sa x (hm x hx)).verts p hp).2⟩) fun x hx xa hxa =>
      someGeo_by hb fun y hy yb hyb => meet x (hm x hx) y hy xa yb hxa hyb)
  have : r = false := by
    rw [← Bool.not_eq_true, k2]
    rintro ⟨⟨_, _, h⟩, -⟩
    exact h
  rw [← this]
  exact k1
end

end Tg.S
