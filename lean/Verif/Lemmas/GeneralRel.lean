import Verif.Lemmas.General
/-! The predicates on geometries in general position, with exact arithmetic. -/
set_option linter.unusedSectionVars false
namespace Tg.S

variable {K : Type*} [Field K] [LinearOrder K] [IsStrictOrderedRing K] [FloorRing K] {ε : K} {ns : List (Pt K) → Nat}

/-! ### Nothing touches -/

theorem ring_off {s : Series K} {r : FRing K K} (hr : FOk ε ns s r) {ps : List (Pt K)} (hs : Sees ε ns s r.ring ps) {p : Pt K} (h : ¬ OnBoundary s.segs p) :
    lineCoversPt Ix.exact (exact ε ns) r.ring p = some false := by
  obtain ⟨b, h1, h2⟩ := ring_covers_pt hr.ok hr.made hs.search p
  cases b with
  | false => exact h1
  | true => exact absurd (h2.1 rfl) h

theorem ptsOf_eq {pts : List (Pt K)} {closed : Bool} {sp : Nat} {r : Ring K K} (h : RingOk Ix.exact pts closed sp r) : ptsOf r = pts := by
  rw [ptsOf, h.points_eq, h.npoints_eq, List.take_left']
  rfl

theorem inHole_false {t ans : FRing K K → Option Bool} {R : Series K → FRing K K → Prop} : ∀ {ss : List (Series K)} {l : List (FRing K K)},
    List.Forall₂ R ss l → (∀ s ∈ ss, ∀ x, R s x → (∃ b, t x = some b) ∧ ans x = some false) → inHole t ans (some false) l = some false
  | [], [], _, _ => rfl
  | s :: ss, x :: l, .cons h hs, hq => by
    obtain ⟨⟨b, h1⟩, h2⟩ := hq s (by simp) x h
    rw [inHole, h1]
    cases b with
    | true => exact h2
    | false => exact inHole_false hs fun s hs => hq s (by simp [hs])

theorem segTouches0_false {s : Seg K} {a b : Pt K} (h : ¬ OnSeg s a) : segTouches0 (exact ε ns) s a b = false := by
  rw [segTouches0, if_pos]
  rw [Bool.not_eq_true', ← Bool.not_eq_true, segCoversPt_iff]
  exact h

theorem countTouches_same {P : Par K K} {a : Ring K K} {points : List (Pt K)} : ∀ {is : List Nat} {ss : List (Seg K)} {n : Nat},
    is.map (segAt points) = ss.map some → (∀ s ∈ ss, ∃ b, ringXSeg P.f P.A a s true = some b ∧ ringXSeg P.f P.A a s false = some b) →
    countTouches P a points is n = some none ∨ countTouches P a points is n = some (some n)
  | [], _, _, _, _ => .inr rfl
  | i :: is, [], _, h, _ => by simp at h
  | i :: is, s :: ss, n, h, hb => by
    simp only [List.map_cons, List.cons.injEq] at h
    obtain ⟨b, h1, h2⟩ := hb s (by simp)
    rw [countTouches, h.1]
    dsimp only
    rw [h1, h2]
    cases b with
    | true => exact .inl rfl
    | false => exact countTouches_same h.2 fun t ht => hb t (by simp [ht])

section
variable {P : Par K K} (hPf : P.f = Ix.exact) (hPA : P.A = exact ε ns)
include hPf hPA

theorem polyTouchesLine_gen {ext : Series K} {holes : List (Series K)} {q : PolyS K K} (hq : PolyIs ε ns ext holes q) (ok : PolyOk ext holes) {s : Series K}
    (hse : s.e.Ok) {o : Ring K K} (ho : newIx Ix.exact (exact ε ns) s.e s.pts false s.ix = some o) (hs : RingsSee ε ns (ext :: holes) s.pts)
    (hg : AShape.General (.poly ext holes) (.line s)) : polyTouchesLine P q o = some false := by
  obtain ⟨b1, -⟩ := newIx_some Ix.exact_lawful hse ho
  have off : ∀ t ∈ ext :: holes, ∀ x, FOk ε ns t x → anyOf (fun p => lineCoversPt P.f P.A x.ring p) (ptsOf o) = some false := fun t ht x hx =>
    anyOf_false fun p hp => by
      rw [ptsOf_eq b1] at hp
      rw [hPf, hPA]
      exact ring_off hx (hs t ht _ hx.made) ((general_ring hg ht).right p hp)
  rw [polyTouchesLine]
  by_cases hx : (!(polyRect q).intersects o.rect) = true
  · rw [if_pos hx]
  · rw [if_neg hx, off ext (by simp) _ hq.ext]
    refine inHole_false hq.holes fun h hm x hx => ⟨?_, off h (by simp [hm]) x hx⟩
    have hgen : SegsGen (segments s.pts false) h.segs :=
      ChainGen.segs (c := false) (d := true) (by rw [edges_segments]; exact (general_ring hg (t := h) (by simp [hm])).symm)
    have hsh := hs h (by simp [hm]) _ hx.made
    by_cases h2 : 2 ≤ s.pts.length
    · rw [hasLine_eq hx b1 hsh hgen hPf hPA]
      obtain ⟨b, h1, -⟩ := hasLine_iff hx (ok.flags h hm) hse ho h2 hsh P hPf hPA
      exact ⟨b, h1⟩
    · exact ⟨false, hasLine_empty (.inr (by rw [ring_not_empty b1]; simp; omega))⟩

/-- The two tests of a segment agree. -/
theorem ringXSeg_same {s : Series K} {r : FRing K K} (hr : FOk ε ns s r) {ps : List (Pt K)} (hp : Sees ε ns s r.ring ps) {seg : Seg K} (ha : seg.a ∈ ps)
    (hb : seg.b ∈ ps) (hg : ∀ t ∈ s.segs, SegGen seg t) :
    ∃ b, ringXSeg P.f P.A r.ring seg true = some b ∧ ringXSeg P.f P.A r.ring seg false = some b := by
  rw [hPf, hPA, ringXSeg_eq hr.ok hr.made hp ha hb hg]
  by_cases h3 : 3 ≤ s.pts.length
  · obtain ⟨b, h1, -⟩ := ringXSeg_iff hr.ok h3 hr.made hp.search (hp.pip _ ha) (hp.pip _ hb)
    exact ⟨b, h1, h1⟩
  · have hd : Dead r.ring := MadeRing.dead Ix.exact_lawful ⟨s.e, s.pts, s.ix, hr.ok, hr.made⟩ (by
      obtain ⟨a1, -⟩ := newIx_some Ix.exact_lawful hr.ok hr.made
      rw [ring_not_empty a1]; simp; omega)
    exact ⟨_, hd.xSeg _ _ _ _, hd.xSeg _ _ _ _⟩

theorem polyTouchesPoly_gen {ea eb : Series K} {ha hb : List (Series K)} {q r : PolyS K K} (hq : PolyIs ε ns ea ha q) (hr : PolyIs ε ns eb hb r)
    (oka : PolyOk ea ha) (okb : PolyOk eb hb) (sa : RingsSee ε ns (ea :: ha) (AShape.nodes (.poly eb hb)))
    (sb : RingsSee ε ns (eb :: hb) (AShape.nodes (.poly ea ha))) (hg : AShape.General (.poly ea ha) (.poly eb hb)) :
    polyTouchesPoly P q r = some false := by
  have fa := hq.ext
  have fb := hr.ext
  obtain ⟨a1, -⟩ := newIx_some Ix.exact_lawful fa.ok fa.made
  obtain ⟨b1, -⟩ := newIx_some Ix.exact_lawful fb.ok fb.made
  have sa' : ∀ s ∈ ea :: ha, ∀ t ∈ eb :: hb, ∀ x, FOk ε ns s x → Sees ε ns s x.ring t.pts := fun s hs t ht x hx =>
    (sa s hs _ hx.made).mono fun p hp => List.mem_flatMap.2 ⟨t, ht, hp⟩
  have sb' : ∀ s ∈ eb :: hb, ∀ t ∈ ea :: ha, ∀ x, FOk ε ns s x → Sees ε ns s x.ring t.pts := fun s hs t ht x hx =>
    (sb s hs _ hx.made).mono fun p hp => List.mem_flatMap.2 ⟨t, ht, hp⟩
  have hgen : ∀ s ∈ ea :: ha, ∀ t ∈ eb :: hb, SegsGen s.segs t.segs := fun s hs t ht => ChainGen.segs (c := true) (d := true) (general_rings hg hs ht)
  have test : ∀ {s t : Series K} {x y : FRing K K}, FOk ε ns s x → FlagOk s → FOk ε ns t y → Sees ε ns s x.ring t.pts → SegsGen t.segs s.segs →
      (∀ p ∈ t.pts, ¬ OnBoundary s.segs p) → (∃ b, hasRing P x y true = some b) ∧ anyOf (fun p => lineCoversPt P.f P.A x.ring p) (ptsOf y.ring) = some false := by
    intro s t x y hx hf hy hp hs hv
    obtain ⟨c1, -⟩ := newIx_some Ix.exact_lawful hy.ok hy.made
    constructor
    · by_cases h3 : 3 ≤ t.pts.length
      · rw [hasRing_eq hx hy hp hs hv hPf hPA]
        obtain ⟨b, h1, -⟩ := hasRing_iff hx hf hy h3 hp P hPf hPA
        exact ⟨b, h1⟩
      · exact ⟨false, hasRing_empty (.inr (by rw [ring_not_empty c1]; simp; omega))⟩
    · refine anyOf_false fun p hp' => ?_
      rw [ptsOf_eq c1] at hp'
      rw [hPf, hPA]
      exact ring_off hx hp (hv p hp')
  have ext : extTouches P q.ext.ring r.ext.ring = some false := by
    have c1 := countTouches_same (P := P) (a := q.ext.ring) (n := 0) (segAt_range b1) fun s hs =>
      ringXSeg_same hPf hPA fa (sa' ea (by simp) eb (by simp) _ fa) (seg_mem_pts hs).1 (seg_mem_pts hs).2
        ((hgen ea (by simp) eb (by simp)).symm s hs)
    have c2 := countTouches_same (P := P) (a := r.ext.ring) (n := 0) (segAt_range a1) fun s hs =>
      ringXSeg_same hPf hPA fb (sb' eb (by simp) ea (by simp) _ fb) (seg_mem_pts hs).1 (seg_mem_pts hs).2
        ((hgen ea (by simp) eb (by simp)) s hs)
    rw [extTouches]
    rcases c1 with c1 | c1
    · rw [c1]
    · rw [c1]
      rcases c2 with c2 | c2
      · simp only [c2]
      · simp only [c2]
        simp
  rw [polyTouchesPoly]
  by_cases hx : (!(polyRect q).intersects (polyRect r)) = true
  · rw [if_pos hx]
  · rw [if_neg hx, ext]
    dsimp only
    rw [inHole_false hr.holes fun h hm x hx => test hx (okb.flags h hm) fa (sb' h (by simp [hm]) ea (by simp) x hx)
      (hgen ea (by simp) h (by simp [hm])) (general_rings hg (by simp) (by simp [hm])).left]
    exact inHole_false hq.holes fun h hm x hx => test hx (oka.flags h hm) fb (sa' h (by simp [hm]) eb (by simp) x hx)
      (hgen h (by simp [hm]) eb (by simp)).symm (general_rings hg (by simp [hm]) (by simp)).right

theorem lineTouchesLine_gen {s t : Series K} (hs : s.e.Ok) (ht : t.e.Ok) {a b : Ring K K} (ha : newIx Ix.exact (exact ε ns) s.e s.pts false s.ix = some a)
    (hb : newIx Ix.exact (exact ε ns) t.e t.pts false t.ix = some b) (hg : AShape.General (.line s) (.line t)) : lineTouchesLine P a b = some false := by
  have hlen : ∀ {e : Env} {pts : List (Pt K)} {ix : BitVec 32} {line : Ring K K}, (segments pts false).length < pts.length ∨
      pts.length % spreadOf e ix = 0 ∨ line.index = none := by
    intro e pts ix line
    cases pts with
    | nil => right; left; simp
    | cons a l => left; rw [segments]; simp [edges_length]
  obtain ⟨l, -, h1, h2⟩ := C23_exact_partial hs ht ha hb hlen hlen
  rw [lineTouchesLine, hPf, hPA]
  have := h2 Bool (fun s i t j _ => if anyTouching (exact ε ns) s i a.nsegs t j b.nsegs then (true, true) else (false, false)) false
  rw [this]
  rcases hl : l with _ | ⟨⟨⟨u, i⟩, ⟨v, j⟩⟩, l'⟩
  · rfl
  · obtain ⟨k1, k2, -⟩ := (h1 u i v j).1 (by rw [hl]; simp)
    have hu := List.mem_of_getElem? k1
    have hv := List.mem_of_getElem? k2
    have eu := hu
    have ev := hv
    rw [edges_segments] at eu ev
    have hf : anyTouching (exact ε ns) u i a.nsegs v j b.nsegs = false := by
      rw [anyTouching, segTouches0_false fun h => hg.1 _ (seg_mem_pts hu).1 ⟨v, ev, h⟩, segTouches0_false fun h => hg.1 _ (seg_mem_pts hu).2 ⟨v, ev, h⟩,
        segTouches0_false fun h => hg.2 _ (seg_mem_pts hv).1 ⟨u, eu, h⟩, segTouches0_false fun h => hg.2 _ (seg_mem_pts hv).2 ⟨u, eu, h⟩]
      simp
    rw [visit]
    simp [hf]

end

/-! ### Lines cover nothing -/

theorem firstCovering_off {a : Ring K K} {pts : List (Pt K)} {sp : Nat} (ha : RingOk Ix.exact pts false sp a) {b0 : Seg K}
    (h : ¬ OnBoundary (edges pts) b0.a) : firstCovering (exact ε ns) a b0 (List.range a.nsegs) = some none := by
  have hr := segAt_range ha
  have all : ∀ k ∈ List.range a.nsegs, ∃ s ∈ edges pts, segAt a.points k = some s := by
    intro k hk
    have : segAt a.points k ∈ (List.range a.nsegs).map (segAt a.points) := List.mem_map_of_mem hk
    rw [hr, edges_segments] at this
    obtain ⟨s, h1, h2⟩ := List.mem_map.1 this
    exact ⟨s, h1, h2.symm⟩
  obtain ⟨r, hf⟩ := firstCovering_some (A := exact ε ns) (a := a) (b0 := b0) (ks := List.range a.nsegs) fun k hk => by
    obtain ⟨s, -, h⟩ := all k hk
    exact ⟨s, h⟩
  cases r with
  | none => exact hf
  | some j =>
    obtain ⟨hj, s, h1, h2⟩ := firstCovering_spec hf
    obtain ⟨s', hs, h3⟩ := all j hj
    have e : s' = s := Option.some.inj (h3.symm.trans h1)
    exact absurd ⟨s, e ▸ hs, (segCoversSeg_iff _ _).1 h2 _ (onSeg_left b0)⟩ h

theorem lineCoversLine_off {a b : Ring K K} {pts : List (Pt K)} {sp : Nat} (ha : RingOk Ix.exact pts false sp a) {b0 : Seg K}
    (hb : ringEmpty b = false → segAt b.points 0 = some b0) (h : ringEmpty b = false → ¬ OnBoundary (edges pts) b0.a) (fuel : Nat) :
    lineCoversLine (exact ε ns) fuel a b = some false := by
  rw [lineCoversLine]
  cases he : ringEmpty b with
  | true => simp
  | false =>
    cases ringEmpty a with
    | true => simp
    | false =>
      simp only [Bool.or_false, Bool.false_eq_true, if_false]
      by_cases hc : (!a.rect.covers b.rect) = true
      · rw [if_pos hc]
      · rw [if_neg hc, hb he]
        dsimp only
        rw [firstCovering_off ha (h he)]

theorem lineCoversLine_gen {s t : Series K} (hs : s.e.Ok) (ht : t.e.Ok) {a b : Ring K K} (ha : newIx Ix.exact (exact ε ns) s.e s.pts false s.ix = some a)
    (hb : newIx Ix.exact (exact ε ns) t.e t.pts false t.ix = some b) (hg : AShape.General (.line s) (.line t)) (fuel : Nat) :
    lineCoversLine (exact ε ns) fuel a b = some false := by
  obtain ⟨a1, -⟩ := newIx_some Ix.exact_lawful hs ha
  obtain ⟨b1, -⟩ := newIx_some Ix.exact_lawful ht hb
  by_cases h2 : 2 ≤ t.pts.length
  · obtain ⟨s0, sN, k1, -, k3, -⟩ := line_ends ht hb h2
    exact lineCoversLine_off a1 (fun _ => k1) (fun _ => hg.2 _ (List.mem_of_mem_head? (l := t.pts) (by rw [k3]; rfl))) fuel
  · rw [lineCoversLine, if_pos]
    rw [ring_not_empty b1]
    simp
    omega

theorem exists_min : ∀ (l : List (Pt K)) (f : Pt K → K), l ≠ [] → ∃ v ∈ l, ∀ w ∈ l, f v ≤ f w
  | [], _, h => absurd rfl h
  | [p], f, _ => ⟨p, by simp, by simp⟩
  | p :: q :: l, f, _ => by
    obtain ⟨v, hv, hm⟩ := exists_min (q :: l) f (by simp)
    rcases le_total (f p) (f v) with h | h
    · refine ⟨p, by simp, fun w hw => ?_⟩
      rcases List.mem_cons.1 hw with rfl | hw
      · exact le_rfl
      · exact h.trans (hm w hw)
    · refine ⟨v, List.mem_cons_of_mem _ hv, fun w hw => ?_⟩
      rcases List.mem_cons.1 hw with rfl | hw
      · exact h
      · exact hm w hw

/-- The rectangle of points on a horizontal or vertical line starts at one of them. -/
theorem rect_lo {pts : List (Pt K)} {closed : Bool} {sp : Nat} {r : Ring K K} (h : RingOk Ix.exact pts closed sp r) (h2 : 2 ≤ pts.length)
    (hd : r.rect.lo.x = r.rect.hi.x ∨ r.rect.lo.y = r.rect.hi.y) : r.rect.lo ∈ pts := by
  have hh := h.rect_has h2
  have hl := h.rect_least h2
  have hne : pts ≠ [] := by rintro rfl; simp at h2
  rcases hd with hd | hd
  · obtain ⟨v, hv, hmin⟩ : ∃ v ∈ pts, ∀ w ∈ pts, v.y ≤ w.y := exists_min pts (fun p => p.y) hne
    have := hl ⟨⟨r.rect.lo.x, v.y⟩, r.rect.hi⟩ fun q hq => ⟨(hh q hq).1, (hh q hq).2.1, hmin q hq, (hh q hq).2.2.2⟩
    have e : r.rect.lo = v := by
      have g := hh v hv
      refine Pt.ext (le_antisymm g.1 ?_) (le_antisymm g.2.2.1 this.2.2.1)
      rw [hd]; exact g.2.1
    rw [e]; exact hv
  · obtain ⟨v, hv, hmin⟩ : ∃ v ∈ pts, ∀ w ∈ pts, v.x ≤ w.x := exists_min pts (fun p => p.x) hne
    have := hl ⟨⟨v.x, r.rect.lo.y⟩, r.rect.hi⟩ fun q hq => ⟨hmin q hq, (hh q hq).2.1, (hh q hq).2.2.1, (hh q hq).2.2.2⟩
    have e : r.rect.lo = v := by
      have g := hh v hv
      refine Pt.ext (le_antisymm g.1 this.1) (le_antisymm g.2.2.1 ?_)
      rw [hd]; exact g.2.2.2
    rw [e]; exact hv

theorem lineCoversPoly_gen {P : Par K K} (hPA : P.A = exact ε ns) {s : Series K} (hs : s.e.Ok) {l : Ring K K}
    (hl : newIx Ix.exact (exact ε ns) s.e s.pts false s.ix = some l) {ext : Series K} {holes : List (Series K)} {q : PolyS K K} (hq : PolyIs ε ns ext holes q)
    (hg : AShape.General (.line s) (.poly ext holes)) : lineCoversPoly P l q = some false := by
  obtain ⟨a1, -⟩ := newIx_some Ix.exact_lawful hs hl
  obtain ⟨b1, -⟩ := newIx_some Ix.exact_lawful hq.ext.ok hq.ext.made
  rw [lineCoversPoly]
  by_cases he : (ringEmpty l || polyEmpty q) = true
  · rw [if_pos he]
  rw [if_neg he]
  by_cases hd : (!feq (polyRect q).lo.x (polyRect q).hi.x && !feq (polyRect q).lo.y (polyRect q).hi.y) = true
  · rw [if_pos hd]
  rw [if_neg hd, hPA]
  have h2 : 2 ≤ ext.pts.length := by
    by_contra hn
    refine he ?_
    rw [polyEmpty, ring_not_empty b1]
    simp
    omega
  have hlo : (polyRect q).lo ∈ ext.pts := by
    refine rect_lo b1 h2 ?_
    rw [Bool.and_eq_true, not_and_or, Bool.not_eq_true', Bool.not_eq_true', Bool.not_eq_false, Bool.not_eq_false, feq_iff, feq_iff] at hd
    exact hd
  exact lineCoversLine_off a1 (b0 := ⟨(polyRect q).lo, ⟨(polyRect q).hi.x, (polyRect q).lo.y⟩⟩) (fun _ => rfl)
    (fun _ => hg.2 _ (List.mem_flatMap.2 ⟨ext, by simp, hlo⟩)) _

/-! ### Tables -/

/-- A shape that has points has one of its vertices. -/
theorem AShape.has_node {x : AShape K} (hok : x.Ok) {w : Pt K} (h : x.Has w) : ∃ v ∈ x.nodes, x.Has v := by
  match x, hok, h with
  | .point p, _, h => exact ⟨p, by simp [AShape.nodes], rfl⟩
  | .line s, _, h =>
    by_cases h2 : 2 ≤ s.pts.length
    · exact line_has h2
    · exact absurd h (short_line (by omega) w)
  | .poly ext holes, hok, h =>
    by_cases h3 : 3 ≤ ext.pts.length
    · match hp : ext.pts, h3 with
      | v :: t, h3 =>
        have hv : v ∈ ext.pts := by rw [hp]; simp
        exact ⟨v, List.mem_flatMap.2 ⟨ext, by simp, hv⟩,
          hok.boundary ext (by simp) v (seg_of_pts (by rw [hp]; omega) (fun _ => by rw [hp]; exact h3) v hv)⟩
    · exact absurd h.1 (not_region_short (by omega) w)

/-- The boundary is on the segments. -/
theorem AShape.Rim.side {x : AShape K} {p : Pt K} (h : x.Rim p) : OnBoundary x.sides p := by
  match x, h with
  | .point q, h => exact absurd h.1 h.2
  | .line s, h => exact h.1
  | .poly ext holes, h =>
    obtain ⟨⟨k1, k2⟩, k3⟩ := h
    by_contra hn
    have off : ∀ s ∈ ext :: holes, ¬ OnBoundary s.segs p := fun s hs ⟨t, ht, hh⟩ => hn ⟨t, List.mem_flatMap.2 ⟨s, hs, ht⟩, hh⟩
    refine k3 ⟨k1.resolve_left (off ext (by simp)), fun h hm hr => ?_⟩
    rcases hr with hb | hi
    · exact off h (by simp [hm]) hb
    · exact k2 h hm hi

/-- What `covers` asks of a shape on the left. -/
def AShape.Firm : AShape K → Prop
  | .poly ext _ => FlagOk ext ∧ Escapes (Inside ext.segs)
  | _ => True

section
variable {P : Par K K} (hPf : P.f = Ix.exact) (hPA : P.A = exact ε ns) (hPR : P.R = exactR) {x y : AShape K} {a b : Atom K K} (hx : x.Is ε ns a)
  (hy : y.Is ε ns b) (okx : x.Ok) (oky : y.Ok) (sx : RingsSee ε ns x.rings y.nodes) (sy : RingsSee ε ns y.rings x.nodes) (hg : x.General y)
include hPf hPA hx hy oky sx sy hg

theorem atom_touches_gen (okx : x.Ok) : atomTouches P a b = some false := by
  have pt : ∀ {z : AShape K} {c : Atom K K} {p : Pt K}, z.Is ε ns c → z.Ok → RingsSee ε ns z.rings [p] → ¬ OnBoundary z.sides p →
      atomTouches P c (.point p) = some false ∧ atomTouches P (.point p) c = some false := by
    intro z c p hz ok hs hn
    obtain ⟨r, h1, h2, h3⟩ := atom_touches_pt hPf hPA hz ok hs
    cases r with
    | false => exact ⟨h1, h2⟩
    | true => exact absurd (h3.1 rfl).side hn
  match x, a, hx, okx, y, b, hy, oky, sx, sy, hg with
  | .point p, .point p', hx, _, y, b, hy, oky, _, sy, hg =>
    rw [show p' = p from hx]
    exact (pt hy oky sy (hg.1 p (by simp [AShape.nodes]))).2
  | x, a, hx, okx, .point p, .point p', hy, _, sx, _, hg =>
    rw [show p' = p from hy]
    exact (pt hx okx sx (hg.2 p (by simp [AShape.nodes]))).1
  | .line s, .line l, hx, _, .line t, .line m, hy, _, _, _, hg => exact lineTouchesLine_gen hPf hPA hx.1 hy.1 hx.2 hy.2 hg
  | .line s, .line l, hx, _, .poly ext holes, .poly q, hy, oky, _, sy, hg => exact polyTouchesLine_gen hPf hPA hy oky hx.1 hx.2 sy hg.symm
  | .poly ext holes, .poly q, hx, okx, .line s, .line l, hy, _, sx, _, hg => exact polyTouchesLine_gen hPf hPA hx okx hy.1 hy.2 sx hg
  | .poly ea ha, .poly q, hx, okx, .poly eb hb, .poly r, hy, oky, sx, sy, hg => exact polyTouchesPoly_gen hPf hPA hx hy okx oky sx sy hg

/-- `covers` and `contains` agree, and say that the second shape has points, all of which are in the interior of the first. -/
theorem atom_covers_gen (hPR : P.R = exactR) (firm : x.Firm) :
    ∃ r, atomCovers P a b = some r ∧ atomContains P a b = some r ∧ (r = true ↔ (∃ w, y.Has w) ∧ ∀ w, y.Has w → x.Inner w) := by
  match x, a, hx, firm, y, b, hy, oky, sx, sy, hg with
  | x, a, hx, _, .point p, .point p', hy, _, sx, _, hg =>
    rw [show p' = p from hy]
    obtain ⟨r, h1, h2⟩ := atom_covers_pt (P := P) hPf hPA hx sx
    obtain ⟨r', h3, h4⟩ := atom_contains_pt (P := P) hPf hPA hx sx
    have hin : x.Has p ↔ x.Inner p := by
      constructor
      · intro hh
        by_contra hn
        exact hg.2 p (by simp [AShape.nodes]) (AShape.Rim.side ⟨hh, hn⟩)
      · intro h
        match x, h with
        | .point _, h => exact h
        | .line _, h => exact h.1
        | .poly _ _, h => exact ⟨.inr h.1, fun k hk hi => h.2 k hk (.inr hi)⟩
    have : r = r' := by rw [Bool.eq_iff_iff, h2, h4, hin]
    subst this
    refine ⟨r, h1, h3, ?_⟩
    rw [h4]
    exact ⟨fun h => ⟨⟨p, rfl⟩, by rintro w rfl; exact h⟩, fun h => h.2 p rfl⟩
  | .point p, .point p', hx, _, .line s, .line l, hy, _, _, _, hg =>
    rw [show p' = p from hx]
    obtain ⟨r, h1, h2⟩ := pt_covers_atom (P := P) (p := p) (x := .line s) (a := .line l) hy trivial
    have off := hg.1 p (by simp [AShape.nodes])
    cases r with
    | true => exact absurd (((h2.1 rfl) p).2 rfl) off
    | false =>
      refine ⟨false, h1, h1, iff_of_false (by simp) ?_⟩
      rintro ⟨⟨w, hw⟩, h⟩
      have : w = p := h w hw
      rw [this] at hw
      exact off hw
  | .point p, .point p', hx, _, .poly ext holes, .poly q, hy, oky, _, _, hg =>
    rw [show p' = p from hx]
    obtain ⟨r, h1, h2⟩ := pt_covers_atom (P := P) (p := p) (x := .poly ext holes) (a := .poly q) hy oky
    have off := hg.1 p (by simp [AShape.nodes])
    have no : (∀ w, AShape.Has (.poly ext holes) w → w = p) → ¬ ∃ w, AShape.Has (.poly ext holes) w := by
      rintro h ⟨w, hw⟩
      have h3 : 3 ≤ ext.pts.length := by
        by_contra hn
        exact not_region_short (by omega) w hw.1
      obtain ⟨v, hv⟩ : ∃ v, v ∈ ext.pts := by
        match hp : ext.pts, h3 with
        | v :: _, _ => exact ⟨v, by simp⟩
      have hb := seg_of_pts (closed := true) (by omega) (fun _ => h3) v hv
      have := h v (oky.boundary ext (by simp) v hb)
      rw [this] at hb
      obtain ⟨t, ht, hh⟩ := hb
      exact off ⟨t, List.mem_flatMap.2 ⟨ext, by simp, ht⟩, hh⟩
    cases r with
    | true => exact absurd ⟨p, ((h2.1 rfl) p).2 rfl⟩ (no fun w hw => ((h2.1 rfl) w).1 hw)
    | false => exact ⟨false, h1, rfl, iff_of_false (by simp) fun h => no h.2 h.1⟩
  | .line s, .line l, hx, _, .line t, .line m, hy, oky, _, _, hg =>
    have h1 : lineCoversLine P.A P.fuel l m = some false := by rw [hPA]; exact lineCoversLine_gen hx.1 hy.1 hx.2 hy.2 hg _
    refine ⟨false, h1, h1, iff_of_false (by simp) ?_⟩
    rintro ⟨⟨w, hw⟩, h⟩
    obtain ⟨v, hv, hh⟩ := AShape.has_node (x := .line t) oky hw
    exact hg.2 v hv (h v hh).1
  | .line s, .line l, hx, _, .poly ext holes, .poly q, hy, oky, _, _, hg =>
    refine ⟨false, lineCoversPoly_gen hPA hx.1 hx.2 hy hg, rfl, iff_of_false (by simp) ?_⟩
    rintro ⟨⟨w, hw⟩, h⟩
    obtain ⟨v, hv, hh⟩ := AShape.has_node (x := .poly ext holes) oky hw
    exact hg.2 v hv (h v hh).1
  | .poly ext holes, .poly q, hx, firm, .line s, .line l, hy, _, sx, _, hg => exact polyLine_gen hPf hPA hx firm.1 hy.1 hy.2 sx hg
  | .poly ea ha, .poly q, hx, firm, .poly eb hb, .poly r, hy, oky, sx, sy, hg =>
    obtain ⟨r, h1, h2⟩ := polyPoly_gen hPf hPA hPR hx hy oky firm.1 firm.2 sx sy hg
    exact ⟨r, h1, h1, h2⟩

end

/-! ### Collections -/

section
variable {H : HArith K} {Q : Qsort} {t t' : Atom K K → Option Bool}

mutual
theorem everyGeo_congr : ∀ {s : Shape K} {g : Geo K K}, s.Is ε ns H Q g → (∀ x ∈ s.atoms, ∀ a, x.Is ε ns a → t a = t' a) → everyGeo t g = everyGeo t' g
  | .null, .null, _, _ => by rw [everyGeo, everyGeo]
  | .empty, .empty, _, _ => by rw [everyGeo, everyGeo]
  | .atom x, .atom a, h, ht => by
    rw [Shape.Is] at h
    rw [everyGeo, everyGeo, ht x (by simp [Shape.atoms]) a h]
  | .coll cs, .multi flag gs rect ix ixg, h, ht => by
    rw [Shape.Is] at h
    rw [Shape.atoms] at ht
    rw [everyGeo, everyGeo, everyGeos_congr h.2.2 ht]
theorem everyGeos_congr : ∀ {ss : List (Shape K)} {gs : List (Geo K K)}, Shape.IsAll ε ns H Q ss gs →
    (∀ x ∈ Shape.allAtoms ss, ∀ a, x.Is ε ns a → t a = t' a) → everyGeos t gs = everyGeos t' gs
  | [], [], _, _ => by rw [everyGeos, everyGeos]
  | c :: cs, g :: gs, h, ht => by
    rw [Shape.IsAll] at h
    rw [Shape.allAtoms] at ht
    rw [everyGeos, everyGeos, everyGeo_congr h.1 fun x hx => ht x (List.mem_append_left _ hx),
      everyGeos_congr h.2 fun x hx => ht x (List.mem_append_right _ hx)]
end

mutual
/-- A geometry that `tg_geom_is_empty` calls empty has no points. -/
theorem empty_points : ∀ {s : Shape K} {g : Geo K K}, s.Is ε ns H Q g → g.isEmpty = true → ∀ w, ¬ s.Has w
  | .null, .null, _, _, w => by simp [Shape.Has]
  | .empty, .empty, _, _, w => by simp [Shape.Has]
  | .atom x, .atom a, h, he, w => by
    rw [Shape.Is] at h
    rw [Shape.Has]
    match x, a, h, he with
    | .point p, .point _, _, he => simp [Geo.isEmpty] at he
    | .line s, .line l, h, he =>
      obtain ⟨b1, -⟩ := newIx_some Ix.exact_lawful h.1 h.2
      rw [Geo.isEmpty, ring_not_empty b1] at he
      exact short_line (by simpa using he) w
    | .poly ext holes, .poly q, h, he =>
      have hf := PolyIs.ext h
      obtain ⟨b1, -⟩ := newIx_some Ix.exact_lawful hf.ok hf.made
      rw [Geo.isEmpty, polyEmpty, ring_not_empty b1] at he
      intro hw
      refine not_region_short ?_ w hw.1
      simp at he
      omega
  | .coll cs, .multi flag gs rect ix ixg, h, he, w => by
    rw [Shape.Is] at h
    rw [Shape.Has]
    refine allEmpty_points h.2.2 ?_ w
    rw [Geo.isEmpty, Bool.or_eq_true] at he
    rcases he with hf | he
    · rw [h.1 hf]; rfl
    · exact he
theorem allEmpty_points : ∀ {ss : List (Shape K)} {gs : List (Geo K K)}, Shape.IsAll ε ns H Q ss gs → allEmpty gs = true → ∀ w, ¬ Shape.SomeHas ss w
  | [], [], _, _, w => by simp [Shape.SomeHas]
  | c :: cs, g :: gs, h, he, w => by
    rw [Shape.IsAll] at h
    rw [allEmpty, Bool.and_eq_true] at he
    rw [Shape.SomeHas, not_or]
    exact ⟨empty_points h.1 he.1 w, allEmpty_points h.2 he.2 w⟩
end
end

/-- What `tg_geom_foreach` hands on. -/
def Shape.parts : Shape K → List (Shape K)
  | .null => []
  | .coll cs => cs
  | s => [s]

theorem Shape.parts_atoms : ∀ s : Shape K, Shape.allAtoms s.parts = s.atoms
  | .null => rfl
  | .empty => rfl
  | .atom a => rfl
  | .coll cs => by rw [Shape.parts, Shape.atoms]

theorem Shape.parts_is {H : HArith K} {Q : Qsort} : ∀ {s : Shape K} {g : Geo K K}, s.Is ε ns H Q g → Shape.IsAll ε ns H Q s.parts g.foreach
  | .null, .null, _ => by rw [Shape.parts, Geo.foreach, Shape.IsAll]; trivial
  | .empty, .empty, h => by simp [Shape.parts, Geo.foreach, Shape.IsAll, Shape.Is]
  | .atom x, .atom a, h => by simp only [Shape.parts, Geo.foreach, Shape.IsAll, and_true]; exact h
  | .coll cs, .multi flag gs rect ix ixg, h => by rw [Shape.Is] at h; exact h.2.2

section
variable {H : HArith K} {Q : Qsort} {tab tab' : Atom K K → Atom K K → Option Bool}

theorem coversLoopG_congr {t t' : Geo K K → Option Bool} : ∀ {ss : List (Shape K)} {gs : List (Geo K K)}, Shape.IsAll ε ns H Q ss gs →
    (∀ (c : Shape K) (g : Geo K K), c.Is ε ns H Q g → (∀ y ∈ c.atoms, y ∈ Shape.allAtoms ss) → t g = t' g) → ∀ f, coversLoopG t gs f = coversLoopG t' gs f
  | [], [], _, _, f => by rw [coversLoopG, coversLoopG]
  | c :: cs, g :: gs, h, ht, f => by
    rw [Shape.IsAll] at h
    have hrec := coversLoopG_congr h.2 fun d k hd hm => ht d k hd fun y hy => by rw [Shape.allAtoms]; exact List.mem_append_right _ (hm y hy)
    rw [coversLoopG, coversLoopG, ht c g h.1 fun y hy => by rw [Shape.allAtoms]; exact List.mem_append_left _ hy]
    simp only [hrec]

mutual
/-- Tables that agree give the same answers. -/
theorem geoCov_congr : ∀ {a : Shape K} {ga : Geo K K}, a.Is ε ns H Q ga → ∀ {b : Shape K} {gb : Geo K K}, b.Is ε ns H Q gb →
    (∀ x ∈ a.atoms, ∀ y ∈ b.atoms, ∀ xa yb, x.Is ε ns xa → y.Is ε ns yb → tab xa yb = tab' xa yb) → geoCov tab ga gb = geoCov tab' ga gb
  | .null, .null, _, _, _, _, _ => by rw [geoCov, geoCov]
  | .empty, .empty, _, _, _, _, _ => by rw [geoCov, geoCov]
  | .atom x, .atom xa, h, b, gb, hb, ht => by
    rw [Shape.Is] at h
    rw [geoCov, geoCov]
    exact everyGeo_congr hb fun y hy yb hyb => ht x (by simp [Shape.atoms]) y hy xa yb h hyb
  | .coll cs, .multi flag gs rect ix ixg, h, b, gb, hb, ht => by
    rw [Shape.Is] at h
    rw [Shape.atoms] at ht
    rw [geoCov, geoCov, coversLoopG_congr (Shape.parts_is hb) fun c g hc hm => geoCovAny_congr h.2.2 hc fun x hx y hy =>
      ht x hx y (by rw [← Shape.parts_atoms]; exact hm y hy)]
theorem geoCovAny_congr : ∀ {ss : List (Shape K)} {gs : List (Geo K K)}, Shape.IsAll ε ns H Q ss gs → ∀ {b : Shape K} {gb : Geo K K}, b.Is ε ns H Q gb →
    (∀ x ∈ Shape.allAtoms ss, ∀ y ∈ b.atoms, ∀ xa yb, x.Is ε ns xa → y.Is ε ns yb → tab xa yb = tab' xa yb) → geoCovAny tab gs gb = geoCovAny tab' gs gb
  | [], [], _, _, _, _, _ => by rw [geoCovAny, geoCovAny]
  | c :: cs, g :: gs, h, b, gb, hb, ht => by
    rw [Shape.IsAll] at h
    rw [Shape.allAtoms] at ht
    rw [geoCovAny, geoCovAny, geoCov_congr h.1 hb fun x hx => ht x (List.mem_append_left _ hx),
      geoCovAny_congr h.2 hb fun x hx => ht x (List.mem_append_right _ hx)]
end
end

section
variable {H : HArith K} {Q : Qsort} {tab : Atom K K → Atom K K → Option Bool} {R : AShape K → AShape K → Prop} {S : AShape K → Pt K → Prop}
  (hRS : ∀ x y, R x y → ∀ w, y.Has w → S x w)
include hRS

omit hRS in
theorem coversLoopG_sound {t : Geo K K → Option Bool} {U : Pt K → Prop} : ∀ {ss : List (Shape K)} {gs : List (Geo K K)}, Shape.IsAll ε ns H Q ss gs →
    (∀ (c : Shape K) (g : Geo K K), c.Is ε ns H Q g → (∀ y ∈ c.atoms, y ∈ Shape.allAtoms ss) → ∃ r, t g = some r ∧ (r = true → ∀ w, c.Has w → U w)) →
    ∀ f, ∃ r, coversLoopG t gs f = some r ∧ (r = true → ∀ w, Shape.SomeHas ss w → U w)
  | [], [], _, _, f => ⟨f, by rw [coversLoopG], by simp [Shape.SomeHas]⟩
  | c :: cs, g :: gs, h, ht, f => by
    rw [Shape.IsAll] at h
    have hrec := coversLoopG_sound (U := U) h.2 fun d k hd hm => ht d k hd fun y hy => by rw [Shape.allAtoms]; exact List.mem_append_right _ (hm y hy)
    rw [coversLoopG]
    by_cases he : g.isEmpty = true
    · rw [if_pos he]
      obtain ⟨r, h1, h2⟩ := hrec f
      refine ⟨r, h1, fun hr w hw => ?_⟩
      rw [Shape.SomeHas] at hw
      exact h2 hr w (hw.resolve_left (empty_points h.1 he w))
    · rw [if_neg he]
      obtain ⟨r, h1, h2⟩ := ht c g h.1 fun y hy => by rw [Shape.allAtoms]; exact List.mem_append_left _ hy
      rw [h1]
      cases r with
      | false => exact ⟨false, rfl, by simp⟩
      | true =>
        obtain ⟨r, h3, h4⟩ := hrec true
        refine ⟨r, h3, fun hr w hw => ?_⟩
        rw [Shape.SomeHas] at hw
        rcases hw with hw | hw
        · exact h2 rfl w hw
        · exact h4 hr w hw

omit hRS in
theorem Shape.parts_has (s : Shape K) (w : Pt K) : Shape.SomeHas s.parts w ↔ s.Has w := by
  rw [Shape.someHas_iff, Shape.parts_atoms, Shape.has_iff]

mutual
/-- If the answer is true, then all of the second geometry is in what the table says of the parts of the first. -/
theorem geoCov_sound : ∀ {a : Shape K} {ga : Geo K K}, a.Is ε ns H Q ga → ∀ {b : Shape K} {gb : Geo K K}, b.Is ε ns H Q gb →
    (∀ x ∈ a.atoms, ∀ y ∈ b.atoms, ∀ xa yb, x.Is ε ns xa → y.Is ε ns yb → ∃ r, tab xa yb = some r ∧ (r = true ↔ R x y)) →
    ∃ r, geoCov tab ga gb = some r ∧ (r = true → ∀ w, b.Has w → ∃ x ∈ a.atoms, S x w)
  | .null, .null, _, _, _, _, _ => ⟨false, by rw [geoCov], by simp⟩
  | .empty, .empty, _, _, _, _, _ => ⟨false, by rw [geoCov], by simp⟩
  | .atom x, .atom xa, h, b, gb, hb, ht => by
    rw [Shape.Is] at h
    rw [geoCov]
    obtain ⟨r, h1, h2⟩ := everyGeo_iff (q := R x) hb fun y hy yb hyb => ht x (by simp [Shape.atoms]) y hy xa yb h hyb
    refine ⟨r, h1, fun hr w hw => ⟨x, by simp [Shape.atoms], ?_⟩⟩
    obtain ⟨y, hy, hw⟩ := (b.has_iff w).1 hw
    exact hRS x y ((h2.1 hr).2 y hy) w hw
  | .coll cs, .multi flag gs rect ix ixg, h, b, gb, hb, ht => by
    rw [Shape.Is] at h
    rw [Shape.atoms] at ht ⊢
    rw [geoCov]
    cases flag with
    | true => exact ⟨false, rfl, by simp⟩
    | false =>
      obtain ⟨r, h1, h2⟩ := coversLoopG_sound (t := fun o => geoCovAny tab gs o) (U := fun w => ∃ x ∈ Shape.allAtoms cs, S x w) (Shape.parts_is hb)
        (fun c g hc hm => geoCovAny_sound h.2.2 hc fun x hx y hy => ht x hx y (by rw [← Shape.parts_atoms]; exact hm y hy)) false
      exact ⟨r, h1, fun hr w hw => h2 hr w ((b.parts_has w).2 hw)⟩
theorem geoCovAny_sound : ∀ {ss : List (Shape K)} {gs : List (Geo K K)}, Shape.IsAll ε ns H Q ss gs → ∀ {b : Shape K} {gb : Geo K K}, b.Is ε ns H Q gb →
    (∀ x ∈ Shape.allAtoms ss, ∀ y ∈ b.atoms, ∀ xa yb, x.Is ε ns xa → y.Is ε ns yb → ∃ r, tab xa yb = some r ∧ (r = true ↔ R x y)) →
    ∃ r, geoCovAny tab gs gb = some r ∧ (r = true → ∀ w, b.Has w → ∃ x ∈ Shape.allAtoms ss, S x w)
  | [], [], _, _, _, _, _ => ⟨false, by rw [geoCovAny], by simp⟩
  | c :: cs, g :: gs, h, b, gb, hb, ht => by
    rw [Shape.IsAll] at h
    rw [Shape.allAtoms] at ht ⊢
    obtain ⟨r, h1, h2⟩ := geoCov_sound h.1 hb fun x hx => ht x (List.mem_append_left _ hx)
    obtain ⟨r', h3, h4⟩ := geoCovAny_sound h.2 hb fun x hx => ht x (List.mem_append_right _ hx)
    rw [geoCovAny, h1]
    cases r with
    | true =>
      refine ⟨true, rfl, fun _ w hw => ?_⟩
      obtain ⟨x, hx, hh⟩ := h2 rfl w hw
      exact ⟨x, List.mem_append_left _ hx, hh⟩
    | false =>
      refine ⟨r', h3, fun hr w hw => ?_⟩
      obtain ⟨x, hx, hh⟩ := h4 hr w hw
      exact ⟨x, List.mem_append_right _ hx, hh⟩
end
end

end Tg.S
