import Verif.Spec.MarginCovers
import Verif.Lemmas.MarginAll
import Verif.Lemmas.GeneralRel
/-! A polygon that covers or contains a geometry, for coordinates that are any doubles of usual size, in general position. -/
set_option linter.unusedSectionVars false
namespace Tg.S

/-! ### The same answers with and without edges -/

variable {f : Ix ℚ ℚ} {A : Arith ℚ} {ε : ℚ}

/-- The same answers for the points `ps` and the segments `es`, also with the other choice of edges. -/
structure AlikeG (f : Ix ℚ ℚ) (A : Arith ℚ) (ε : ℚ) (r t : Ring ℚ ℚ) (ps : List (Pt ℚ)) (es : List (Seg ℚ)) : Prop extends AlikeR f A ε r t ps es where
  xNo : ∀ u ∈ es, ringXSeg f A r u false = ringXSeg Ix.exact (exact ε fun _ => 0) t u false
  xSame : ∀ u ∈ es, ringXSeg f A r u false = ringXSeg f A r u true
  hasYes : ∀ u ∈ es, ∀ (R S : RArith ℚ) (cv cw cw' : Bool),
    ringHasSeg f A R cv cw r u true = ringHasSeg Ix.exact (exact ε fun _ => 0) S cv cw' t u true

section
variable {r t o o' : Ring ℚ ℚ} {ps : List (Pt ℚ)} {es : List (Seg ℚ)} (h : AlikeG f A ε r t ps es) (ho : Alike o o') (hw : Within o ps es)
include h ho hw

theorem AlikeG.xLineNo : ringXLine f A r o false = ringXLine Ix.exact (exact ε fun _ => 0) t o' false := by
  have : anyXSeg f A r o false = anyXSeg Ix.exact (exact ε fun _ => 0) t o' false := by
    unfold anyXSeg
    rw [← ho.points, ← ho.nsegs]
    exact anySeg_same fun i hi s hs => h.xNo s (hw.segs i (List.mem_range.1 hi) s hs)
  unfold ringXLine
  rw [this, h.empty, ho.empty, h.rect, ho.rect]

theorem AlikeG.hasLineYes (R S : RArith ℚ) (cv cw cw' : Bool) :
    ringHasLine f A R cv cw r o true false = ringHasLine Ix.exact (exact ε fun _ => 0) S cv cw' t o' true false := by
  unfold ringHasLine
  rw [h.empty, ho.empty, h.rect, ho.rect, ← ho.points, ← ho.nsegs,
    allSeg_same fun i hi s hs => h.hasYes s (hw.segs i (List.mem_range.1 hi) s hs) R S cv cw cw']
  rfl

theorem AlikeG.hasLineBd (R S : RArith ℚ) (cv cw cw' : Bool) :
    ringHasLine f A R cv cw r o false true = ringHasLine Ix.exact (exact ε fun _ => 0) S cv cw' t o' false true := by
  unfold ringHasLine
  rw [h.empty, ho.empty, h.rect, ho.rect, ← ho.points, ← ho.nsegs]
  simp only [Bool.not_false, Bool.and_true, if_true]
  congr 2
  refine allSeg_same fun i hi s hs => ?_
  have hm := hw.segs i (List.mem_range.1 hi) s hs
  rw [h.hasYes s hm R S cv cw cw', h.xNo s hm]

theorem AlikeG.hasRingYes (R S : RArith ℚ) (cv cw cw' : Bool) :
    ringHasRing f A R cv cw r o true = ringHasRing Ix.exact (exact ε fun _ => 0) S cv cw' t o' true := by
  unfold ringHasRing
  rw [h.empty, ho.empty, h.rect, ho.rect, ← ho.points, ← ho.nsegs, ← ho.npoints,
    allSeg_same fun i hi s hs => h.hasYes s (hw.segs i (List.mem_range.1 hi) s hs) R S cv cw cw',
    allPts_same fun p hp => by
      obtain ⟨b1, i1, j1, k1, k2⟩ := h.pip _ (hw.pts p hp) true
      show _ = (ringContainsPoint Ix.exact (exact ε fun _ => 0) t p true).map (·.1)
      rw [k1, k2]; rfl]

omit ho in
theorem AlikeG.anyXSame : anyXSeg f A r o false = anyXSeg f A r o true := by
  unfold anyXSeg
  exact anySeg_same fun i hi s hs => h.xSame s (hw.segs i (List.mem_range.1 hi) s hs)
end

/-! ### Rings of doubles -/

variable {F : Fp} (hF : F.Ok) {M : ℚ} (hM : M ≤ 2 ^ 100)
include hF hM

theorem col_off {s : Seg ℚ} {p : Pt ℚ} (hs : UsualSeg M s) (hp : UsualPt M p) (ho : Off M s p) : collinear F.arith s.a s.b p = false := by
  have hne := ho.ends hs
  obtain ⟨a, b⟩ := s
  obtain ⟨ha, hb'⟩ := hs
  dsimp only at *
  have far : Far a b p := ho.far ha hp
  have h1 : collinear (exact 1 fun _ => 0) a b p = false := by
    rw [← Bool.not_eq_true]
    exact fun h => far.ne ((exactCollinear_iff (ε := 1) hne).1 h)
  by_cases hx : a.x = b.x
  · rw [← h1]
    unfold collinear
    rw [if_pos ((feq_iff _ _).2 hx), if_pos ((feq_iff _ _).2 hx)]
  by_cases hy : a.y = b.y
  · rw [← h1]
    unfold collinear
    rw [if_neg (mt (feq_iff _ _).1 hx), if_neg (mt (feq_iff _ _).1 hx), if_pos ((feq_iff _ _).2 hy), if_pos ((feq_iff _ _).2 hy)]
  have hpa : p ≠ a := by rintro rfl; exact far.ne (by simp [prodA, prodB])
  have hpb : p ≠ b := by rintro rfl; exact far.ne (mul_comm _ _)
  unfold collinear
  rw [if_neg (mt (feq_iff _ _).1 hx), if_neg (mt (feq_iff _ _).1 hy), if_neg]
  · exact cross0_far hF hM ha hb' hp (Ne.symm hx) (Ne.symm hy) far
  · simp only [Bool.or_eq_true, Bool.and_eq_true, feq_iff, not_or, not_and]
    exact ⟨⟨fun h => absurd h hx, fun h h' => hpa (Pt.ext h.symm h'.symm)⟩, fun h h' => hpb (Pt.ext h.symm h'.symm)⟩

theorem interIter_far {u v : Seg ℚ} (hu : UsualSeg M u) (hv : UsualSeg M v) (hap : Apart M u v) (hg : SegGen u v) (i : Nat) (st : InterSt) :
    interIter F.arith u false v i st = interIter F.arith u true v i st := by
  obtain ⟨h1, h2, h3, h4⟩ := hg
  unfold interIter
  by_cases hx : segIntersects F.arith u v = true
  · have hsh := (seg_meet_far hF hM hu hv hap).1 hx
    have hcol : collinear F.arith u.a u.b v.a = false := by
      rcases hap with ⟨o1, -⟩ | h | h
      · exact col_off hF hM hu hv.1 o1
      · exfalso
        rcases h with h | h | h | h
        · exact h1 (h ▸ onSeg_left v)
        · exact h1 (h ▸ onSeg_right v)
        · exact h2 (h ▸ onSeg_left v)
        · exact h2 (h ▸ onSeg_right v)
      · exfalso
        obtain ⟨w, w1, w2⟩ := hsh
        have hbox : ∀ (s : Seg ℚ) p, s.rect.Has p → InBox s p := fun s p h1 =>
          ⟨min_le_iff.1 h1.1, le_max_iff.1 h1.2.1, min_le_iff.1 h1.2.2.1, le_max_iff.1 h1.2.2.2⟩
        exact h w ⟨hbox u w (onSeg_rect w1), hbox v w (onSeg_rect w2)⟩
    have pa : (pteq u.a v.a || pteq u.a v.b) = false := by
      rw [Bool.eq_false_iff, ne_eq, Bool.or_eq_true, pteq_iff, pteq_iff]
      rintro (h | h)
      · exact h1 (h ▸ onSeg_left v)
      · exact h1 (h ▸ onSeg_right v)
    have pb : (pteq u.b v.a || pteq u.b v.b) = false := by
      rw [Bool.eq_false_iff, ne_eq, Bool.or_eq_true, pteq_iff, pteq_iff]
      rintro (h | h)
      · exact h2 (h ▸ onSeg_left v)
      · exact h2 (h ▸ onSeg_right v)
    simp only [hx, hcol, pa, pb, Bool.not_true, Bool.false_eq_true, if_false, if_true, Bool.and_false, Bool.false_and]
  · simp only [Bool.not_eq_true] at hx
    simp only [hx, Bool.not_false, if_true]

theorem offSeg_far {u : Seg ℚ} {p : Pt ℚ} (hu : UsualSeg M u) (hp : UsualPt M p) (hc : Clear M u p) (hn : ¬ OnSeg u p) : offSeg F.arith u p = true := by
  obtain ⟨e, e0, he⟩ := exists_small u p
  unfold offSeg
  rw [ray_far hF hM e0 (fun _ => 0) hu hp (he e le_rfl) hc]
  rw [← offSeg_iff (ε := e) (ns := fun _ => 0), Bool.not_eq_false] at hn
  exact hn

variable {f : Ix ℚ ℚ} (hf : f.Lawful) (hn : ∀ pts, F.ns pts < 2 ^ 31)
include hf hn

/-- The ring is away from the points and the segments. -/
structure RingAway (M : ℚ) (s : Series ℚ) (ps : List (Pt ℚ)) (es : List (Seg ℚ)) : Prop where
  closed : Closed s
  usual : ∀ q ∈ s.pts, UsualPt M q
  clear : ∀ p ∈ ps, UsualPt M p ∧ RingClear M s p
  apart : ∀ u ∈ es, ∀ v ∈ s.segs, Apart M u v
  gen : SegsGen es s.segs
  back : ∀ u ∈ es, ∀ q ∈ s.pts, Clear M u q
  off : ∀ p ∈ ps, ¬ OnBoundary s.segs p

/-- The ring and the one without an index and rounding, for points that are not on it. -/
theorem ring_twin_gen {s : Series ℚ} {r : FRing ℚ ℚ} (hr : FBy (F.maker f) s r) {ps : List (Pt ℚ)}
    {es : List (Seg ℚ)} (ra : RingAway M s ps es) (hes : ∀ u ∈ es, u.a ∈ ps ∧ u.b ∈ ps)
    {ε : ℚ} (hsee : RingsSee ε (fun _ => 0) [s.bare] ps) :
    ∃ t : FRing ℚ ℚ, FOk ε (fun _ => 0) s.bare t ∧ AlikeG f F.arith ε r.ring t.ring ps es ∧ (F.ringConvex s.pts = ringConvex s.pts → r.convex = t.convex) := by
  obtain ⟨hc, hu, hps, hap, hgen, hcl, hoff⟩ := ra
  obtain ⟨t, t1, t2, t3⟩ := ring_twin hF hM hf hn hc hu hr hps hes hap hsee
  refine ⟨t, t1, ?_, t3⟩
  obtain ⟨a1, -⟩ := newIx_some hf hr.ok hr.made
  have sees := hsee s.bare (by simp) _ t1.made
  have hit : ∀ p ∈ ps, ∃ b, ∀ edge, ringContainsPoint f F.arith r.ring p edge = some (b, none) := by
    intro p hp
    obtain ⟨b1, i1, k1, k2, k3⟩ := ring_far_at hF hM hf hn hr.ok (hps p hp).1 (hps p hp).2 hr.made true
    obtain ⟨b2, i2, k4, k5, k6⟩ := ring_far_at hF hM hf hn hr.ok (hps p hp).1 (hps p hp).2 hr.made false
    rw [if_pos rfl] at k2
    rw [if_neg (by simp)] at k5
    have hb : b1 = b2 := by
      rw [Bool.eq_iff_iff, k2, k5]
      exact ⟨fun h => h.resolve_left (hoff p hp), .inr⟩
    rw [k3.2 (hoff p hp), hb] at k1
    rw [k6.2 (hoff p hp)] at k4
    refine ⟨b2, fun edge => ?_⟩
    cases edge
    exacts [k4, k1]
  have hmem : ∀ i < r.ring.nsegs, ∀ v, segAt r.ring.points i = some v → v ∈ s.segs := by
    intro i hi v hv
    rw [a1.segAt] at hv
    · rw [← Option.some.inj hv]
      exact List.getElem_mem _
    · rw [← a1.nsegs_eq]; exact hi
  have self : ∀ {σ : Type} (q : Rect ℚ) (it it' : Iter ℚ σ) (st : σ), (∀ i < r.ring.nsegs, ∀ v, segAt r.ring.points i = some v → ∀ st, it v i st = it' v i st) →
      ringSearch f r.ring q it st = ringSearch f r.ring q it' st := by
    intro σ q it it' st hh
    rw [t2.search, t2.search]
    refine forRange_congr _ _ _ fun j st _ hj => ?_
    unfold searchLeaf
    cases hs : segAt r.ring.points j with
    | none => rfl
    | some v => dsimp only; rw [hh j (by omega) v hs]
  have ues : ∀ u ∈ es, UsualSeg M u := fun u hu => ⟨(hps _ (hes u hu).1).1, (hps _ (hes u hu).2).1⟩
  have xs : ∀ u ∈ es, ringXSeg f F.arith r.ring u false = ringXSeg f F.arith r.ring u true := by
    intro u hu'
    obtain ⟨b1, k1⟩ := hit _ (hes u hu').1
    obtain ⟨b2, k2⟩ := hit _ (hes u hu').2
    unfold ringXSeg
    rw [k1, k1, k2, k2, self _ (interIter F.arith u false) (interIter F.arith u true) _ fun i hi v hv st =>
      interIter_far hF hM (ues u hu') (usual_seg hF hM hu (hmem i hi v hv)) (hap u hu' v (hmem i hi v hv)) (hgen u hu' v (hmem i hi v hv)) i st]
  have hs : ∀ u ∈ es, ∀ (R : RArith ℚ) (cv cw : Bool), ringHasSeg f F.arith R cv cw r.ring u true = ringHasSeg f F.arith R cv cw r.ring u false := by
    intro u hu' R cv cw
    obtain ⟨b1, k1⟩ := hit _ (hes u hu').1
    obtain ⟨b2, k2⟩ := hit _ (hes u hu').2
    have hnm : containsEdge f F.arith R cw r.ring u none none = noneMeets f F.arith r.ring u fun _ => true := by
      rw [containsEdge]
      unfold noneMeets
      rw [self _ (contIter F.arith u fun t => offSeg F.arith u t.a && offSeg F.arith u t.b) (contIter F.arith u fun _ => true) _ fun i hi v hv st => ?_]
      have hv := hmem i hi v hv
      obtain ⟨-, -, g3, g4⟩ := hgen u hu' v hv
      obtain ⟨m1, m2⟩ := seg_mem_pts hv
      have htest : (offSeg F.arith u v.a && offSeg F.arith u v.b) = true := by
        rw [offSeg_far hF hM (ues u hu') (hu _ m1) (hcl u hu' _ m1) g3, offSeg_far hF hM (ues u hu') (hu _ m2) (hcl u hu' _ m2) g4]
        rfl
      unfold contIter
      simp only [htest]
    unfold ringHasSeg
    rw [k1, k1, k2, k2]
    simp only [hnm, if_true, Bool.false_eq_true, if_false]
  refine ⟨t2, fun u hu' => ?_, xs, fun u hu' R S cv cw cw' => ?_⟩
  · rw [xs u hu', t2.xSeg hu', ringXSeg_eq t1.ok t1.made sees (hes u hu').1 (hes u hu').2 (hgen u hu')]
  · rw [hs u hu', t2.hasSeg hu' R S cv cw cw', ringHasSeg_eq t1.ok t1.made sees (hes u hu').1 (hes u hu').2 (hgen u hu')]

theorem rings_twin_gen {ps : List (Pt ℚ)} {es : List (Seg ℚ)} (hes : ∀ u ∈ es, u.a ∈ ps ∧ u.b ∈ ps) {ε : ℚ} {C : Prop} : ∀ {ss : List (Series ℚ)}
    {rs : List (FRing ℚ ℚ)}, List.Forall₂ (FBy (F.maker f)) ss rs → (∀ s ∈ ss, RingAway M s ps es) →
    (C → ∀ s ∈ ss, F.ringConvex s.pts = ringConvex s.pts) → RingsSee ε (fun _ => 0) (ss.map Series.bare) ps →
    ∃ ts : List (FRing ℚ ℚ), List.Forall₂ (FOk ε fun _ => 0) (ss.map Series.bare) ts ∧
      List.Forall₂ (fun r t => AlikeG f F.arith ε r.ring t.ring ps es ∧ (C → r.convex = t.convex) ∧ ∃ s ∈ ss, FBy (F.maker f) s r ∧ FOk ε (fun _ => 0) s.bare t) rs ts
  | _, _, .nil, _, _, _ => ⟨[], .nil, .nil⟩
  | _, _, .cons (a := s) h hs, h1, h2, h8 => by
    obtain ⟨t, t1, t2, t3⟩ := ring_twin_gen hF hM hf hn h (h1 s (by simp)) hes (h8.mono (by simp) fun _ h => h)
    obtain ⟨ts, u1, u2⟩ := rings_twin_gen hes (C := C) hs (fun x hx => h1 x (by simp [hx])) (fun c x hx => h2 c x (by simp [hx]))
      (h8.mono (fun x hx => by simp only [List.map_cons, List.mem_cons]; exact .inr hx) fun _ h => h)
    exact ⟨t :: ts, .cons t1 u1, .cons ⟨t2, fun c => t3 (h2 c s (by simp)), s, by simp, h, t1⟩ (u2.imp fun a b ⟨k1, k2, z, k3, k4⟩ => ⟨k1, k2, z, by simp [k3], k4⟩)⟩

/-! ### Polygons -/

omit hf hn in
theorem ringAway_of {ext : Series ℚ} {holes : List (Series ℚ)} {y : AShape ℚ} (hs : ∀ s ∈ ext :: holes, Closed s ∧ ∀ q ∈ s.pts, UsualPt M q)
    (uy : ∀ p ∈ y.nodes, UsualPt M p) (left : ∀ p ∈ y.nodes, AShape.ClearOf M p (.poly ext holes)) (right : ∀ p ∈ AShape.nodes (.poly ext holes), y.ClearOf M p)
    (apart : ∀ u ∈ AShape.sides (.poly ext holes), ∀ v ∈ y.sides, Apart M u v) (gen : AShape.General (.poly ext holes) y) :
    ∀ s ∈ ext :: holes, RingAway M s y.nodes y.sides := by
  intro s hm
  obtain ⟨h1, h2⟩ := hs s hm
  have side : ∀ v ∈ s.segs, v ∈ AShape.sides (.poly ext holes) := fun v hv => List.mem_flatMap.2 ⟨s, hm, hv⟩
  have node : ∀ q ∈ s.pts, q ∈ AShape.nodes (.poly ext holes) := fun q hq => List.mem_flatMap.2 ⟨s, hm, hq⟩
  have ends : ∀ u ∈ y.sides, u.a ∈ y.nodes ∧ u.b ∈ y.nodes := by
    intro u hu
    match y, hu with
    | .line t, hu => exact seg_mem_pts (closed := false) (by rw [edges_segments]; exact hu)
    | .poly e hs, hu =>
      obtain ⟨t, ht, hu⟩ := List.mem_flatMap.1 hu
      exact ⟨List.mem_flatMap.2 ⟨t, ht, (seg_mem_pts hu).1⟩, List.mem_flatMap.2 ⟨t, ht, (seg_mem_pts hu).2⟩⟩
  have off : ∀ p ∈ y.nodes, ¬ OnBoundary s.segs p := fun p hp ⟨v, hv, ho⟩ => gen.2 p hp ⟨v, side v hv, ho⟩
  refine ⟨h1, h2, fun p hp => ⟨uy p hp, left p hp s hm⟩, fun u hu v hv => (apart v (side v hv) u hu).symm hF hM, ?_, ?_, off⟩
  · intro u hu v hv
    exact ⟨fun h => off _ (ends u hu).1 ⟨v, hv, h⟩, fun h => off _ (ends u hu).2 ⟨v, hv, h⟩, fun h => gen.1 _ (node _ (seg_mem_pts hv).1) ⟨u, hu, h⟩,
      fun h => gen.1 _ (node _ (seg_mem_pts hv).2) ⟨u, hu, h⟩⟩
  · intro u hu q hq
    have := right q (node q hq)
    match y, hu, this with
    | .line t, hu, h => exact h.2 u hu
    | .poly e hs, hu, h =>
      obtain ⟨t, ht, hu⟩ := List.mem_flatMap.1 hu
      exact (h t ht).clear u hu

omit hF hM hf hn in
theorem inner_bare {ext : Series ℚ} {holes : List (Series ℚ)} {w : Pt ℚ} :
    AShape.Inner (.poly ext.bare (holes.map Series.bare)) w ↔ AShape.Inner (.poly ext holes) w := by
  simp only [AShape.Inner, List.mem_map, forall_exists_index, and_imp, forall_apply_eq_imp_iff₂]
  rfl

omit hF hM hf hn in
theorem nodes_bare {ext : Series ℚ} {holes : List (Series ℚ)} : AShape.nodes (.poly ext.bare (holes.map Series.bare)) = AShape.nodes (.poly ext holes) := by
  simp only [AShape.nodes, List.flatMap_cons, List.flatMap_map]
  rfl

omit hF hM hf hn in
theorem sides_bare {ext : Series ℚ} {holes : List (Series ℚ)} : AShape.sides (.poly ext.bare (holes.map Series.bare)) = AShape.sides (.poly ext holes) := by
  simp only [AShape.sides, List.flatMap_cons, List.flatMap_map]
  rfl

omit hF hM hf hn in
theorem node_ends {y : AShape ℚ} : ∀ u ∈ y.sides, u.a ∈ y.nodes ∧ u.b ∈ y.nodes := by
  intro u hu
  match y, hu with
  | .line t, hu => exact seg_mem_pts (closed := false) (by rw [edges_segments]; exact hu)
  | .poly e hs, hu =>
    obtain ⟨t, ht, hu⟩ := List.mem_flatMap.1 hu
    exact ⟨List.mem_flatMap.2 ⟨t, ht, (seg_mem_pts hu).1⟩, List.mem_flatMap.2 ⟨t, ht, (seg_mem_pts hu).2⟩⟩

variable {R : RArith ℚ} {fuel : Nat}

theorem poly_covers_line_far {ext : Series ℚ} {holes : List (Series ℚ)} {q : PolyS ℚ ℚ} (hq : PolyBy (F.maker f) ext holes q) (hs : PolySound M ext holes)
    (hfe : FlagOk ext) {s : Series ℚ} (hse : s.e.Ok) (hu : ∀ p ∈ s.pts, UsualPt M p) (away : AShape.Away M (.poly ext holes) (.line s))
    {l : Ring ℚ ℚ} (hl : newIx f F.arith s.e s.pts false s.ix = some l) :
    ∃ b, polyCoversLine ⟨f, F.arith, R, fuel⟩ q l = some b ∧ polyContainsLine ⟨f, F.arith, R, fuel⟩ q l = some b ∧
      (b = true ↔ (∃ w, AShape.Has (.line s) w) ∧ ∀ w, AShape.Has (.line s) w → AShape.Inner (.poly ext holes) w) := by
  have ra := ringAway_of hF hM hs.1 (y := .line s) hu away.left away.right away.apart away.general
  obtain ⟨ε, ε0, hsee⟩ := ringsSee_of (fun _ => 0) ((ext :: holes).map Series.bare) s.pts fun x hx => by
    obtain ⟨t, ht, rfl⟩ := List.mem_map.1 hx
    exact bare_fit (hs.1 t ht).1 _
  have hsee := hsee ε ε0 le_rfl
  obtain ⟨l', hl'⟩ := C24_built Ix.exact_lawful (exact ε fun _ => 0) initial_ok s.pts false 1#32 fun h => absurd (indexKinds_closed h) (by simp)
  have hal := alike_of hf Ix.exact_lawful hse initial_ok hl hl'
  have hw := within_of hf hse hl
  rw [edges_segments] at hw
  have hes := node_ends (y := .line s)
  have exQ : FBy (F.maker f) ext q.ext := by cases q with | ring r => exact hq.2 | poly e hs => exact hq.1
  have hoQ : List.Forall₂ (FBy (F.maker f)) holes q.holes := by cases q with | ring r => rw [hq.1]; exact .nil | poly e hs => exact hq.2
  obtain ⟨t, t1, t2, t3⟩ := ring_twin_gen hF hM hf hn exQ (ra ext (by simp)) hes (hsee.mono (by simp) fun _ h => h)
  obtain ⟨ts, u1, u2⟩ := rings_twin_gen hF hM hf hn hes (C := False) hoQ (fun x hx => ra x (by simp [hx])) False.elim
    (hsee.mono (fun x hx => by rw [List.map_cons]; exact List.mem_cons_of_mem _ hx) fun _ h => h)
  have t3 := t3 (ringConvex_far hF hM (hs.1 ext (by simp)).2 hs.2)
  have hcov : hasLine ⟨f, F.arith, R, fuel⟩ q.ext l true false = hasLine ⟨Ix.exact, exact ε fun _ => 0, exactR, fuel⟩ t l' true false := by
    unfold hasLine; dsimp only; rw [t3]; exact t2.hasLineYes hal hw R exactR _ _ _
  have hcon : hasLine ⟨f, F.arith, R, fuel⟩ q.ext l false true = hasLine ⟨Ix.exact, exact ε fun _ => 0, exactR, fuel⟩ t l' false true := by
    unfold hasLine; dsimp only; rw [t3]; exact t2.hasLineBd hal hw R exactR _ _ _
  have hho : anyOf (fun h : FRing ℚ ℚ => ringXLine f F.arith h.ring l false) q.holes =
      anyOf (fun h : FRing ℚ ℚ => ringXLine Ix.exact (exact ε fun _ => 0) h.ring l' false) ts :=
    Ag.anyOf_congr (fun x y hxy => hxy.1.xLineNo hal hw) u2
  have key : ∃ q', PolyIs ε (fun _ => 0) ext.bare (holes.map Series.bare) q' ∧ q'.ext = t ∧ q'.holes = ts := by
    cases q with
    | ring r =>
      obtain ⟨rfl, hr⟩ := hq
      cases u2
      exact ⟨.ring t, ⟨rfl, t1⟩, rfl, rfl⟩
    | poly e hs' => exact ⟨.poly t ts, ⟨t1, u1⟩, rfl, rfl⟩
  obtain ⟨q', k1, k2, k3⟩ := key
  obtain ⟨b, h1, h2, h3⟩ := polyLine_gen (P := ⟨Ix.exact, exact ε fun _ => 0, exactR, fuel⟩) rfl rfl k1 (show FlagOk ext.bare from hfe) (s := s.bare) initial_ok hl'
    (hsee.mono (fun _ h => h) fun _ h => h) (by
      have hg := away.general
      unfold AShape.General at hg ⊢
      rw [nodes_bare, sides_bare]
      exact hg)
  refine ⟨b, ?_, ?_, ?_⟩
  · rw [← h1]
    unfold polyCoversLine polyEmpty
    dsimp only
    rw [hcov, hho, t2.empty, hal.empty, k2, k3]
  · rw [← h2]
    unfold polyContainsLine polyEmpty
    dsimp only
    rw [hcon, hho, t2.empty, hal.empty, k2, k3]
  · rw [h3]
    simp only [inner_bare]
    rfl

theorem poly_covers_poly_far {ea eb : Series ℚ} {ha hb : List (Series ℚ)} {q r : PolyS ℚ ℚ} (hq : PolyBy (F.maker f) ea ha q) (hr : PolyBy (F.maker f) eb hb r)
    (sa : PolySound M ea ha) (sb : AShape.Sound M (.poly eb hb)) (okb : PolyOk eb hb) (hfe : FlagOk ea) (hee : Escapes (Inside ea.segs))
    (away : AShape.Away M (.poly ea ha) (.poly eb hb)) :
    ∃ b, polyCoversPoly ⟨f, F.arith, F.rarith, fuel⟩ q r = some b ∧
      (b = true ↔ (∃ w, AShape.Has (.poly eb hb) w) ∧ ∀ w, AShape.Has (.poly eb hb) w → AShape.Inner (.poly ea ha) w) := by
  have usual : ∀ {e : Series ℚ} {hs : List (Series ℚ)}, (∀ s ∈ e :: hs, Closed s ∧ ∀ q ∈ s.pts, UsualPt M q) → ∀ p ∈ AShape.nodes (.poly e hs), UsualPt M p := by
    intro e hs h p hp
    obtain ⟨t, ht, hp⟩ := List.mem_flatMap.1 hp
    exact (h t ht).2 p hp
  have ra := ringAway_of hF hM sa.1 (y := .poly eb hb) (usual sb.1) away.left away.right away.apart away.general
  have rb := ringAway_of hF hM sb.1 (y := .poly ea ha) (usual sa.1) away.right away.left (fun u hu v hv => (away.apart v hv u hu).symm hF hM) away.general.symm
  obtain ⟨e1, p1, s1⟩ := ringsSee_of (fun _ => 0) ((ea :: ha).map Series.bare) (AShape.nodes (.poly eb hb)) fun x hx => by
    obtain ⟨t, ht, rfl⟩ := List.mem_map.1 hx
    exact bare_fit (sa.1 t ht).1 _
  obtain ⟨e2, p2, s2⟩ := ringsSee_of (fun _ => 0) ((eb :: hb).map Series.bare) (AShape.nodes (.poly ea ha)) fun x hx => by
    obtain ⟨t, ht, rfl⟩ := List.mem_map.1 hx
    exact bare_fit (sb.1 t ht).1 _
  obtain ⟨ε, ε0, ε1, ε2⟩ : ∃ ε : ℚ, 0 < ε ∧ ε ≤ e1 ∧ ε ≤ e2 := ⟨min e1 e2, lt_min p1 p2, min_le_left _ _, min_le_right _ _⟩
  have s1 := s1 ε ε0 ε1
  have s2 := s2 ε ε0 ε2
  have esa := node_ends (y := .poly ea ha)
  have esb := node_ends (y := .poly eb hb)
  have exA : FBy (F.maker f) ea q.ext := by cases q with | ring r => exact hq.2 | poly e hs => exact hq.1
  have exB : FBy (F.maker f) eb r.ext := by cases r with | ring r => exact hr.2 | poly e hs => exact hr.1
  have hoA : List.Forall₂ (FBy (F.maker f)) ha q.holes := by cases q with | ring r => rw [hq.1]; exact .nil | poly e hs => exact hq.2
  have hoB : List.Forall₂ (FBy (F.maker f)) hb r.holes := by cases r with | ring r => rw [hr.1]; exact .nil | poly e hs => exact hr.2
  obtain ⟨tA, tA1, tA2, tA3⟩ := ring_twin_gen hF hM hf hn exA (ra ea (by simp)) esb (s1.mono (by simp) fun _ h => h)
  obtain ⟨tB, tB1, tB2, -⟩ := ring_twin_gen hF hM hf hn exB (rb eb (by simp)) esa (s2.mono (by simp) fun _ h => h)
  obtain ⟨tsA, uA1, uA2⟩ := rings_twin_gen hF hM hf hn esb (C := False) hoA (fun x hx => ra x (by simp [hx])) False.elim
    (s1.mono (fun x hx => by rw [List.map_cons]; exact List.mem_cons_of_mem _ hx) fun _ h => h)
  obtain ⟨tsB, uB1, uB2⟩ := rings_twin_gen hF hM hf hn esa (C := True) hoB (fun x hx => rb x (by simp [hx]))
    (fun _ x hx => ringConvex_far hF hM (sb.1 x (List.mem_cons_of_mem _ hx)).2 (sb.2 x hx))
    (s2.mono (fun x hx => by rw [List.map_cons]; exact List.mem_cons_of_mem _ hx) fun _ h => h)
  have tA3 := tA3 (ringConvex_far hF hM (sa.1 ea (by simp)).2 sa.2)
  -- a ring of the one is within the points and segments of the one
  have win : ∀ {e : Series ℚ} {hs : List (Series ℚ)} {s : Series ℚ} {x : FRing ℚ ℚ}, s ∈ e :: hs → FBy (F.maker f) s x →
      Within x.ring (AShape.nodes (.poly e hs)) (AShape.sides (.poly e hs)) := by
    intro e hs s x hs' hx
    have := within_of hf hx.ok hx.made
    exact ⟨fun i hi v hv => List.mem_flatMap.2 ⟨s, hs', this.segs i hi v hv⟩, fun p hp => List.mem_flatMap.2 ⟨s, hs', this.pts p hp⟩⟩
  have wB := win (e := eb) (hs := hb) (s := eb) (by simp) exB
  have x0 : hasRing ⟨f, F.arith, F.rarith, fuel⟩ q.ext r.ext true = hasRing ⟨Ix.exact, exact ε fun _ => 0, exactR, fuel⟩ tA tB true := by
    unfold hasRing; dsimp only; rw [tA3]; exact tA2.hasRingYes tB2.toAlike wB _ exactR _ _ _
  have lb := (sb.1 eb (by simp)).1.1
  have seeB : Sees ε (fun _ => 0) eb.bare tB.ring (AShape.nodes (.poly ea ha)) := s2 eb.bare (by simp) _ tB1.made
  have hall : allOf (fun h : FRing ℚ ℚ =>
        match ringXRing f F.arith F.rarith h.ring r.ext.ring false with
        | none => none
        | some false => some true
        | some true => anyOf (fun k => hasRing ⟨f, F.arith, F.rarith, fuel⟩ k h true) r.holes) q.holes =
      allOf (fun h : FRing ℚ ℚ =>
        match ringXRing Ix.exact (exact ε fun _ => 0) exactR h.ring tB.ring false with
        | none => none
        | some false => some true
        | some true => anyOf (fun k => hasRing ⟨Ix.exact, exact ε fun _ => 0, exactR, fuel⟩ k h true) tsB) tsA := by
    refine Ag.allOf_congr (fun x y hxy => ?_) uA2
    obtain ⟨g, -, s, hs, fx, fy⟩ := hxy
    have wx := win (e := ea) (hs := ha) (s := s) (by simp [hs]) fx
    have inA : ∀ p ∈ s.pts, p ∈ AShape.nodes (.poly ea ha) := fun p hp => List.mem_flatMap.2 ⟨s, by simp [hs], hp⟩
    have inB : ∀ p ∈ eb.pts, p ∈ AShape.nodes (.poly eb hb) := fun p hp => List.mem_flatMap.2 ⟨eb, by simp, hp⟩
    have seeS : Sees ε (fun _ => 0) s.bare y.ring (AShape.nodes (.poly eb hb)) := s1 s.bare (List.mem_map.2 ⟨s, by simp [hs], rfl⟩) _ fy.made
    obtain ⟨cs, us⟩ := sa.1 s (by simp [hs])
    have ls := cs.1
    obtain ⟨a1, -⟩ := newIx_some hf fx.ok fx.made
    obtain ⟨b1, -⟩ := newIx_some hf exB.ok exB.made
    obtain ⟨bt, bt'⟩ := away.boxes _ _ _ _ rfl rfl s hs
    have ar1 := area_tells hF hM us (sb.1 eb (by simp)).2 bt a1 b1 (by omega) (by omega)
    have ar2 := area_tells hF hM (sb.1 eb (by simp)).2 us bt' b1 a1 (by omega) (by omega)
    have x1 : ringXRing f F.arith F.rarith x.ring r.ext.ring false = ringXRing Ix.exact (exact ε fun _ => 0) exactR y.ring tB.ring false := by
      have e1 : ringXRing f F.arith F.rarith x.ring r.ext.ring false = ringXRing f F.arith F.rarith x.ring r.ext.ring true := by
        unfold ringXRing
        rw [g.anyXSame wB, tB2.anyXSame wx]
      rw [e1, AlikeR.xRing (s := s.bare) (t := eb.bare) ls lb fy tB1 (seeS.mono inB) (seeB.mono inA) g.toAlikeR tB2.toAlikeR wB wx ar2 ar1,
        xRing_eq fy tB1 (seeS.mono inB) (seeB.mono inA)]
      exact ChainGen.segs (c := true) (d := true) (general_rings (s := eb) (t := s) away.general.symm (by simp) (by simp [hs]))
    have x2 : anyOf (fun k => hasRing ⟨f, F.arith, F.rarith, fuel⟩ k x true) r.holes =
        anyOf (fun k => hasRing ⟨Ix.exact, exact ε fun _ => 0, exactR, fuel⟩ k y true) tsB :=
      Ag.anyOf_congr (fun k z hkz => by unfold hasRing; dsimp only; rw [hkz.2.1 trivial]; exact hkz.1.hasRingYes g.toAlike wx _ exactR _ _ _) uB2
    rw [x1, x2]
  have key : ∃ q' r', PolyIs ε (fun _ => 0) ea.bare (ha.map Series.bare) q' ∧ PolyIs ε (fun _ => 0) eb.bare (hb.map Series.bare) r' ∧
      polyCoversPoly ⟨f, F.arith, F.rarith, fuel⟩ q r = polyCoversPoly ⟨Ix.exact, exact ε fun _ => 0, exactR, fuel⟩ q' r' := by
    have big : (if polyEmpty q || polyEmpty r then some false
        else andM (hasRing ⟨f, F.arith, F.rarith, fuel⟩ q.ext r.ext true) (allOf (fun h : FRing ℚ ℚ =>
          match ringXRing f F.arith F.rarith h.ring r.ext.ring false with
          | none => none
          | some false => some true
          | some true => anyOf (fun k => hasRing ⟨f, F.arith, F.rarith, fuel⟩ k h true) r.holes) q.holes)) =
        (if ringEmpty tA.ring || ringEmpty tB.ring then some false
        else andM (hasRing ⟨Ix.exact, exact ε fun _ => 0, exactR, fuel⟩ tA tB true) (allOf (fun h : FRing ℚ ℚ =>
          match ringXRing Ix.exact (exact ε fun _ => 0) exactR h.ring tB.ring false with
          | none => none
          | some false => some true
          | some true => anyOf (fun k => hasRing ⟨Ix.exact, exact ε fun _ => 0, exactR, fuel⟩ k h true) tsB) tsA)) := by
      unfold polyEmpty
      rw [tA2.empty, tB2.empty, x0, hall]
    cases q with
    | ring q0 =>
      obtain ⟨rfl, -⟩ := hq
      cases r with
      | ring r0 =>
        obtain ⟨rfl, -⟩ := hr
        exact ⟨.ring tA, .ring tB, ⟨rfl, tA1⟩, ⟨rfl, tB1⟩, x0⟩
      | poly r0 hs =>
        cases uA1
        exact ⟨.ring tA, .poly tB tsB, ⟨rfl, tA1⟩, ⟨tB1, uB1⟩, big⟩
    | poly q0 hs =>
      cases r with
      | ring r0 =>
        obtain ⟨rfl, -⟩ := hr
        cases uB1
        exact ⟨.poly tA tsA, .ring tB, ⟨tA1, uA1⟩, ⟨rfl, tB1⟩, big⟩
      | poly r0 hs' =>
        exact ⟨.poly tA tsA, .poly tB tsB, ⟨tA1, uA1⟩, ⟨tB1, uB1⟩, big⟩
  obtain ⟨q', r', k1, k2, k3⟩ := key
  obtain ⟨b, h1, h2⟩ := polyPoly_gen (P := ⟨Ix.exact, exact ε fun _ => 0, exactR, fuel⟩) rfl rfl rfl k1 k2 (ok_bare okb) (show FlagOk ea.bare from hfe) hee
    (by rw [nodes_bare]; exact s1.mono (fun _ h => h) fun _ h => h) (by rw [nodes_bare]; exact s2.mono (fun _ h => h) fun _ h => h) (by
      have hg := away.general
      unfold AShape.General at hg ⊢
      rw [nodes_bare, sides_bare, nodes_bare, sides_bare]
      exact hg)
  refine ⟨b, by rw [k3]; exact h1, ?_⟩
  rw [h2]
  simp only [has_bare, inner_bare]

/-! ### Geometries -/

theorem atom_covers_away {ext : Series ℚ} {holes : List (Series ℚ)} {q : PolyS ℚ ℚ} (hq : PolyBy (F.maker f) ext holes q) (hs : PolySound M ext holes)
    (firm : AShape.Firm (.poly ext holes)) {y : AShape ℚ} {b : Atom ℚ ℚ} (hy : y.By (F.maker f) b) (oky : y.Ok) (sy : y.Sound M)
    (away : AShape.Away M (.poly ext holes) y) :
    ∃ r, atomCovers ⟨f, F.arith, F.rarith, fuel⟩ (.poly q) b = some r ∧ atomContains ⟨f, F.arith, F.rarith, fuel⟩ (.poly q) b = some r ∧
      (r = true ↔ (∃ w, y.Has w) ∧ ∀ w, y.Has w → AShape.Inner (.poly ext holes) w) := by
  match y, b, hy, oky, sy, away with
  | .point p, .point p', hy, _, sy, away =>
    rw [show p' = p from hy]
    have hc := away.left p (by simp [AShape.nodes])
    obtain ⟨r, h1, h2⟩ := atom_covers_far hF hM hf hn (R := F.rarith) (fuel := fuel) (x := .poly ext holes) (a := .poly q) hq sy hc
    obtain ⟨r', h3, h4⟩ := atom_contains_far hF hM hf hn (R := F.rarith) (fuel := fuel) (x := .poly ext holes) (a := .poly q) hq sy hc
    have hin : AShape.Has (.poly ext holes) p ↔ AShape.Inner (.poly ext holes) p := by
      constructor
      · intro hh
        by_contra hn
        exact away.general.2 p (by simp [AShape.nodes]) (AShape.Rim.side ⟨hh, hn⟩)
      · exact fun h => ⟨.inr h.1, fun k hk hi => h.2 k hk (.inr hi)⟩
    have : r = r' := by rw [Bool.eq_iff_iff, h2, h4, hin]
    refine ⟨r', by rw [h1, this], h3, h4.trans ⟨fun h => ⟨⟨p, rfl⟩, by rintro w rfl; exact h⟩, fun h => h.2 p rfl⟩⟩
  | .line s, .line l, hy, _, sy, away => exact poly_covers_line_far hF hM hf hn hq hs firm.1 hy.1 sy away hy.2
  | .poly eb hb, .poly r, hy, oky, sy, away =>
    obtain ⟨b, h1, h2⟩ := poly_covers_poly_far hF hM hf hn (fuel := fuel) hq hy hs sy oky firm.1 firm.2 away
    exact ⟨b, h1, h1, h2⟩

end Tg.S

namespace Tg.S

section
variable {C : Maker ℚ ℚ} {H : HArith ℚ} {Q : Qsort} {t : Atom ℚ ℚ → Option Bool} {q : AShape ℚ → Prop}

theorem Shape.ByAll.nil_iff : ∀ {cs : List (Shape ℚ)} {gs : List (Geo ℚ ℚ)}, Shape.ByAll C H Q cs gs → (cs = [] ↔ gs = [])
  | [], [], _ => by simp
  | _ :: _, _ :: _, _ => by simp

mutual
theorem everyGeo_by : ∀ {s : Shape ℚ} {g : Geo ℚ ℚ}, s.By C H Q g → (∀ x ∈ s.atoms, ∀ a, x.By C a → ∃ r, t a = some r ∧ (r = true ↔ q x)) →
    ∃ r, everyGeo t g = some r ∧ (r = true ↔ s.Solid ∧ ∀ x ∈ s.atoms, q x)
  | .null, .null, _, _ => ⟨false, by rw [everyGeo], by simp [Shape.Solid]⟩
  | .empty, .empty, _, _ => ⟨false, by rw [everyGeo], by simp [Shape.Solid]⟩
  | .atom x, .atom a, h, ht => by
    rw [Shape.By] at h
    obtain ⟨r, h1, h2⟩ := ht x (by simp [Shape.atoms]) a h
    exact ⟨r, by rw [everyGeo, h1], by rw [h2]; simp [Shape.atoms, Shape.Solid]⟩
  | .coll cs, .multi flag gs rect ix ixg, h, ht => by
    rw [Shape.By] at h
    rw [Shape.atoms] at ht
    rw [everyGeo, Shape.atoms, Shape.Solid]
    have hnil := Shape.ByAll.nil_iff h.2.2
    obtain ⟨r, h1, h2⟩ := everyGeos_by h.2.2 ht
    by_cases hg : gs = []
    · refine ⟨false, by simp [hg], iff_of_false (by simp) fun hc => hc.1.1 (hnil.2 hg)⟩
    · have hf : flag = false := by
        cases hf : flag with
        | false => rfl
        | true => exact absurd (h.1 hf) hg
      refine ⟨r, by simp [hf, hg, h1], ?_⟩
      rw [h2]
      have : cs ≠ [] := fun h => hg (hnil.1 h)
      simp [this]
theorem everyGeos_by : ∀ {ss : List (Shape ℚ)} {gs : List (Geo ℚ ℚ)}, Shape.ByAll C H Q ss gs →
    (∀ x ∈ Shape.allAtoms ss, ∀ a, x.By C a → ∃ r, t a = some r ∧ (r = true ↔ q x)) →
    ∃ r, everyGeos t gs = some r ∧ (r = true ↔ Shape.AllSolid ss ∧ ∀ x ∈ Shape.allAtoms ss, q x)
  | [], [], _, _ => ⟨true, by rw [everyGeos], by simp [Shape.allAtoms, Shape.AllSolid]⟩
  | c :: cs, g :: gs, h, ht => by
    rw [Shape.ByAll] at h
    rw [Shape.allAtoms] at ht ⊢
    obtain ⟨r, h1, h2⟩ := everyGeo_by h.1 fun x hx => ht x (List.mem_append_left _ hx)
    obtain ⟨r', h3, h4⟩ := everyGeos_by h.2 fun x hx => ht x (List.mem_append_right _ hx)
    rw [everyGeos, h1, Shape.AllSolid]
    have : ((c.Solid ∧ Shape.AllSolid cs) ∧ ∀ x ∈ c.atoms ++ Shape.allAtoms cs, q x) ↔
        (c.Solid ∧ ∀ x ∈ c.atoms, q x) ∧ Shape.AllSolid cs ∧ ∀ x ∈ Shape.allAtoms cs, q x := by
      simp only [List.mem_append, or_imp, forall_and]
      tauto
    rw [this, ← h2, ← h4]
    cases r with
    | true => exact ⟨r', h3, by simp⟩
    | false => exact ⟨false, rfl, by simp⟩
end
end

/-- A polygon and a geometry of any kind. -/
theorem covers_far {F : Fp} (hF : F.Ok) {M : ℚ} (hM : M ≤ 2 ^ 100) {f : Ix ℚ ℚ} (hf : f.Lawful) (hn : ∀ pts, F.ns pts < 2 ^ 31) {fuel : Nat}
    {H : HArith ℚ} {Q : Qsort} {ext : Series ℚ} {holes : List (Series ℚ)} {b : Shape ℚ} {q : PolyS ℚ ℚ} {gb : Geo ℚ ℚ} (hq : PolyBy (F.maker f) ext holes q)
    (hb : b.By (F.maker f) H Q gb) (hs : PolySound M ext holes) (firm : AShape.Firm (.poly ext holes)) (okb : ∀ y ∈ b.atoms, y.Ok)
    (sb : ∀ y ∈ b.atoms, y.Sound M) (away : ∀ y ∈ b.atoms, AShape.Away M (.poly ext holes) y) :
    ∃ r, geoCovers ⟨f, F.arith, F.rarith, fuel⟩ (.atom (.poly q)) gb = some r ∧ geoContains ⟨f, F.arith, F.rarith, fuel⟩ (.atom (.poly q)) gb = some r ∧
      (r = true ↔ b.NoEmpty ∧ ∀ w, b.Has w → AShape.Inner (.poly ext holes) w) := by
  have key : ∀ y ∈ b.atoms, ∀ yb, y.By (F.maker f) yb → ∃ r, atomCovers ⟨f, F.arith, F.rarith, fuel⟩ (.poly q) yb = some r ∧
      atomContains ⟨f, F.arith, F.rarith, fuel⟩ (.poly q) yb = some r ∧ (r = true ↔ (∃ w, y.Has w) ∧ ∀ w, y.Has w → AShape.Inner (.poly ext holes) w) :=
    fun y hy yb hyb => atom_covers_away hF hM hf hn hq hs firm hyb (okb y hy) (sb y hy) (away y hy)
  obtain ⟨r, k1, k2⟩ := everyGeo_by (t := atomCovers ⟨f, F.arith, F.rarith, fuel⟩ (.poly q))
    (q := fun y => (∃ w, y.Has w) ∧ ∀ w, y.Has w → AShape.Inner (.poly ext holes) w) hb fun y hy yb hyb => by
    obtain ⟨r, t1, -, t2⟩ := key y hy yb hyb
    exact ⟨r, t1, t2⟩
  obtain ⟨r', k3, k4⟩ := everyGeo_by (t := atomContains ⟨f, F.arith, F.rarith, fuel⟩ (.poly q))
    (q := fun y => (∃ w, y.Has w) ∧ ∀ w, y.Has w → AShape.Inner (.poly ext holes) w) hb fun y hy yb hyb => by
    obtain ⟨r, -, t1, t2⟩ := key y hy yb hyb
    exact ⟨r, t1, t2⟩
  have same : r' = r := by rw [Bool.eq_iff_iff, k2, k4]
  rw [same] at k3
  refine ⟨r, by rw [geoCovers, geoCov]; exact k1, by rw [geoContains, geoCov]; exact k3, ?_⟩
  rw [k2, b.noEmpty_iff, and_assoc]
  refine and_congr_right fun _ => ?_
  simp only [b.has_iff]
  constructor
  · intro h
    exact ⟨fun y hy => (h y hy).1, by rintro w ⟨y, hy, hw⟩; exact (h y hy).2 w hw⟩
  · rintro ⟨g1, g2⟩ y hy
    exact ⟨g1 y hy, fun w hw => g2 w ⟨y, hy, hw⟩⟩

end Tg.S
