import Verif.Spec.MarginShape
import Verif.Lemmas.MarginSeg
import Verif.Lemmas.SharedPlain
import Verif.Lemmas.PointRel
import Verif.Props.Shared
/-! Point tests and lines for coordinates that are any doubles of usual size. -/
set_option linter.unusedSectionVars false
namespace Tg.S

open Tg.Spec.Double Tg.Double

theorem usual_plain {M x : ℚ} (hM : M ≤ 2 ^ 100) (h : Usual M x) : Plain x := by
  refine ⟨h.1, h.2.1.imp_right fun h1 => ⟨?_, h.2.2.trans (hM.trans ?_)⟩⟩
  · refine le_trans ?_ h1
    rw [one_div, ← zpow_natCast, ← zpow_neg]
    exact zpow_le_zpow_right₀ (by norm_num) (by norm_num)
  · rw [← zpow_natCast]
    exact zpow_le_zpow_right₀ (by norm_num) (by norm_num)

variable {F : Fp} (hF : F.Ok) {M : ℚ} (hM : M ≤ 2 ^ 100)
include hF hM

theorem col_far (ε : ℚ) (ns : List (Pt ℚ) → Nat) {s : Seg ℚ} {p : Pt ℚ} (hs : UsualSeg M s) (hp : UsualPt M p) (hb : InBox s p) (hc : Clear M s p) :
    collinear F.arith s.a s.b p = collinear (exact ε ns) s.a s.b p := by
  obtain ⟨a, b⟩ := s
  obtain ⟨ha, hb'⟩ := hs
  dsimp only at *
  by_cases hx : a.x = b.x
  · unfold collinear
    rw [if_pos ((feq_iff _ _).2 hx), if_pos ((feq_iff _ _).2 hx)]
  by_cases hy : a.y = b.y
  · unfold collinear
    rw [if_neg (mt (feq_iff _ _).1 hx), if_neg (mt (feq_iff _ _).1 hx), if_pos ((feq_iff _ _).2 hy), if_pos ((feq_iff _ _).2 hy)]
  by_cases hpa : p = a
  · subst hpa
    unfold collinear
    rw [if_neg (mt (feq_iff _ _).1 hx), if_neg (mt (feq_iff _ _).1 hx), if_neg (mt (feq_iff _ _).1 hy), if_neg (mt (feq_iff _ _).1 hy)]
    simp [(feq_iff _ _).2 (rfl : p.x = p.x), (feq_iff _ _).2 (rfl : p.y = p.y)]
  by_cases hpb : p = b
  · subst hpb
    unfold collinear
    rw [if_neg (mt (feq_iff _ _).1 hx), if_neg (mt (feq_iff _ _).1 hx), if_neg (mt (feq_iff _ _).1 hy), if_neg (mt (feq_iff _ _).1 hy)]
    simp [(feq_iff _ _).2 (rfl : p.x = p.x), (feq_iff _ _).2 (rfl : p.y = p.y)]
  have far : Far a b p := by
    rcases hc with h | h | h | h | h | h
    · exact h.far ha hp
    · exact absurd h hpa
    · exact absurd h hpb
    · exact absurd h hx
    · exact absurd h hy
    · exact absurd hb h.1
  have hne : a ≠ b := by rintro rfl; exact hx rfl
  have h1 : collinear (exact ε ns) a b p = false := by
    rw [← Bool.not_eq_true]
    exact fun h => far.ne ((exactCollinear_iff (ε := ε) hne).1 h)
  have h2 : collinear F.arith a b p = false := by
    unfold collinear
    rw [if_neg (mt (feq_iff _ _).1 hx), if_neg (mt (feq_iff _ _).1 hy), if_neg]
    · exact cross0_far hF hM ha hb' hp (Ne.symm hx) (Ne.symm hy) far
    · simp only [Bool.or_eq_true, Bool.and_eq_true, feq_iff, not_or, not_and]
      exact ⟨⟨fun h => absurd h hx, fun h h' => hpa (Pt.ext h.symm h'.symm)⟩, fun h h' => hpb (Pt.ext h.symm h'.symm)⟩
  rw [h1, h2]

theorem seg_covers_pt_far {s : Seg ℚ} {p : Pt ℚ} (hs : UsualSeg M s) (hp : UsualPt M p) (hc : Clear M s p) : segCoversPt F.arith s p = true ↔ OnSeg s p := by
  rw [← segCoversPt_iff (ε := 1) (ns := fun _ => 0)]
  unfold segCoversPt
  cases h : s.rect.coversPt p with
  | false => rfl
  | true =>
    have hb : InBox s p := by
      rw [coversPt_iff] at h
      obtain ⟨h1, h2, h3, h4⟩ := h
      exact ⟨min_le_iff.1 h1, le_max_iff.1 h2, min_le_iff.1 h3, le_max_iff.1 h4⟩
    simp only [Bool.not_true, Bool.false_eq_true, if_false]
    rw [col_far hF hM 1 (fun _ => 0) hs hp hb hc]

theorem seg_meet_far {s t : Seg ℚ} (hs : UsualSeg M s) (ht : UsualSeg M t) (h : Apart M s t) : segIntersects F.arith s t = true ↔ Share s t := by
  rcases h with ⟨o1, o2, o3, o4⟩ | h | h
  · rw [← C27_intersects (ε := 1) (ns := fun _ => 0)]
    unfold segIntersects
    rw [show F.arith.segX s t = (exact 1 fun _ => 0).segX s t from segX_far hF hM 1 hs ht o1 o2 o3 o4]
  · have h1 := (C71_segment F.arith s).2.2.2.2.2 t (by rcases h with h | h | h | h <;> simp [h])
    refine iff_of_true h1.1 ?_
    rw [← C27_intersects (ε := 1) (ns := fun _ => 0)]
    exact ((C71_segment (exact 1 fun _ => 0) s).2.2.2.2.2 t (by rcases h with h | h | h | h <;> simp [h])).1
  · have hbox : ∀ (s : Seg ℚ) p, s.rect.Has p → InBox s p := fun s p h1 =>
      ⟨min_le_iff.1 h1.1, le_max_iff.1 h1.2.1, min_le_iff.1 h1.2.2.1, le_max_iff.1 h1.2.2.2⟩
    have hf : s.rect.intersects t.rect = false := by
      rw [← Bool.not_eq_true, C20_intersects s.rect t.rect ⟨min_le_max, min_le_max⟩ ⟨min_le_max, min_le_max⟩]
      rintro ⟨p, h2, h3⟩
      exact h p ⟨hbox s p h2, hbox t p h3⟩
    unfold segIntersects
    rw [hf]
    refine iff_of_false (by simp) ?_
    rintro ⟨p, h2, h3⟩
    exact h p ⟨hbox s p (onSeg_rect h2), hbox t p (onSeg_rect h3)⟩

omit hF hM in
theorem pipAll_same {A B : Arith ℚ} {p : Pt ℚ} (edge : Bool) : ∀ (l : List (Seg ℚ × Nat)) (st : Pip), (∀ x ∈ l, raycast A x.1 p = raycast B x.1 p) →
    pipAll A p edge l st = pipAll B p edge l st
  | [], st, _ => rfl
  | (s, i) :: l, st, h => by
    rw [pipAll, pipAll, pipSlow, pipSlow, h (s, i) (by simp), pipAll_same edge l _ fun x hx => h x (List.mem_cons_of_mem _ hx)]

theorem usual_seg {pts : List (Pt ℚ)} {closed : Bool} (hu : ∀ q ∈ pts, UsualPt M q) {t : Seg ℚ} (ht : t ∈ segments pts closed) : UsualSeg M t :=
  ⟨hu _ (seg_mem_pts ht).1, hu _ (seg_mem_pts ht).2⟩

variable {f : Ix ℚ ℚ} (hf : f.Lawful) (hn : ∀ pts, F.ns pts < 2 ^ 31)
include hf hn

/-- The point test of a ring, with any index, and whether it tells a segment that the point is on. -/
theorem ring_far_at {s : Series ℚ} (he : s.e.Ok) {p : Pt ℚ} (hp : UsualPt M p) (hc : RingClear M s p) {r : Ring ℚ ℚ}
    (hr : newIx f F.arith s.e s.pts true s.ix = some r) (edge : Bool) :
    ∃ b idx, ringContainsPoint f F.arith r p edge = some (b, idx) ∧ (b = true ↔ if edge then InRegion s.segs p else Inside s.segs p) ∧
      (idx = none ↔ ¬ OnBoundary s.segs p) := by
  have h3 := hc.closed.1
  obtain ⟨a1, -, a3, a4⟩ := newIx_some hf he hr
  have hpl : ∀ q ∈ s.pts, Plain q.x ∧ Plain q.y := fun q hq => ⟨usual_plain hM (hc.usual q hq).1, usual_plain hM (hc.usual q hq).2⟩
  -- the exact ring without an index
  have he0 : Env.initial.Ok := ⟨by decide, by decide⟩
  have hk : (kindsOf Env.initial s.pts.length true 1#32).2 = false := by
    rw [kindsOf, show (extractSpread Env.initial 1#32).1.toNat = 1 from by decide]
    unfold indexKinds
    by_cases h : s.pts.length ≥ spreadOf Env.initial 1#32 * 2
    · rw [if_pos h]; decide
    · rw [if_neg h]
  obtain ⟨e1, p1, h1⟩ := pipAt_of (K := ℚ) he0 (fun _ => 0) h3 1#32 p
  obtain ⟨e2, p2, h2⟩ := exists_small_all p (segments s.pts true)
  obtain ⟨ε, ε0, ε1, ε2⟩ : ∃ ε : ℚ, 0 < ε ∧ ε ≤ e1 ∧ ε ≤ e2 := ⟨min e1 e2, lt_min p1 p2, min_le_left _ _, min_le_right _ _⟩
  obtain ⟨t, ht⟩ := C24_built Ix.exact_lawful (exact ε fun _ => 0) he0 s.pts true 1#32 fun h => by rw [hk] at h; cases h
  obtain ⟨b1, -, b3, -⟩ := newIx_some Ix.exact_lawful he0 ht
  have hty : t.ystripes = none := by
    rw [hk] at b3
    cases h : t.ystripes with
    | none => rfl
    | some st => rw [h] at b3; simp at b3
  have hrect : r.rect = t.rect := by
    have g1 := a1.rect_least (by omega) _ (b1.rect_has (by omega))
    have g2 := b1.rect_least (by omega) _ (a1.rect_has (by omega))
    exact Rect.ext_of_le g1 g2
  have hseg : (segments s.pts true).length < s.pts.length := by
    unfold segments
    rw [if_neg (by simp), if_neg (by omega), if_pos hc.closed.2, edges_length]
    omega
  have htop : TopOk t (segments s.pts true) p := fun h => absurd hty h
  obtain ⟨b, idx, k1, k2, k3, -⟩ := h1 ε ε0 ε1 t ht (.inl hseg) htop edge
  refine ⟨b, idx, ?_, k2, k3⟩
  rw [← k1, pip_eq he0 h3 ht (.inl hseg) p edge htop, ← hrect]
  have hall : pipAll F.arith p edge (segments s.pts true).zipIdx (false, none) = pipAll (exact ε fun _ => 0) p edge (segments s.pts true).zipIdx (false, none) := by
    refine pipAll_same edge _ _ fun x hx => ?_
    have hx := List.mem_of_getElem? (Ag.mem_zipIdx_segs hx)
    exact ray_far hF hM ε0 _ (usual_seg hF hM hc.usual hx) hp (h2 ε ε2 _ hx) (hc.clear _ hx)
  rw [← hall]
  cases hcov : r.rect.coversPt p with
  | false =>
    unfold ringContainsPoint
    rw [hcov]
    rfl
  | true =>
    have key : ∀ st, r.ystripes = some st → StripesOk F.arith (segments s.pts true) r.rect st ∧ OffTop F.arith r.rect st.length (segments s.pts true) p := by
      intro st hst
      have hy : r.ystripes ≠ none := by rw [hst]; simp
      obtain ⟨hE, p1, p2⟩ := Sh.ends_of hF hf h3 hpl he hr hy
      have hsegs : ∀ x ∈ segments s.pts true, r.rect.Has x.a ∧ r.rect.Has x.b := fun x hx =>
        ⟨a1.rect_has (by omega) _ (seg_mem_pts hx).1, a1.rect_has (by omega) _ (seg_mem_pts hx).2⟩
      obtain ⟨st', q1, q2, q3⟩ := processStripes_ok (segs := segments s.pts true) (Sh.stripes_lt hn s.pts).1 (Sh.stripe_law hF hE (Sh.stripes_lt hn _).2) hsegs
      rw [a4 st hst] at q1
      cases q1
      refine ⟨q2, ?_⟩
      rw [q3]
      obtain ⟨hi, hi1, lo, lo1, hb, htp⟩ := hc.top
      obtain ⟨-, -, ⟨p3, c3, d3⟩, ⟨p4, c4, d4⟩⟩ := Sh.sides a1 (by omega)
      have l1 : lo.y = r.rect.lo.y := le_antisymm (d3 ▸ (hb p3 c3).1) (a1.rect_has (by omega) lo lo1).2.2.1
      have l2 : hi.y = r.rect.hi.y := le_antisymm (a1.rect_has (by omega) hi hi1).2.2.2 (d4 ▸ (hb p4 c4).2)
      rw [l1, l2] at htp
      have hcov := (coversPt_iff _ _).1 hcov
      have gap := Sh.plain_gap p1 p2 hE.lt
      rcases htp with h | h | h
      · exact absurd hcov.2.2.2 (not_le.2 h)
      · exact .inl fun k hk => Sh.stripe_below hF hE gap (Sh.stripes_lt hn _).1 (Sh.stripes_lt hn _).2 hcov.2.2.1 h hk
      · exact .inr fun x hx k hk => Sh.stripe_below hF hE gap (Sh.stripes_lt hn _).1 (Sh.stripes_lt hn _).2
          (le_min (hsegs x hx).1.2.2.1 (hsegs x hx).2.2.2.1) (h x hx) hk
    rw [ringContainsPoint_eq hf a1 (by omega) (fun st h => (key st h).1) (.inl (Sh.closed_leaves hc.closed)) p edge fun st h => (key st h).2, hcov]

/-- The point test of a ring, with any index. -/
theorem ring_far {s : Series ℚ} (he : s.e.Ok) {p : Pt ℚ} (hp : UsualPt M p) (hc : RingClear M s p) {r : Ring ℚ ℚ}
    (hr : newIx f F.arith s.e s.pts true s.ix = some r) (edge : Bool) :
    ∃ b idx, ringContainsPoint f F.arith r p edge = some (b, idx) ∧ (b = true ↔ if edge then InRegion s.segs p else Inside s.segs p) := by
  obtain ⟨b, idx, k1, k2, -⟩ := ring_far_at hF hM hf hn he hp hc hr edge
  exact ⟨b, idx, k1, k2⟩

omit hn in
/-- A line covers exactly its points. -/
theorem line_pt_far {s : Series ℚ} (he : s.e.Ok) {p : Pt ℚ} (hp : UsualPt M p) (hu : ∀ q ∈ s.pts, UsualPt M q) (hc : ∀ t ∈ edges s.pts, Clear M t p)
    {l : Ring ℚ ℚ} (h : newIx f F.arith s.e s.pts false s.ix = some l) :
    ∃ r, lineCoversPt f F.arith l p = some r ∧ (r = true ↔ ∃ t ∈ edges s.pts, OnSeg t p) := by
  classical
  have hlen : (segments s.pts false).length < s.pts.length ∨ s.pts.length % spreadOf s.e s.ix = 0 ∨ l.index = none := by
    rcases Ag.leaves_open s.pts (spreadOf s.e s.ix) with h | h
    exacts [.inl h, .inr (.inl h)]
  have hsegs : segments s.pts false = edges s.pts := by rw [segments]; simp
  have hq : (p.rect : Rect ℚ).Valid := ⟨le_rfl, le_rfl⟩
  have hs := C22_search_partial hf he h hlen p.rect hq (coversPtIter F.arith p) false
  refine ⟨_, hs, ?_⟩
  have hv : visit (fun x : Seg ℚ × Nat => coversPtIter F.arith p x.1 x.2) ((segments s.pts false).zipIdx.filter fun x => decide (Meets p.rect x.1)) false
      = ((segments s.pts false).zipIdx.filter fun x => decide (Meets p.rect x.1)).any fun x => segCoversPt F.arith x.1 p :=
    visit_any (fun x : Seg ℚ × Nat => segCoversPt F.arith x.1 p) _
  have hcov : ∀ t ∈ edges s.pts, segCoversPt F.arith t p = true ↔ OnSeg t p := fun t ht =>
    seg_covers_pt_far hF hM (usual_seg hF hM hu (closed := false) (by rw [hsegs]; exact ht)) hp (hc t ht)
  rw [hv, List.any_eq_true, hsegs]
  constructor
  · rintro ⟨⟨t, i⟩, h1, h2⟩
    rw [List.mem_filter, List.mem_zipIdx_iff_getElem?] at h1
    have ht := List.mem_of_getElem? h1.1
    exact ⟨t, ht, (hcov t ht).1 h2⟩
  · rintro ⟨t, h1, h2⟩
    obtain ⟨i, hi⟩ := List.getElem?_of_mem h1
    refine ⟨(t, i), ?_, (hcov t h1).2 h2⟩
    rw [List.mem_filter, List.mem_zipIdx_iff_getElem?]
    refine ⟨hi, decide_eq_true ⟨p, ⟨le_rfl, le_rfl, le_rfl, le_rfl⟩, ?_⟩⟩
    have h1 := onSeg_rect h2
    exact ⟨min_le_iff.1 h1.1, le_max_iff.1 h1.2.1, min_le_iff.1 h1.2.2.1, le_max_iff.1 h1.2.2.2⟩

omit hF hM hn in
theorem line_ends_by {e : Env} (he : e.Ok) {pts : List (Pt ℚ)} {ix : BitVec 32} {l : Ring ℚ ℚ} (h : newIx f F.arith e pts false ix = some l)
    (h2 : 2 ≤ pts.length) : ∃ s0 sN, segAt l.points 0 = some s0 ∧ segAt l.points (l.nsegs - 1) = some sN ∧ pts.head? = some s0.a ∧
      pts.getLast? = some sN.b := by
  obtain ⟨t, ht⟩ := C24_built Ix.exact_lawful (exact (1 : ℚ) fun _ => 0) he pts false ix fun h => absurd (indexKinds_closed h) (by simp)
  have a := (newIx_some hf he h).1
  have b := (newIx_some Ix.exact_lawful he ht).1
  rw [a.points_eq, ← b.points_eq, a.nsegs_eq, ← b.nsegs_eq]
  exact line_ends he ht h2

variable {R : RArith ℚ} {fuel : Nat}

/-- A polygon has exactly the points of its closed region, or of its interior. -/
theorem poly_far {ext : Series ℚ} {holes : List (Series ℚ)} {q : PolyS ℚ ℚ} (hq : PolyBy (F.maker f) ext holes q) {p : Pt ℚ} (hp : UsualPt M p)
    (hc : ∀ s ∈ ext :: holes, RingClear M s p) (edge : Bool) :
    ∃ b, polyHasPt ⟨f, F.arith, R, fuel⟩ q p edge = some b ∧
      (b = true ↔ if edge then AShape.Has (.poly ext holes) p else AShape.Inner (.poly ext holes) p) := by
  have hhit : ∀ s ∈ ext :: holes, ∀ r, FBy (F.maker f) s r → ∀ edge, ∃ b, hit ⟨f, F.arith, R, fuel⟩ r p edge = some b ∧
      (b = true ↔ if edge then InRegion s.segs p else Inside s.segs p) := by
    intro s hm r hr edge
    obtain ⟨b, idx, k1, k2⟩ := ring_far hF hM hf hn hr.ok hp (hc s hm) hr.made edge
    exact ⟨b, by rw [hit, k1]; rfl, k2⟩
  have hext := hhit ext (by simp)
  cases q with
  | ring r =>
    obtain ⟨rfl, hr⟩ := hq
    obtain ⟨b, h1, h2⟩ := hext r hr edge
    exact ⟨b, h1, by rw [h2]; simp [AShape.Has, AShape.Inner]⟩
  | poly e hs' =>
    obtain ⟨he, hh⟩ := hq
    obtain ⟨b, h1, h2⟩ := hext e he edge
    obtain ⟨c, h3, h4⟩ := anyOf_forall2 (t := fun h => hit ⟨f, F.arith, R, fuel⟩ h p (!edge)) (Q := fun s => if edge then Inside s.segs p else InRegion s.segs p) hh
      fun s hm r hr => by
        obtain ⟨b, k1, k2⟩ := hhit s (by simp [hm]) r hr (!edge)
        exact ⟨b, k1, by rw [k2]; cases edge <;> simp⟩
    obtain ⟨a1, -⟩ := newIx_some hf he.ok he.made
    rw [polyHasPt]
    have hl := (hc ext (by simp)).closed.1
    have hemp : ringEmpty e.ring = false := by
      rw [ring_not_empty a1]
      simp [show ¬ ext.pts.length < 3 by omega, show ¬ ext.pts.length < 2 by omega]
    rw [hemp, h1, h3]
    simp only [Bool.false_eq_true, if_false]
    refine ⟨b && !c, by cases b <;> rfl, ?_⟩
    rw [Bool.and_eq_true, h2, Bool.not_eq_true', ← Bool.not_eq_true, h4]
    cases edge <;> simp [AShape.Has, AShape.Inner]

theorem atom_covers_far {x : AShape ℚ} {a : Atom ℚ ℚ} (hx : x.By (F.maker f) a) {p : Pt ℚ} (hp : UsualPt M p) (hc : x.ClearOf M p) :
    ∃ r, atomCovers ⟨f, F.arith, R, fuel⟩ a (.point p) = some r ∧ (r = true ↔ x.Has p) := by
  match x, a, hx, hc with
  | .point q, .point q', hx, _ =>
    rw [show q' = q from hx]
    refine ⟨pteq q p, rfl, ?_⟩
    rw [pteq_iff]
    exact eq_comm
  | .line s, .line l, hx, hc => exact line_pt_far hF hM hf hx.1 hp hc.1 hc.2 hx.2
  | .poly ext holes, .poly q, hx, hc => exact poly_far hF hM hf hn hx hp hc true

theorem atom_meets_far {x : AShape ℚ} {a : Atom ℚ ℚ} (hx : x.By (F.maker f) a) {p : Pt ℚ} (hp : UsualPt M p) (hc : x.ClearOf M p) :
    ∃ r, atomX ⟨f, F.arith, R, fuel⟩ (.point p) a = some r ∧ (r = true ↔ x.Has p) := by
  match x, a, hx, hc with
  | .point q, .point q', hx, _ =>
    rw [show q' = q from hx]
    refine ⟨pteq p q, rfl, ?_⟩
    rw [pteq_iff]
    rfl
  | .line s, .line l, hx, hc => exact line_pt_far hF hM hf hx.1 hp hc.1 hc.2 hx.2
  | .poly ext holes, .poly q, hx, hc => exact poly_far hF hM hf hn hx hp hc true

theorem atom_contains_far {x : AShape ℚ} {a : Atom ℚ ℚ} (hx : x.By (F.maker f) a) {p : Pt ℚ} (hp : UsualPt M p) (hc : x.ClearOf M p) :
    ∃ r, atomContains ⟨f, F.arith, R, fuel⟩ a (.point p) = some r ∧ (r = true ↔ x.Inner p) := by
  match x, a, hx, hc with
  | .point q, .point q', hx, _ =>
    rw [show q' = q from hx]
    refine ⟨pteq q p, rfl, ?_⟩
    rw [pteq_iff]
    exact eq_comm
  | .line s, .line l, hx, hc =>
    obtain ⟨r, h1, h2⟩ := line_pt_far hF hM hf hx.1 hp hc.1 hc.2 hx.2
    rw [atomContains, lineContainsPt, h1]
    cases r with
    | false => exact ⟨false, rfl, iff_of_false (by simp) fun h => by cases h2.2 h.1⟩
    | true =>
      have hon := h2.1 rfl
      have h2' : 2 ≤ s.pts.length := by
        obtain ⟨t, ht, -⟩ := hon
        match hsp : s.pts with
        | [] => rw [hsp] at ht; simp [edges] at ht
        | [_] => rw [hsp] at ht; simp [edges] at ht
        | _ :: _ :: _ => simp
      obtain ⟨s0, sN, k1, k2, k3, k4⟩ := line_ends_by hf hx.1 hx.2 h2'
      simp only [k1, k2]
      refine ⟨_, rfl, ?_⟩
      rw [Bool.not_eq_true', ← Bool.not_eq_true, Bool.or_eq_true, pteq_iff, pteq_iff, AShape.Inner, k3, k4]
      simp only [ne_eq, Option.some.injEq, not_or]
      exact ⟨fun h => ⟨hon, fun e => h.1 e.symm, fun e => h.2 e.symm⟩, fun h => ⟨fun e => h.2.1 e.symm, fun e => h.2.2 e.symm⟩⟩
  | .poly ext holes, .poly q, hx, hc => exact poly_far hF hM hf hn hx hp hc false

end Tg.S
