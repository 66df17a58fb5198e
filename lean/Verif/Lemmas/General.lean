import Verif.Spec.General
import Verif.Lemmas.PointRel
/-! If no vertex of one geometry is on a segment of the other, it does not matter whether the functions allow edges. -/
set_option linter.unusedSectionVars false
namespace Tg.S

variable {K : Type*} [Field K] [LinearOrder K] [IsStrictOrderedRing K] [FloorRing K] {ε : K} {ns : List (Pt K) → Nat}

/-! ### Segments -/

theorem param_of_cross {s : Seg K} {p : Pt K} (h : s.a ≠ s.b) (hc : (p.x - s.a.x) * (s.b.y - s.a.y) = (p.y - s.a.y) * (s.b.x - s.a.x)) :
    ∃ α, p.x = s.a.x + α * (s.b.x - s.a.x) ∧ p.y = s.a.y + α * (s.b.y - s.a.y) := by
  by_cases hx : s.a.x = s.b.x
  · have hy : s.b.y - s.a.y ≠ 0 := fun h0 => h (Pt.ext hx (sub_eq_zero.1 h0).symm)
    rw [hx, sub_self, mul_zero, mul_eq_zero, or_iff_left hy] at hc
    refine ⟨(p.y - s.a.y) / (s.b.y - s.a.y), ?_, by field_simp; ring⟩
    rw [hx]
    linear_combination hc
  · have hx' : s.b.x - s.a.x ≠ 0 := sub_ne_zero.2 (Ne.symm hx)
    refine ⟨(p.x - s.a.x) / (s.b.x - s.a.x), by field_simp; ring, ?_⟩
    field_simp
    linear_combination -hc

/-- Segments that share a point, but no end of one is on the other, are not in line. -/
theorem share_cross {s t : Seg K} (h : Share s t) (h1 : ¬ OnSeg t s.a) (h3 : ¬ OnSeg s t.a) (h4 : ¬ OnSeg s t.b) :
    ¬ ((t.a.x - s.a.x) * (s.b.y - s.a.y) = (t.a.y - s.a.y) * (s.b.x - s.a.x) ∧
      (t.b.x - s.a.x) * (s.b.y - s.a.y) = (t.b.y - s.a.y) * (s.b.x - s.a.x)) := by
  rintro ⟨c1, c2⟩
  obtain ⟨w, w1, w2⟩ := h
  have hne : s.a ≠ s.b := by
    intro he
    obtain ⟨sa, sb⟩ := s
    simp only at he
    subst he
    rw [onSeg_same w1] at w2
    exact h1 w2
  obtain ⟨α, ax, ay⟩ := param_of_cross hne c1
  obtain ⟨β, bx, bY⟩ := param_of_cross hne c2
  obtain ⟨γ, g0, g1, gx, gy⟩ := w1
  obtain ⟨δ, d0, d1, dx, dy⟩ := w2
  have na : ¬ (0 ≤ α ∧ α ≤ 1) := fun h => h3 ⟨α, h.1, h.2, ax, ay⟩
  have nb : ¬ (0 ≤ β ∧ β ≤ 1) := fun h => h4 ⟨β, h.1, h.2, bx, bY⟩
  -- the parameter of the shared point
  have hg : γ = α + δ * (β - α) := by
    by_cases hx : s.b.x - s.a.x = 0
    · have hy : s.b.y - s.a.y ≠ 0 := fun h0 => hne (Pt.ext (sub_eq_zero.1 hx).symm (sub_eq_zero.1 h0).symm)
      have : γ * (s.b.y - s.a.y) = (α + δ * (β - α)) * (s.b.y - s.a.y) := by
        rw [gy, ay, bY] at dy
        linear_combination dy
      exact mul_right_cancel₀ hy this
    · have : γ * (s.b.x - s.a.x) = (α + δ * (β - α)) * (s.b.x - s.a.x) := by
        rw [gx, ax, bx] at dx
        linear_combination dx
      exact mul_right_cancel₀ hx this
  have opp : (α < 0 ∧ 1 < β) ∨ (β < 0 ∧ 1 < α) := by
    rcases lt_or_ge α 0 with ha | ha
    · rcases lt_or_ge β 0 with hb | hb
      · exfalso
        have : γ = (1 - δ) * α + δ * β := by rw [hg]; ring
        have k1 : (1 - δ) * α ≤ 0 := mul_nonpos_of_nonneg_of_nonpos (by linarith) ha.le
        have k2 : δ * β ≤ 0 := mul_nonpos_of_nonneg_of_nonpos d0 hb.le
        rcases eq_or_lt_of_le d0 with h | h
        · rw [← h] at this; linarith
        · linarith [mul_neg_of_pos_of_neg h hb]
      · exact .inl ⟨ha, by by_contra hn; exact nb ⟨hb, not_lt.1 hn⟩⟩
    · have ha' : 1 < α := by by_contra hn; exact na ⟨ha, not_lt.1 hn⟩
      rcases lt_or_ge β 0 with hb | hb
      · exact .inr ⟨hb, ha'⟩
      · have hb' : 1 < β := by by_contra hn; exact nb ⟨hb, not_lt.1 hn⟩
        exfalso
        have : γ - 1 = (1 - δ) * (α - 1) + δ * (β - 1) := by rw [hg]; ring
        have k1 : 0 ≤ (1 - δ) * (α - 1) := mul_nonneg (by linarith) (by linarith)
        rcases eq_or_lt_of_le d0 with h | h
        · rw [← h] at this; linarith
        · linarith [mul_pos h (sub_pos.2 hb')]
  have hd : β - α ≠ 0 := by rcases opp with h | h <;> intro h0 <;> linarith [h.1, h.2]
  refine h1 ⟨-α / (β - α), ?_, ?_, ?_, ?_⟩
  · rcases opp with h | h
    · exact div_nonneg (by linarith [h.1]) (by linarith [h.1, h.2])
    · exact div_nonneg_of_nonpos (by linarith [h.2]) (by linarith [h.1, h.2])
  · rcases opp with h | h
    · exact (div_le_one (by linarith [h.1, h.2])).2 (by linarith [h.2])
    · exact (div_le_one_of_neg (by linarith [h.1, h.2])).2 (by linarith [h.1])
  · rw [ax, bx]; field_simp; ring
  · rw [ay, bY]; field_simp; ring

/-- No end of one of the segments is on the other. -/
def SegGen (s t : Seg K) : Prop := ¬ OnSeg t s.a ∧ ¬ OnSeg t s.b ∧ ¬ OnSeg s t.a ∧ ¬ OnSeg s t.b

theorem interIter_eq {seg t : Seg K} (h : SegGen seg t) (i : Nat) (st : InterSt) :
    interIter (exact ε ns) seg false t i st = interIter (exact ε ns) seg true t i st := by
  obtain ⟨h1, h2, h3, h4⟩ := h
  unfold interIter
  by_cases hx : segIntersects (exact ε ns) seg t = true
  · have hsh := (C27_intersects seg t).1 hx
    have hne : seg.a ≠ seg.b := by
      intro he
      obtain ⟨w, w1, w2⟩ := hsh
      obtain ⟨sa, sb⟩ := seg
      simp only at he
      subst he
      rw [onSeg_same w1] at w2
      exact h1 w2
    have hcol : (collinear (exact ε ns) seg.a seg.b t.a && collinear (exact ε ns) seg.a seg.b t.b) = false := by
      rw [Bool.eq_false_iff, ne_eq, Bool.and_eq_true, exact_collinear, exact_collinear, exactCollinear_iff hne, exactCollinear_iff hne]
      exact share_cross hsh h1 h3 h4
    have pa : (pteq seg.a t.a || pteq seg.a t.b) = false := by
      rw [Bool.eq_false_iff, ne_eq, Bool.or_eq_true, pteq_iff, pteq_iff]
      rintro (h | h)
      · exact h1 (h ▸ onSeg_left t)
      · exact h1 (h ▸ onSeg_right t)
    have pb : (pteq seg.b t.a || pteq seg.b t.b) = false := by
      rw [Bool.eq_false_iff, ne_eq, Bool.or_eq_true, pteq_iff, pteq_iff]
      rintro (h | h)
      · exact h2 (h ▸ onSeg_left t)
      · exact h2 (h ▸ onSeg_right t)
    simp only [hx, hcol, pa, pb, Bool.not_true, Bool.false_eq_true, if_false, if_true, Bool.and_false]
  · simp only [Bool.not_eq_true] at hx
    simp only [hx, Bool.not_false, if_true]

theorem visit_congr {γ σ : Type*} {f g : γ → σ → σ × Bool} : ∀ {l : List γ}, (∀ x ∈ l, ∀ st, f x st = g x st) → ∀ st, visit f l st = visit g l st
  | [], _, st => rfl
  | x :: l, h, st => by
    rw [visit, visit, h x (by simp), visit_congr fun y hy => h y (by simp [hy])]

theorem anySeg_congr {points : List (Pt K)} {P R : Seg K → Option Bool} : ∀ {is : List Nat} {ss : List (Seg K)}, is.map (segAt points) = ss.map some →
    (∀ s ∈ ss, P s = R s) → anySeg points P is = anySeg points R is
  | [], _, _, _ => rfl
  | i :: is, [], h, _ => by simp at h
  | i :: is, s :: ss, h, hP => by
    simp only [List.map_cons, List.cons.injEq] at h
    rw [anySeg, anySeg, h.1]
    dsimp only
    rw [hP s (by simp), anySeg_congr h.2 fun t ht => hP t (by simp [ht])]

theorem allSeg_congr {points : List (Pt K)} {P R : Seg K → Option Bool} : ∀ {is : List Nat} {ss : List (Seg K)}, is.map (segAt points) = ss.map some →
    (∀ s ∈ ss, P s = R s) → allSeg points P is = allSeg points R is
  | [], _, _, _ => rfl
  | i :: is, [], h, _ => by simp at h
  | i :: is, s :: ss, h, hP => by
    simp only [List.map_cons, List.cons.injEq] at h
    rw [allSeg, allSeg, h.1]
    dsimp only
    rw [hP s (by simp), allSeg_congr h.2 fun t ht => hP t (by simp [ht])]

theorem allPts_congr {P R : Pt K → Option Bool} : ∀ {ps : List (Pt K)}, (∀ p ∈ ps, P p = R p) → allPts P ps = allPts R ps
  | [], _ => rfl
  | p :: ps, h => by
    rw [allPts, allPts, h p (by simp), allPts_congr fun q hq => h q (by simp [hq])]

/-! ### Rings -/

section
variable {s : Series K} {r : Ring K K} (hse : s.e.Ok) (hr : newIx Ix.exact (exact ε ns) s.e s.pts true s.ix = some r)
include hse hr

theorem hit_eq {ps : List (Pt K)} (hp : Sees ε ns s r ps) {p : Pt K} (h : p ∈ ps) (hn : ¬ OnBoundary s.segs p) :
    ∃ b, ringContainsPoint Ix.exact (exact ε ns) r p true = some (b, none) ∧ ringContainsPoint Ix.exact (exact ε ns) r p false = some (b, none) ∧
      (b = true ↔ Inside s.segs p) := by
  obtain ⟨b1, i1, e1, f1, g1, -⟩ := hp.pip p h true
  obtain ⟨b2, i2, e2, f2, g2, -⟩ := hp.pip p h false
  rw [if_pos rfl] at f1
  rw [if_neg (by simp)] at f2
  have : b1 = b2 := by
    rw [Bool.eq_iff_iff, f1, f2]
    exact ⟨fun h => by rcases h with h | h; exacts [absurd h hn, h], .inr⟩
  rw [g1.2 hn, this] at e1
  rw [g2.2 hn] at e2
  exact ⟨b2, e1, e2, f2⟩

theorem ringXSeg_eq {ps : List (Pt K)} (hp : Sees ε ns s r ps) {seg : Seg K} (ha : seg.a ∈ ps) (hb : seg.b ∈ ps)
    (hg : ∀ t ∈ s.segs, SegGen seg t) : ringXSeg Ix.exact (exact ε ns) r seg false = ringXSeg Ix.exact (exact ε ns) r seg true := by
  classical
  obtain ⟨b1, e1, e1', -⟩ := hit_eq hse hr hp ha (fun ⟨t, ht, h⟩ => (hg t ht).1 h)
  obtain ⟨b2, e2, e2', -⟩ := hit_eq hse hr hp hb (fun ⟨t, ht, h⟩ => (hg t ht).2.1 h)
  have hs := fun edge => C22_search_partial Ix.exact_lawful hse hr hp.search seg.rect seg.rect_valid (interIter (exact ε ns) seg edge) ⟨0, false, false⟩
  have hv := visit_congr (f := fun x : Seg K × Nat => interIter (exact ε ns) seg false x.1 x.2) (g := fun x => interIter (exact ε ns) seg true x.1 x.2)
    (l := (segments s.pts true).zipIdx.filter fun x => Meets seg.rect x.1) (fun x hx st =>
      interIter_eq (hg x.1 (List.fst_mem_of_mem_zipIdx (List.mem_filter.1 hx).1)) x.2 st) ⟨0, false, false⟩
  have hmap : ∀ edge, (ringSearch Ix.exact r seg.rect (interIter (exact ε ns) seg edge) ⟨0, false, false⟩).map (fun r => decide (r.1.count ≥ 2)) =
      ((ringSearch Ix.exact r seg.rect (interIter (exact ε ns) seg edge) ⟨0, false, false⟩).map (·.1)).map fun c => decide (c.count ≥ 2) := by
    intro edge
    rw [Option.map_map]
    rfl
  unfold ringXSeg
  rw [hmap, hmap, hs, hs, hv, e1, e1', e2, e2']

theorem ringHasSeg_eq {ps : List (Pt K)} (hp : Sees ε ns s r ps) {seg : Seg K} (ha : seg.a ∈ ps) (hb : seg.b ∈ ps)
    (hg : ∀ t ∈ s.segs, SegGen seg t) (R : RArith K) (cv cw : Bool) :
    ringHasSeg Ix.exact (exact ε ns) R cv cw r seg true = ringHasSeg Ix.exact (exact ε ns) R cv cw r seg false := by
  obtain ⟨b1, e1, e1', -⟩ := hit_eq hse hr hp ha (fun ⟨t, ht, h⟩ => (hg t ht).1 h)
  obtain ⟨b2, e2, e2', -⟩ := hit_eq hse hr hp hb (fun ⟨t, ht, h⟩ => (hg t ht).2.1 h)
  obtain ⟨c1, k1, k2⟩ := noneMeets_iff hse hr hp.search seg fun t => offSeg (exact ε ns) seg t.a && offSeg (exact ε ns) seg t.b
  obtain ⟨c2, k3, k4⟩ := noneMeets_iff hse hr hp.search seg fun _ => true
  have hc : c1 = c2 := by
    rw [Bool.eq_iff_iff, k2, k4]
    refine forall₂_congr fun t ht => ?_
    obtain ⟨-, -, g3, g4⟩ := hg t ht
    have : (offSeg (exact ε ns) seg t.a && offSeg (exact ε ns) seg t.b) = true := by
      rw [Bool.and_eq_true, ← Bool.not_eq_false, ← Bool.not_eq_false, offSeg_iff, offSeg_iff]
      exact ⟨g3, g4⟩
    rw [this]
  have hnm : containsEdge Ix.exact (exact ε ns) R cw r seg none none = noneMeets Ix.exact (exact ε ns) r seg fun _ => true := by
    rw [containsEdge, k1, k3, hc]
  unfold ringHasSeg
  rw [e1, e1', e2, e2']
  simp only [hnm, if_true, Bool.false_eq_true, if_false]

end

/-- All pairs of segments. -/
def SegsGen (es fs : List (Seg K)) : Prop := ∀ s ∈ es, ∀ t ∈ fs, SegGen s t

theorem SegsGen.symm {es fs : List (Seg K)} (h : SegsGen es fs) : SegsGen fs es := fun s hs t ht => by
  obtain ⟨h1, h2, h3, h4⟩ := h t ht s hs
  exact ⟨h3, h4, h1, h2⟩

section
variable {s : Series K} {r : FRing K K} (hr : FOk ε ns s r) {qts : List (Pt K)} {closed : Bool} {sp : Nat} {o : Ring K K}
  (ho : RingOk Ix.exact qts closed sp o) (hp : Sees ε ns s r.ring qts) (hg : SegsGen (segments qts closed) s.segs)
include hr ho hp hg

theorem anyXSeg_eq : anyXSeg Ix.exact (exact ε ns) r.ring o false = anyXSeg Ix.exact (exact ε ns) r.ring o true :=
  anySeg_congr (segAt_range ho) fun t ht => ringXSeg_eq hr.ok hr.made hp (seg_mem_pts ht).1 (seg_mem_pts ht).2 fun u hu => hg t ht u hu

theorem xLine_eq : ringXLine Ix.exact (exact ε ns) r.ring o false = ringXLine Ix.exact (exact ε ns) r.ring o true := by
  unfold ringXLine
  rw [anyXSeg_eq hr ho hp hg]

theorem allHas_eq (R : RArith K) (cv cw : Bool) :
    allSeg o.points (fun t => ringHasSeg Ix.exact (exact ε ns) R cv cw r.ring t true) (List.range o.nsegs) =
      allSeg o.points (fun t => ringHasSeg Ix.exact (exact ε ns) R cv cw r.ring t false) (List.range o.nsegs) :=
  allSeg_congr (segAt_range ho) fun t ht => ringHasSeg_eq hr.ok hr.made hp (seg_mem_pts ht).1 (seg_mem_pts ht).2 (fun u hu => hg t ht u hu) R cv cw

theorem hasLine_eq {P : Par K K} (hPf : P.f = Ix.exact) (hPA : P.A = exact ε ns) : hasLine P r o true false = hasLine P r o false false := by
  unfold hasLine ringHasLine
  rw [hPf, hPA, allHas_eq hr ho hp hg]
  simp

theorem hasLine_bd_eq {P : Par K K} (hPf : P.f = Ix.exact) (hPA : P.A = exact ε ns) (hf : FlagOk s) : hasLine P r o false true = hasLine P r o false false := by
  obtain ⟨a1, -⟩ := newIx_some Ix.exact_lawful hr.ok hr.made
  by_cases h3 : s.pts.length < 3
  · unfold hasLine ringHasLine
    rw [ring_not_empty a1]
    simp [h3]
  · unfold hasLine ringHasLine
    rw [hPf, hPA]
    simp only [Bool.not_false, Bool.and_true, if_true, Bool.and_false, Bool.false_eq_true, if_false]
    congr 2
    refine allSeg_congr (segAt_range ho) fun t ht => ?_
    obtain ⟨k1, k2⟩ := seg_mem_pts ht
    rw [ringHasSeg_eq hr.ok hr.made hp k1 k2 (fun u hu => hg t ht u hu), ringXSeg_eq hr.ok hr.made hp k1 k2 fun u hu => hg t ht u hu]
    obtain ⟨b, e1, e2⟩ := ringXSeg_iff hr.ok (by omega) hr.made hp.search (hp.pip _ k1) (hp.pip _ k2)
    obtain ⟨c, f1, f2⟩ : ∃ c, ringHasSeg Ix.exact (exact ε ns) P.R r.convex r.clockwise r.ring t false = some c ∧ (c = true → Inside s.segs t.a) := by
      cases hc : r.convex with
      | false =>
        obtain ⟨c, f1, f2⟩ := ringHasSeg_inside hr.ok (by omega) hr.made hp.search (hp.pip _ k1) (hp.pip _ k2) P.R r.clockwise
        exact ⟨c, f1, fun h => f2.1 h _ (onSeg_left t)⟩
      | true =>
        obtain ⟨c, f1, f2⟩ := ringHasSeg_convex hr.ok (by omega) hr.made (hp.pip _ k1) (hp.pip _ k2) P.R r.clockwise false
        exact ⟨c, f1, fun h => by
          have := f2.1 h
          rw [if_neg (by simp)] at this
          exact this.1⟩
    rw [f1, e1]
    cases c with
    | false => rfl
    | true => rw [e2.2 ⟨t.a, onSeg_left t, .inr (f2 rfl)⟩]

end

theorem hasRing_eq {s t : Series K} {r o : FRing K K} (hr : FOk ε ns s r) (ho : FOk ε ns t o) (hp : Sees ε ns s r.ring t.pts) (hg : SegsGen t.segs s.segs)
    (hv : ∀ q ∈ t.pts, ¬ OnBoundary s.segs q) {P : Par K K} (hPf : P.f = Ix.exact) (hPA : P.A = exact ε ns) : hasRing P r o true = hasRing P r o false := by
  obtain ⟨b1, -⟩ := newIx_some Ix.exact_lawful ho.ok ho.made
  unfold hasRing ringHasRing
  rw [hPf, hPA, allHas_eq hr b1 hp hg]
  rw [b1.points_eq, b1.npoints_eq, List.take_left, allPts_congr (R := fun p => (ringContainsPoint Ix.exact (exact ε ns) r.ring p false).map (·.1))]
  intro q hq
  obtain ⟨b, e1, e2, -⟩ := hit_eq hr.ok hr.made hp hq (hv q hq)
  rw [e1, e2]

theorem xRing_eq {s t : Series K} {r o : FRing K K} (hr : FOk ε ns s r) (ho : FOk ε ns t o) (hp : Sees ε ns s r.ring t.pts) (hq : Sees ε ns t o.ring s.pts)
    (hg : SegsGen t.segs s.segs) :
    ringXRing Ix.exact (exact ε ns) exactR r.ring o.ring false = ringXRing Ix.exact (exact ε ns) exactR r.ring o.ring true := by
  obtain ⟨a1, -⟩ := newIx_some Ix.exact_lawful hr.ok hr.made
  obtain ⟨b1, -⟩ := newIx_some Ix.exact_lawful ho.ok ho.made
  unfold ringXRing
  rw [anyXSeg_eq hr b1 hp hg, anyXSeg_eq ho a1 hq hg.symm]

/-! ### Polygons -/

/-- No vertex of one chain is on a segment of the other. -/
structure ChainGen (ps : List (Pt K)) (es : List (Seg K)) (qs : List (Pt K)) (fs : List (Seg K)) : Prop where
  left : ∀ p ∈ ps, ¬ OnBoundary fs p
  right : ∀ q ∈ qs, ¬ OnBoundary es q

theorem ChainGen.segs {ps qs : List (Pt K)} {c d : Bool} (h : ChainGen ps (segments ps c) qs (segments qs d)) : SegsGen (segments ps c) (segments qs d) :=
  fun s hs t ht => ⟨fun h' => h.left _ (seg_mem_pts hs).1 ⟨t, ht, h'⟩, fun h' => h.left _ (seg_mem_pts hs).2 ⟨t, ht, h'⟩,
    fun h' => h.right _ (seg_mem_pts ht).1 ⟨s, hs, h'⟩, fun h' => h.right _ (seg_mem_pts ht).2 ⟨s, hs, h'⟩⟩

theorem ChainGen.symm {ps qs : List (Pt K)} {es fs : List (Seg K)} (h : ChainGen ps es qs fs) : ChainGen qs fs ps es := ⟨h.right, h.left⟩

theorem edges_segments (qts : List (Pt K)) : segments qts false = edges qts := by rw [segments]; simp

theorem AShape.General.symm {x y : AShape K} (h : x.General y) : y.General x := ⟨h.2, h.1⟩

theorem general_ring {ext : Series K} {holes : List (Series K)} {y : AShape K} (h : AShape.General (.poly ext holes) y) {t : Series K} (ht : t ∈ ext :: holes) :
    ChainGen t.pts t.segs y.nodes y.sides :=
  ⟨fun p hp => h.1 p (List.mem_flatMap.2 ⟨t, ht, hp⟩), fun q hq ⟨s, hs, hh⟩ => h.2 q hq ⟨s, List.mem_flatMap.2 ⟨t, ht, hs⟩, hh⟩⟩

theorem general_rings {ea eb : Series K} {ha hb : List (Series K)} (h : AShape.General (.poly ea ha) (.poly eb hb)) {s t : Series K} (hs : s ∈ ea :: ha)
    (ht : t ∈ eb :: hb) : ChainGen s.pts s.segs t.pts t.segs :=
  ⟨fun p hp ⟨u, hu, hh⟩ => (general_ring h hs).left p hp ⟨u, List.mem_flatMap.2 ⟨t, ht, hu⟩, hh⟩,
    fun q hq => (general_ring h hs).right q (List.mem_flatMap.2 ⟨t, ht, hq⟩)⟩

theorem list_rect : ∀ l : List (Pt K), ∃ R : Rect K, ∀ v ∈ l, R.Has v
  | [] => ⟨⟨⟨0, 0⟩, ⟨0, 0⟩⟩, by simp⟩
  | p :: l => by
    obtain ⟨R, h⟩ := list_rect l
    refine ⟨⟨⟨min p.x R.lo.x, min p.y R.lo.y⟩, ⟨max p.x R.hi.x, max p.y R.hi.y⟩⟩, fun v hv => ?_⟩
    rcases List.mem_cons.1 hv with rfl | hv
    · exact ⟨min_le_left _ _, le_max_left _ _, min_le_left _ _, le_max_left _ _⟩
    · obtain ⟨h1, h2, h3, h4⟩ := h v hv
      exact ⟨(min_le_right _ _).trans h1, h2.trans (le_max_right _ _), (min_le_right _ _).trans h3, h4.trans (le_max_right _ _)⟩

theorem short_line {pts : List (Pt K)} (h : pts.length < 2) (w : Pt K) : ¬ OnBoundary (edges pts) w := by
  rintro ⟨t, ht, -⟩
  match pts, h with
  | [], _ => simp [edges] at ht
  | [_], _ => simp [edges] at ht

theorem line_has {pts : List (Pt K)} (h : 2 ≤ pts.length) : ∃ q ∈ pts, OnBoundary (edges pts) q := by
  match pts, h with
  | q :: t, h => exact ⟨q, by simp, edges_segments (q :: t) ▸ seg_of_pts h (by simp) q (by simp)⟩

section
variable {P : Par K K} (hPf : P.f = Ix.exact) (hPA : P.A = exact ε ns)
include hPf hPA

/-- A polygon covers a line: all of the line is in the interior. The same for `contains`. -/
theorem polyLine_gen {ext : Series K} {holes : List (Series K)} {q : PolyS K K} (hq : PolyIs ε ns ext holes q) (hfe : FlagOk ext) {s : Series K} (hse : s.e.Ok)
    {o : Ring K K} (ho : newIx Ix.exact (exact ε ns) s.e s.pts false s.ix = some o) (hs : RingsSee ε ns (ext :: holes) s.pts)
    (hg : AShape.General (.poly ext holes) (.line s)) :
    ∃ b, polyCoversLine P q o = some b ∧ polyContainsLine P q o = some b ∧ 
      (b = true ↔ (∃ w, AShape.Has (.line s) w) ∧ ∀ w, AShape.Has (.line s) w → AShape.Inner (.poly ext holes) w) := by
  have he := hq.ext
  obtain ⟨a1, -⟩ := newIx_some Ix.exact_lawful he.ok he.made
  obtain ⟨b1, -⟩ := newIx_some Ix.exact_lawful hse ho
  have hgen : ∀ t ∈ ext :: holes, SegsGen (segments s.pts false) t.segs := fun t ht =>
    ChainGen.segs (c := false) (d := true) (by rw [edges_segments]; exact (general_ring hg ht).symm)
  rw [polyCoversLine, polyContainsLine, polyEmpty]
  by_cases hdead : ext.pts.length < 3 ∨ s.pts.length < 2
  · have : (ringEmpty q.ext.ring || ringEmpty o) = true := by
      rw [ring_not_empty a1, ring_not_empty b1]
      rcases hdead with h | h <;> simp [h]
    rw [this]
    refine ⟨false, rfl, rfl, iff_of_false (by simp) ?_⟩
    rintro ⟨⟨w, w1⟩, w2⟩
    rcases hdead with h | h
    · exact not_region_short h w (.inr (w2 w w1).1)
    · exact short_line h w w1
  · rw [not_or, not_lt, not_lt] at hdead
    have : (ringEmpty q.ext.ring || ringEmpty o) = false := by
      rw [ring_not_empty a1, ring_not_empty b1]
      simp [show ¬ ext.pts.length < 3 by omega, show ¬ ext.pts.length < 2 by omega, show ¬ s.pts.length < 2 by omega]
    rw [this]
    simp only [Bool.false_eq_true, if_false]
    have hse' := hs ext (by simp) _ he.made
    rw [hasLine_eq he b1 hse' (hgen ext (by simp)) hPf hPA, hasLine_bd_eq he b1 hse' (hgen ext (by simp)) hPf hPA hfe]
    obtain ⟨b, h1, h2⟩ := hasLine_iff he hfe hse ho hdead.2 hse' P hPf hPA
    obtain ⟨c, h3, h4⟩ := anyOf_forall2 (t := fun h : FRing K K => ringXLine P.f P.A h.ring o false)
      (Q := fun h => ∃ w, OnBoundary (edges s.pts) w ∧ InRegion h.segs w) hq.holes fun h hm r hr => by
        have hsh := hs h (by simp [hm]) _ hr.made
        rw [hPf, hPA, xLine_eq hr b1 hsh (hgen h (by simp [hm]))]
        exact xLine_iff hr hse ho hsh
    rw [h1, h3]
    have hans : andM (some b) (notM (some c)) = some (b && !c) := by cases b <;> rfl
    rw [hans]
    refine ⟨_, rfl, rfl, ?_⟩
    rw [Bool.and_eq_true, h2, Bool.not_eq_true', ← Bool.not_eq_true, h4]
    simp only [AShape.Has, AShape.Inner]
    constructor
    · rintro ⟨k1, k2⟩
      obtain ⟨q, -, hq⟩ := line_has hdead.2
      exact ⟨⟨q, hq⟩, fun w hw => ⟨k1 w hw, fun h hm hr => k2 ⟨h, hm, w, hw, hr⟩⟩⟩
    · rintro ⟨-, k⟩
      exact ⟨fun w hw => (k w hw).1, fun ⟨h, hm, w, hw, hr⟩ => (k w hw).2 h hm hr⟩

omit hPf hPA in
theorem allOf_forall2 {γ δ : Type*} {t : δ → Option Bool} {R : γ → δ → Prop} {Q : γ → Prop} : ∀ {xs : List γ} {ys : List δ}, List.Forall₂ R xs ys →
    (∀ x ∈ xs, ∀ y, R x y → ∃ b, t y = some b ∧ (b = true ↔ Q x)) → ∃ b, allOf t ys = some b ∧ (b = true ↔ ∀ x ∈ xs, Q x)
  | [], [], _, _ => ⟨true, rfl, by simp⟩
  | x :: xs, y :: ys, .cons h hs, hq => by
    obtain ⟨b, h1, h2⟩ := hq x (by simp) y h
    obtain ⟨c, h3, h4⟩ := allOf_forall2 hs fun z hz => hq z (by simp [hz])
    rw [allOf, h1]
    cases b with
    | false => exact ⟨false, rfl, iff_of_false (by simp) fun hx => by cases h2.2 (hx x (by simp))⟩
    | true => exact ⟨c, h3, by rw [h4]; simp [h2.1 rfl]⟩

/-- A polygon covers a polygon: all of it is in the interior. -/
theorem polyPoly_gen (hPR : P.R = exactR) {ea eb : Series K} {ha hb : List (Series K)} {q r : PolyS K K}
    (hq : PolyIs ε ns ea ha q) (hr : PolyIs ε ns eb hb r) (okb : PolyOk eb hb) (hfe : FlagOk ea) (hee : Escapes (Inside ea.segs))
    (sa : RingsSee ε ns (ea :: ha) (AShape.nodes (.poly eb hb))) (sb : RingsSee ε ns (eb :: hb) (AShape.nodes (.poly ea ha)))
    (hg : AShape.General (.poly ea ha) (.poly eb hb)) :
    ∃ b, polyCoversPoly P q r = some b ∧
      (b = true ↔ (∃ w, AShape.Has (.poly eb hb) w) ∧ ∀ w, AShape.Has (.poly eb hb) w → AShape.Inner (.poly ea ha) w) := by
  have fa := hq.ext
  have fb := hr.ext
  obtain ⟨a1, -⟩ := newIx_some Ix.exact_lawful fa.ok fa.made
  obtain ⟨b1, -⟩ := newIx_some Ix.exact_lawful fb.ok fb.made
  have sa' : ∀ s ∈ ea :: ha, ∀ t ∈ eb :: hb, ∀ x, FOk ε ns s x → Sees ε ns s x.ring t.pts := fun s hs t ht x hx =>
    (sa s hs _ hx.made).mono fun p hp => List.mem_flatMap.2 ⟨t, ht, hp⟩
  have sb' : ∀ s ∈ eb :: hb, ∀ t ∈ ea :: ha, ∀ x, FOk ε ns s x → Sees ε ns s x.ring t.pts := fun s hs t ht x hx =>
    (sb s hs _ hx.made).mono fun p hp => List.mem_flatMap.2 ⟨t, ht, hp⟩
  have hgen : ∀ s ∈ ea :: ha, ∀ t ∈ eb :: hb, SegsGen s.segs t.segs := fun s hs t ht => ChainGen.segs (c := true) (d := true) (general_rings hg hs ht)
  have hext : 3 ≤ eb.pts.length → ∃ b, hasRing P q.ext r.ext true = some b ∧ (b = true ↔ ∀ w, OnBoundary eb.segs w → Inside ea.segs w) := by
    intro h3
    rw [hasRing_eq fa fb (sa' ea (by simp) eb (by simp) _ fa) (hgen ea (by simp) eb (by simp)).symm (general_rings hg (by simp) (by simp)).right hPf hPA]
    exact hasRing_iff fa hfe fb h3 (sa' ea (by simp) eb (by simp) _ fa) P hPf hPA
  -- the answer of the general case
  have gen : ∃ b, (if polyEmpty q || polyEmpty r then some false
      else andM (hasRing P q.ext r.ext true) (allOf (fun h : FRing K K =>
        match ringXRing P.f P.A P.R h.ring r.ext.ring false with
        | none => none
        | some false => some true
        | some true => anyOf (fun k => hasRing P k h true) r.holes) q.holes)) = some b ∧
      (b = true ↔ (∃ w, AShape.Has (.poly eb hb) w) ∧ ∀ w, AShape.Has (.poly eb hb) w → AShape.Inner (.poly ea ha) w) := by
    by_cases hdead : ea.pts.length < 3 ∨ eb.pts.length < 3
    · have : (polyEmpty q || polyEmpty r) = true := by
        rw [polyEmpty, polyEmpty, ring_not_empty a1, ring_not_empty b1]
        rcases hdead with h | h <;> simp [h]
      rw [this]
      refine ⟨false, rfl, iff_of_false (by simp) ?_⟩
      rintro ⟨⟨w, w1⟩, w2⟩
      rcases hdead with h | h
      · exact not_region_short h w (.inr (w2 w w1).1)
      · exact not_region_short h w w1.1
    rw [not_or, not_lt, not_lt] at hdead
    obtain ⟨h3, h3'⟩ := hdead
    have : (polyEmpty q || polyEmpty r) = false := by
      rw [polyEmpty, polyEmpty, ring_not_empty a1, ring_not_empty b1]
      simp [show ¬ ea.pts.length < 3 by omega, show ¬ ea.pts.length < 2 by omega, show ¬ eb.pts.length < 3 by omega, show ¬ eb.pts.length < 2 by omega]
    rw [this]
    simp only [Bool.false_eq_true, if_false]
    obtain ⟨b, k1, k2⟩ := hext h3'
    obtain ⟨c, k3, k4⟩ := allOf_forall2 (t := fun h : FRing K K =>
        match ringXRing P.f P.A P.R h.ring r.ext.ring false with
        | none => none
        | some false => some true
        | some true => anyOf (fun k => hasRing P k h true) r.holes)
      (Q := fun h => (∃ w, InRegion h.segs w ∧ InRegion eb.segs w) → ∃ k ∈ hb, ∀ w, OnBoundary h.segs w → Inside k.segs w) hq.holes (fun h hm x hx => by
        obtain ⟨u, u1, u2⟩ := xRing_iff hx fb (sa' h (by simp [hm]) eb (by simp) _ hx) (sb' eb (by simp) h (by simp [hm]) _ fb)
        rw [hPR, hPf, hPA, xRing_eq hx fb (sa' h (by simp [hm]) eb (by simp) _ hx) (sb' eb (by simp) h (by simp [hm]) _ fb)
          (hgen h (by simp [hm]) eb (by simp)).symm, u1]
        cases u with
        | false => exact ⟨true, rfl, by rw [← u2]; simp⟩
        | true =>
          have hw := u2.1 rfl
          have hh3 : 3 ≤ h.pts.length := by
            by_contra hn
            obtain ⟨w, w1, -⟩ := hw
            exact not_region_short (by omega) w w1
          obtain ⟨v, v1, v2⟩ := anyOf_forall2 (t := fun k => hasRing P k x true) (Q := fun k => ∀ w, OnBoundary h.segs w → Inside k.segs w) hr.holes
            fun k hk y hy => by
              rw [hasRing_eq hy hx (sb' k (by simp [hk]) h (by simp [hm]) _ hy) (hgen h (by simp [hm]) k (by simp [hk]))
                (general_rings hg (by simp [hm]) (by simp [hk])).left hPf hPA]
              exact hasRing_iff hy (okb.flags k hk) hx hh3 (sb' k (by simp [hk]) h (by simp [hm]) _ hy) P hPf hPA
          exact ⟨v, v1, by rw [v2]; exact ⟨fun h _ => h, fun h => h hw⟩⟩)
    rw [k1, k3]
    have hans : andM (some b) (some c) = some (b && c) := by cases b <;> rfl
    rw [hans]
    refine ⟨_, rfl, ?_⟩
    rw [Bool.and_eq_true, k2, k4]
    obtain ⟨m, hm, hcm, hm3, hmem'⟩ := ring_chain h3'
    have em : eb.segs = edges m := hm
    have bm : ∀ v ∈ m, r.ext.ring.rect.Has v := fun v hv => b1.rect_has (by omega) v ((hmem' v).1 hv)
    constructor
    · rintro ⟨g1, g2⟩
      refine ⟨?_, fun w hw => ⟨?_, fun h hh hin => ?_⟩⟩
      · match hp : eb.pts, h3' with
        | v :: _, _ => exact ⟨v, okb.boundary eb (by simp) v (seg_of_pts (by omega) (fun _ => h3') v (by rw [hp]; simp))⟩
      · exact region_sub hcm hee (fun u hu => g1 u (by rw [em]; exact hu)) bm (by rw [← em]; exact hw.1)
      · obtain ⟨k, hk, hkk⟩ := g2 h hh ⟨w, hin, hw.1⟩
        have hh3 : 3 ≤ h.pts.length := by
          by_contra hn
          exact not_region_short (by omega) w hin
        obtain ⟨l, hl, hcl, hl3, hmem⟩ := ring_chain hh3
        have el : h.segs = edges l := hl
        obtain ⟨R, hR⟩ : ∃ R : Rect K, ∀ v ∈ l, R.Has v := list_rect l
        exact hw.2 k hk (region_sub hcl (okb.escapes k hk) (fun u hu => hkk u (by rw [el]; exact hu)) hR (by rw [← el]; exact hin))
    · rintro ⟨-, g⟩
      refine ⟨fun w hw => (g w (okb.boundary eb (by simp) w hw)).1, ?_⟩
      rintro h hh ⟨z, z1, z2⟩
      have hz : ¬ ∀ k ∈ hb, ¬ Inside k.segs z := fun hn => (g z ⟨z2, hn⟩).2 h hh z1
      simp only [not_forall, not_not] at hz
      obtain ⟨k, hk, hin⟩ := hz
      refine ⟨k, hk, ?_⟩
      have hh3 : 3 ≤ h.pts.length := by
        by_contra hn
        exact not_region_short (by omega) z z1
      have hk3 : 3 ≤ k.pts.length := by
        by_contra hn
        exact not_region_short (by omega) z (.inr hin)
      obtain ⟨l, hl, hcl, hl3, hmem⟩ := ring_chain hh3
      obtain ⟨n, hn, hcn, hn3, hmemn⟩ := ring_chain hk3
      have el : h.segs = edges l := hl
      have en : k.segs = edges n := hn
      have hav : ∀ w, OnBoundary (edges n) w → ¬ InRegion (edges l) w := fun w h1 h2 =>
        (g w (okb.boundary k (by simp [hk]) w (by rw [en]; exact h1))).2 h hh (by rw [el]; exact h2)
      rw [el] at z1 ⊢
      rw [en] at hin ⊢
      have hall := inside_of_common hcl hcn hav z1 (.inr hin)
      intro w hw
      match l, hl3 with
      | a :: b :: t, _ =>
        exact inside_const hcn (fun u h1 h2 => hav u h2 (.inl h1)) (u := a) ⟨⟨a, b⟩, by simp [edges], onSeg_left (⟨a, b⟩ : Seg K)⟩ hw (hall a (by simp))
  cases q with
  | poly e hs =>
    cases r <;> exact gen
  | ring x =>
    cases r with
    | poly e hs => exact gen
    | ring y =>
      obtain ⟨rfl, hx⟩ := hq
      obtain ⟨rfl, hy⟩ := hr
      obtain ⟨b, k1, k2⟩ := gen
      refine ⟨b, ?_, k2⟩
      rw [← k1, polyCoversPoly]
      simp only [polyEmpty, PolyS.ext, PolyS.holes, allOf]
      cases hE : (ringEmpty x.ring || ringEmpty y.ring) with
      | true =>
        rw [if_pos rfl]
        exact hasRing_empty (by simpa using hE)
      | false =>
        rw [if_neg (by simp)]
        cases hasRing P x y true with
        | none => rfl
        | some b => cases b <;> rfl

end

end Tg.S
