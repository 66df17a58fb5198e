import Verif.Lemmas.Intersects
/-! Polygons that meet the hypotheses of `C53_intersects`. -/
set_option linter.unusedSectionVars false
namespace Tg.S

variable {K : Type*} [Field K] [LinearOrder K] [IsStrictOrderedRing K] [FloorRing K] {ε : K} {ns : List (Pt K) → Nat}

/-- The outside of a convex set is connected: a vertical ray leads away. -/
theorem ConvexSet.escapes {S : Pt K → Prop} (h : ConvexSet S) : Escapes S := by
  intro w hw R
  by_cases hup : ∃ u, S u ∧ u.x = w.x ∧ w.y ≤ u.y
  · obtain ⟨u, u1, u2, u3⟩ := hup
    refine ⟨[w, ⟨w.x, min w.y R.lo.y - 1⟩], rfl, ?_, ⟨w.x, min w.y R.lo.y - 1⟩, by simp, ?_⟩
    · intro s hs v hv hS
      simp only [edges, List.mem_cons, List.not_mem_nil, or_false] at hs
      subst hs
      have hr := onSeg_rect hv
      obtain ⟨t, t0, t1, hx, hy⟩ := hv
      dsimp only at hx hy
      have hle : v.y ≤ w.y := by
        rw [hy]
        have : min w.y R.lo.y - 1 - w.y ≤ 0 := by linarith [min_le_left w.y R.lo.y]
        nlinarith
      refine hw (h v u w hS u1 (onSeg_of ⟨?_, ?_, ?_, ?_⟩ ?_))
      · simp only [Seg.rect]; rw [min_le_iff]; right; exact u2.le
      · simp only [Seg.rect]; rw [le_max_iff]; right; exact u2.ge
      · simp only [Seg.rect]; rw [min_le_iff]; exact .inl hle
      · simp only [Seg.rect]; rw [le_max_iff]; exact .inr u3
      · simp only
        rw [u2, hx]; ring
    · intro hR
      have := hR.2.2.1
      dsimp only at this
      linarith [min_le_right w.y R.lo.y]
  · refine ⟨[w, ⟨w.x, max w.y R.hi.y + 1⟩], rfl, ?_, ⟨w.x, max w.y R.hi.y + 1⟩, by simp, ?_⟩
    · intro s hs v hv hS
      simp only [edges, List.mem_cons, List.not_mem_nil, or_false] at hs
      subst hs
      obtain ⟨t, t0, t1, hx, hy⟩ := hv
      dsimp only at hx hy
      refine hup ⟨v, hS, by rw [hx]; ring, ?_⟩
      rw [hy]
      have : 0 ≤ max w.y R.hi.y + 1 - w.y := by linarith [le_max_left w.y R.hi.y]
      nlinarith
    · intro hR
      have := hR.2.2.2
      dsimp only at this
      linarith [le_max_right w.y R.hi.y]

/-- A polygon without holes meets the hypotheses. -/
theorem polyOk_nil (ext : Series K) : PolyOk ext [] where
  boundary s hs w hw := by
    simp only [List.mem_singleton] at hs
    subst hs
    exact ⟨.inl hw, by simp⟩
  flags := by simp
  escapes := by simp

/-- The points of a rectangle, closed. -/
def boxPts (x0 y0 x1 y1 : K) : List (Pt K) := [⟨x0, y0⟩, ⟨x1, y0⟩, ⟨x1, y1⟩, ⟨x0, y1⟩, ⟨x0, y0⟩]

theorem box_segments (x0 y0 x1 y1 : K) : segments (boxPts x0 y0 x1 y1) true = edges (boxPts x0 y0 x1 y1) := by
  simp [segments, boxPts]

theorem box_boundary {x0 y0 x1 y1 : K} (hx : x0 < x1) (hy : y0 < y1) (p : Pt K) : OnBoundary (segments (boxPts x0 y0 x1 y1) true) p ↔
    (x0 ≤ p.x ∧ p.x ≤ x1 ∧ y0 ≤ p.y ∧ p.y ≤ y1) ∧ (p.x = x0 ∨ p.x = x1 ∨ p.y = y0 ∨ p.y = y1) := by
  rw [box_segments]
  unfold OnBoundary boxPts edges
  simp only [edges, List.mem_cons, List.not_mem_nil, or_false, exists_eq_or_imp, exists_eq_left, onSeg_iff, Seg.rect, Rect.Has, min_self, max_self,
    min_eq_left hx.le, max_eq_right hx.le, min_eq_left hy.le, max_eq_right hy.le, min_eq_right hx.le, max_eq_left hx.le, min_eq_right hy.le, max_eq_left hy.le,
    sub_self, mul_zero, zero_eq_mul, mul_eq_zero, sub_eq_zero, hx.ne', hy.ne', hx.ne, hy.ne, or_false]
  constructor
  · rintro (⟨⟨h1, h2, h3, h4⟩, h5⟩ | ⟨⟨h1, h2, h3, h4⟩, h5⟩ | ⟨⟨h1, h2, h3, h4⟩, h5⟩ | ⟨⟨h1, h2, h3, h4⟩, h5⟩)
    · exact ⟨⟨h1, h2, h3, h4.trans hy.le⟩, .inr (.inr (.inl h5))⟩
    · exact ⟨⟨hx.le.trans h1, h2, h3, h4⟩, .inr (.inl h5)⟩
    · exact ⟨⟨h1, h2, hy.le.trans h3, h4⟩, .inr (.inr (.inr h5))⟩
    · exact ⟨⟨h1, h2.trans hx.le, h3, h4⟩, .inl h5⟩
  · rintro ⟨⟨h1, h2, h3, h4⟩, h5 | h5 | h5 | h5⟩
    · exact .inr (.inr (.inr ⟨⟨h1, h5.le, h3, h4⟩, h5⟩))
    · exact .inr (.inl ⟨⟨h5.ge, h2, h3, h4⟩, h5⟩)
    · exact .inl ⟨⟨h1, h2, h3, h5.le⟩, h5⟩
    · exact .inr (.inr (.inl ⟨⟨h1, h2, h5.ge, h4⟩, h5⟩))

/-- Crossing a vertical segment. -/
theorem crosses_vertical {x y0 y1 : K} (p : Pt K) (s : Seg K) (hax : s.a.x = x) (hbx : s.b.x = x) (hlo : min s.a.y s.b.y = y0) (hhi : max s.a.y s.b.y = y1) :
    Crosses s p ↔ (y0 ≤ p.y ∧ p.y < y1) ∧ p.x < x := by
  unfold Crosses
  rw [hlo, hhi]
  constructor
  · rintro ⟨h1, h2, u, h3, h4⟩
    refine ⟨⟨h1, h2⟩, ?_⟩
    obtain ⟨t, -, -, h, -⟩ := h4
    dsimp only at h
    rw [hax, hbx] at h
    have : u = x := by rw [h]; ring
    rw [← this]; exact h3
  · rintro ⟨⟨h1, h2⟩, h3⟩
    refine ⟨h1, h2, x, h3, onSeg_of ⟨?_, ?_, ?_, ?_⟩ ?_⟩
    · simp only [Seg.rect]; rw [hax, hbx, min_self]
    · simp only [Seg.rect]; rw [hax, hbx, max_self]
    · simp only [Seg.rect]; rw [hlo]; exact h1
    · simp only [Seg.rect]; rw [hhi]; exact h2.le
    · simp only; rw [hax, hbx]; ring

theorem box_inside {x0 y0 x1 y1 : K} (hx : x0 < x1) (hy : y0 < y1) (p : Pt K) : Inside (segments (boxPts x0 y0 x1 y1) true) p ↔
    x0 < p.x ∧ p.x < x1 ∧ y0 < p.y ∧ p.y < y1 := by
  classical
  unfold Inside
  rw [box_boundary hx hy, box_segments]
  have h1 : ¬ Crosses (⟨⟨x0, y0⟩, ⟨x1, y0⟩⟩ : Seg K) p := by
    rintro ⟨h1, h2, -⟩
    simp only [min_self, max_self] at h1 h2
    exact absurd h1 (not_le.2 h2)
  have h3 : ¬ Crosses (⟨⟨x1, y1⟩, ⟨x0, y1⟩⟩ : Seg K) p := by
    rintro ⟨h1, h2, -⟩
    simp only [min_self, max_self] at h1 h2
    exact absurd h1 (not_le.2 h2)
  have h2 := crosses_vertical (x := x1) (y0 := y0) (y1 := y1) p ⟨⟨x1, y0⟩, ⟨x1, y1⟩⟩ rfl rfl (min_eq_left hy.le) (max_eq_right hy.le)
  have h4 := crosses_vertical (x := x0) (y0 := y0) (y1 := y1) p ⟨⟨x0, y1⟩, ⟨x0, y0⟩⟩ rfl rfl (min_eq_right hy.le) (max_eq_left hy.le)
  have hn : ncross (edges (boxPts x0 y0 x1 y1)) p = (if (y0 ≤ p.y ∧ p.y < y1) ∧ p.x < x1 then 1 else 0) + (if (y0 ≤ p.y ∧ p.y < y1) ∧ p.x < x0 then 1 else 0) := by
    unfold ncross boxPts
    simp only [edges, List.countP_cons, List.countP_nil, decide_eq_true_eq, h1, h2, h3, h4]
    simp [add_comm]
  rw [hn]
  constructor
  · rintro ⟨k1, k2⟩
    split_ifs at k2 with c1 c2 c2
    · have hxx : x0 ≤ p.x := by
        by_contra hc
        exact c2 ⟨c1.1, not_le.1 hc⟩
      refine ⟨lt_of_le_of_ne hxx fun h => k1 ⟨⟨hxx, c1.2.le, c1.1.1, c1.1.2.le⟩, .inl h.symm⟩, c1.2,
        lt_of_le_of_ne c1.1.1 fun h => k1 ⟨⟨hxx, c1.2.le, c1.1.1, c1.1.2.le⟩, .inr (.inr (.inl h.symm))⟩, c1.1.2⟩
    · exact absurd ⟨c2.1, c2.2.trans hx⟩ c1
  · rintro ⟨k1, k2, k3, k4⟩
    refine ⟨?_, ?_⟩
    · rintro ⟨-, h | h | h | h⟩
      · exact k1.ne' h
      · exact k2.ne h
      · exact k3.ne' h
      · exact k4.ne h
    · rw [if_pos ⟨⟨k3.le, k4⟩, k2⟩, if_neg (fun h => absurd h.2 (not_lt.2 k1.le))]

theorem box_convex {x0 y0 x1 y1 : K} (hx : x0 < x1) (hy : y0 < y1) : ConvexSet (Inside (segments (boxPts x0 y0 x1 y1) true)) := by
  intro p q w hp hq hw
  rw [box_inside hx hy] at *
  have := onSeg_rect hw
  obtain ⟨h1, h2, h3, h4⟩ := this
  simp only [Seg.rect] at h1 h2 h3 h4
  exact ⟨(lt_min hp.1 hq.1).trans_le h1, h2.trans_lt (max_lt hp.2.1 hq.2.1), (lt_min hp.2.2.1 hq.2.2.1).trans_le h3, h4.trans_lt (max_lt hp.2.2.2 hq.2.2.2)⟩

/-- A rectangle with a rectangular hole inside meets the hypotheses. -/
theorem polyOk_boxes {e e' : Env} {ix ix' : BitVec 32} {x0 y0 x1 y1 u0 v0 u1 v1 : K} (hx : x0 < u0) (hu : u0 < u1) (hx' : u1 < x1) (hy : y0 < v0)
    (hv : v0 < v1) (hy' : v1 < y1) : PolyOk ⟨e, ix, boxPts x0 y0 x1 y1⟩ [⟨e', ix', boxPts u0 v0 u1 v1⟩] where
  boundary s hs w hw := by
    have hxx : x0 < x1 := hx.trans (hu.trans hx')
    have hyy : y0 < y1 := hy.trans (hv.trans hy')
    simp only [List.mem_cons, List.not_mem_nil, or_false] at hs
    rcases hs with rfl | rfl
    · refine ⟨.inl hw, ?_⟩
      simp only [List.mem_cons, List.not_mem_nil, or_false, forall_eq]
      intro hin
      unfold Series.segs at hw hin
      rw [box_boundary hxx hyy] at hw
      rw [box_inside hu hv] at hin
      rcases hw.2 with h | h | h | h
      · exact absurd hin.1 (not_lt.2 (h ▸ hx.le))
      · exact absurd hin.2.1 (not_lt.2 (h ▸ hx'.le))
      · exact absurd hin.2.2.1 (not_lt.2 (h ▸ hy.le))
      · exact absurd hin.2.2.2 (not_lt.2 (h ▸ hy'.le))
    · refine ⟨.inr ?_, ?_⟩
      · unfold Series.segs at hw ⊢
        rw [box_boundary hu hv] at hw
        rw [box_inside hxx hyy]
        exact ⟨hx.trans_le hw.1.1, hw.1.2.1.trans_lt hx', hy.trans_le hw.1.2.2.1, hw.1.2.2.2.trans_lt hy'⟩
      · simp only [List.mem_cons, List.not_mem_nil, or_false, forall_eq]
        exact fun hin => hin.1 hw
  flags h hh := by
    simp only [List.mem_cons, List.not_mem_nil, or_false] at hh
    subst hh
    exact fun _ => box_convex hu hv
  escapes h hh := by
    simp only [List.mem_cons, List.not_mem_nil, or_false] at hh
    subst hh
    exact (box_convex hu hv).escapes

/-! ### The searches -/

/-- Rings of few points have no index: their search and their point test are right. -/
theorem fit_small {s : Series K} (he : s.e.Ok) (h : s.pts.length < spreadOf s.e s.ix * 2) (ps : List (Pt K)) : Fit ns s ps where
  env := he
  good ε hε r hr := by
    obtain ⟨-, h1, h2, -⟩ := newIx_some Ix.exact_lawful he hr
    have hk : kindsOf s.e s.pts.length true s.ix = (false, false) := by
      unfold kindsOf indexKinds
      rw [if_neg (by omega)]
    rw [hk] at h1 h2
    have h1 : r.index = none := by simpa using h1
    have h2 : r.ystripes = none := by simpa using h2
    exact ⟨.inr (.inr h1), fun p _ h => absurd h2 h⟩

/-- The constructor makes rings and lines of few points. -/
theorem newIx_small {e : Env} {pts : List (Pt K)} {closed : Bool} {ix : BitVec 32} (h : pts.length < spreadOf e ix * 2) (A : Arith K) :
    ∃ r : Ring K K, newIx Ix.exact A e pts closed ix = some r := by
  have hk : kindsOf e pts.length closed ix = (false, false) := by
    unfold kindsOf indexKinds
    rw [if_neg (by omega)]
  unfold kindsOf at hk
  unfold newIx seriesNew
  dsimp only
  rw [show indexKinds pts.length (extractSpread e ix).2.toNat closed (extractSpread e ix).1.toNat e.index.toNat = (false, false) from hk]
  match pts with
  | [] => exact ⟨_, rfl⟩
  | [_] => exact ⟨_, rfl⟩
  | _ :: _ :: _ => exact ⟨_, rfl⟩

/-- Rings whose last point repeats the first, and points below the top of the ring. -/
theorem fit_closed {s : Series K} (he : s.e.Ok) (h3 : 3 ≤ s.pts.length) (hc : s.pts.getLast? = s.pts.head?) {ps : List (Pt K)}
    (hp : ∀ p ∈ ps, ∃ v ∈ s.pts, p.y < v.y) : Fit ns s ps where
  env := he
  good ε hε r hr := by
    obtain ⟨a1, -⟩ := newIx_some Ix.exact_lawful he hr
    refine ⟨.inl ?_, fun p hpp _ => .inl ?_⟩
    · unfold segments
      simp only [Bool.not_true, Bool.false_eq_true, if_false, if_neg (show ¬ s.pts.length < 3 by omega), if_pos hc, edges_length]
      omega
    · obtain ⟨v, v1, v2⟩ := hp p hpp
      exact v2.trans_le (a1.rect_has (by omega) v v1).2.2.2

end Tg.S
