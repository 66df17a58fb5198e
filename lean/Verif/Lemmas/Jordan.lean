import Mathlib.Tactic.Linarith
import Mathlib.Tactic.FieldSimp
import Mathlib.Tactic.Ring
import Verif.Lemmas.PlaneRing
import Verif.Spec.Region
/-!
The number of edges of a closed chain that the ray from a point crosses, modulo two, does not change along a segment that meets no edge, and
changes along a segment that crosses one edge (a discrete form of the Jordan curve theorem).
-/
set_option linter.unusedSectionVars false
namespace Tg.S

variable {K : Type*} [Field K] [LinearOrder K] [IsStrictOrderedRing K] [FloorRing K]

/-- Positive if `w` is to the right of the line from `p` up to `q`. -/
def side (p q w : Pt K) : K := (q.y - p.y) * (w.x - p.x) - (q.x - p.x) * (w.y - p.y)

/-- `w` is in the region to the right of the segment from `p` up to `q`. -/
def InStrip (p q w : Pt K) : Prop := p.y < w.y ∧ w.y ≤ q.y ∧ 0 < side p q w

theorem side_zero_on {p q w : Pt K} (h : p.y < q.y) (h1 : p.y ≤ w.y) (h2 : w.y ≤ q.y) (h0 : side p q w = 0) : OnSeg ⟨p, q⟩ w := by
  have hd : 0 < q.y - p.y := by linarith
  refine ⟨(w.y - p.y) / (q.y - p.y), div_nonneg (by linarith) hd.le, (div_le_one hd).2 (by linarith), ?_, ?_⟩
  · simp only [side] at h0
    show w.x = p.x + (w.y - p.y) / (q.y - p.y) * (q.x - p.x)
    field_simp
    linear_combination h0
  · show w.y = p.y + (w.y - p.y) / (q.y - p.y) * (q.y - p.y)
    field_simp
    ring

theorem on_side_zero {p q w : Pt K} (h : OnSeg ⟨p, q⟩ w) : side p q w = 0 := by
  obtain ⟨t, -, -, hx, hy⟩ := h
  simp only at hx hy
  rw [side, hx, hy]
  ring

theorem on_heights {p q w : Pt K} (h : OnSeg ⟨p, q⟩ w) (hpq : p.y ≤ q.y) : p.y ≤ w.y ∧ w.y ≤ q.y := by
  have := onSeg_rect h
  simp only [Rect.Has, Seg.rect, min_eq_left hpq, max_eq_right hpq] at this
  exact ⟨this.2.2.1, this.2.2.2⟩

theorem side_between {p q c d z : Pt K} (h : OnSeg ⟨c, d⟩ z) : ∃ t, 0 ≤ t ∧ t ≤ 1 ∧ side p q z = (1 - t) * side p q c + t * side p q d := by
  obtain ⟨t, h0, h1, hx, hy⟩ := h
  simp only at hx hy
  refine ⟨t, h0, h1, ?_⟩
  rw [side, side, side, hx, hy]
  ring

/-- A segment that joins the two sides within the heights of `p` and `q` meets the segment from `p` to `q`. -/
theorem meets_of_sides {p q : Pt K} (h : p.y < q.y) {e : Seg K} {c d : Pt K} (hc : OnSeg e c) (hd : OnSeg e d) (c1 : p.y ≤ c.y) (c2 : c.y ≤ q.y)
    (d1 : p.y ≤ d.y) (d2 : d.y ≤ q.y) (sc : 0 < side p q c) (sd : side p q d ≤ 0) : Share ⟨p, q⟩ e := by
  have hs : 0 < side p q c - side p q d := by linarith
  set t := side p q c / (side p q c - side p q d) with ht
  have t0 : 0 ≤ t := div_nonneg sc.le hs.le
  have t1 : t ≤ 1 := (div_le_one hs).2 (by linarith)
  let z : Pt K := ⟨c.x + t * (d.x - c.x), c.y + t * (d.y - c.y)⟩
  have hz : OnSeg ⟨c, d⟩ z := ⟨t, t0, t1, rfl, rfl⟩
  have hze : OnSeg e z := onSeg_mono (t := ⟨c, d⟩) hc hd hz
  refine ⟨z, side_zero_on h ?_ ?_ ?_, hze⟩
  · show p.y ≤ c.y + t * (d.y - c.y)
    nlinarith
  · show c.y + t * (d.y - c.y) ≤ q.y
    nlinarith
  · have : side p q z = side p q c - t * (side p q c - side p q d) := by
      simp only [side, z]
      ring
    rw [this, ht]
    field_simp
    ring

theorem same_side {p q : Pt K} (h : p.y < q.y) {e : Seg K} {c d : Pt K} (hc : OnSeg e c) (hd : OnSeg e d) (c1 : p.y ≤ c.y) (c2 : c.y ≤ q.y)
    (d1 : p.y ≤ d.y) (d2 : d.y ≤ q.y) (hn : ¬ Share ⟨p, q⟩ e) : 0 < side p q c ↔ 0 < side p q d := by
  constructor
  · intro sc
    by_contra sd
    exact hn (meets_of_sides h hc hd c1 c2 d1 d2 sc (not_lt.1 sd))
  · intro sd
    by_contra sc
    exact hn (meets_of_sides h hd hc d1 d2 c1 c2 sd (not_lt.1 sc))

theorem other_side {p q : Pt K} (h : p.y < q.y) {c d z : Pt K} (hz : OnSeg ⟨c, d⟩ z) (hpq : OnSeg ⟨p, q⟩ z) (c1 : p.y ≤ c.y) (c2 : c.y ≤ q.y)
    (d1 : p.y ≤ d.y) (d2 : d.y ≤ q.y) (hc : ¬ OnSeg ⟨p, q⟩ c) (hd : ¬ OnSeg ⟨p, q⟩ d) : 0 < side p q c ↔ ¬ 0 < side p q d := by
  have sc : side p q c ≠ 0 := fun h0 => hc (side_zero_on h c1 c2 h0)
  have sd : side p q d ≠ 0 := fun h0 => hd (side_zero_on h d1 d2 h0)
  obtain ⟨t, t0, t1, ht⟩ := side_between (p := p) (q := q) hz
  rw [on_side_zero hpq] at ht
  constructor
  · intro h1 h2
    have : 0 < (1 - t) * side p q c + t * side p q d := by
      rcases eq_or_lt_of_le t0 with h | h
      · rw [← h]; simpa using h1
      · have := mul_pos h h2
        have := mul_nonneg (sub_nonneg.2 t1) h1.le
        linarith
    linarith
  · intro h2
    have h2' : side p q d < 0 := lt_of_le_of_ne (not_lt.1 h2) sd
    by_contra h1
    have h1' : side p q c < 0 := lt_of_le_of_ne (not_lt.1 h1) sc
    have : (1 - t) * side p q c + t * side p q d < 0 := by
      rcases eq_or_lt_of_le t0 with h | h
      · rw [← h]; simpa using h1'
      · have := mul_neg_of_pos_of_neg h h2'
        have := mul_nonpos_of_nonneg_of_nonpos (sub_nonneg.2 t1) h1'.le
        linarith
    linarith

/-- The point of a segment at a height. -/
theorem at_height {u v : Pt K} (huv : u.y < v.y) {y : K} (h1 : u.y ≤ y) (h2 : y ≤ v.y) : ∃ c : Pt K, OnSeg ⟨u, v⟩ c ∧ c.y = y := by
  have hd : 0 < v.y - u.y := by linarith
  refine ⟨⟨u.x + (y - u.y) / (v.y - u.y) * (v.x - u.x), y⟩, ⟨(y - u.y) / (v.y - u.y), div_nonneg (by linarith) hd.le,
    (div_le_one hd).2 (by linarith), rfl, ?_⟩, rfl⟩
  show y = u.y + (y - u.y) / (v.y - u.y) * (v.y - u.y)
  field_simp
  ring

theorem crosses_at {u v p c : Pt K} (h1 : u.y ≤ p.y) (h2 : p.y < v.y) (hc : OnSeg ⟨u, v⟩ c) (hy : c.y = p.y) : Crosses ⟨u, v⟩ p ↔ p.x < c.x := by
  rw [crosses_iff (h1.trans h2.le)]
  have := onSeg_cross hc
  simp only [hy] at this
  rw [← this]
  have hd : 0 < v.y - u.y := by linarith
  constructor
  · rintro ⟨-, -, h⟩
    have := lt_of_mul_lt_mul_right h hd.le
    linarith
  · intro h
    exact ⟨h1, h2, mul_lt_mul_of_pos_right (by linarith) hd⟩

theorem side_low {p q c : Pt K} (h : p.y < q.y) (hc : c.y = p.y) : 0 < side p q c ↔ p.x < c.x := by
  rw [side, hc, sub_self, mul_zero, sub_zero, mul_pos_iff_of_pos_left (by linarith), sub_pos]

theorem side_high {p q c : Pt K} (h : p.y < q.y) (hc : c.y = q.y) : 0 < side p q c ↔ q.x < c.x := by
  have : side p q c = (q.y - p.y) * (c.x - q.x) := by rw [side, hc]; ring
  rw [this, mul_pos_iff_of_pos_left (by linarith), sub_pos]

theorem not_crosses_above {u v p : Pt K} (huv : u.y ≤ v.y) (h : p.y < u.y) : ¬ Crosses ⟨u, v⟩ p := by
  rw [crosses_iff huv]
  rintro ⟨h1, -⟩
  linarith

theorem not_crosses_below {u v p : Pt K} (huv : u.y ≤ v.y) (h : v.y ≤ p.y) : ¬ Crosses ⟨u, v⟩ p := by
  rw [crosses_iff huv]
  rintro ⟨-, h1, -⟩
  linarith

/-- The crossings of the rays from `p` and `q` and the ends in the strip fit together. -/
def Fits (p q : Pt K) (s : Seg K) : Prop := (Crosses s p ↔ Crosses s q) ↔ (InStrip p q s.a ↔ InStrip p q s.b)

theorem fits_swap {p q : Pt K} {u v : Pt K} (h : Fits p q ⟨u, v⟩) : Fits p q ⟨v, u⟩ := by
  unfold Fits at h ⊢
  have e1 : Crosses ⟨v, u⟩ p ↔ Crosses ⟨u, v⟩ p := ⟨crosses_swap, crosses_swap⟩
  have e2 : Crosses ⟨v, u⟩ q ↔ Crosses ⟨u, v⟩ q := ⟨crosses_swap, crosses_swap⟩
  rw [e1, e2, h]
  exact Iff.comm

theorem share_swap {p q : Pt K} {u v : Pt K} : Share ⟨p, q⟩ ⟨u, v⟩ ↔ Share ⟨p, q⟩ ⟨v, u⟩ :=
  ⟨fun ⟨x, h1, h2⟩ => ⟨x, h1, onSeg_swap h2⟩, fun ⟨x, h1, h2⟩ => ⟨x, h1, onSeg_swap h2⟩⟩

theorem strip_mid {p q w : Pt K} (h1 : p.y < w.y) (h2 : w.y ≤ q.y) : InStrip p q w ↔ 0 < side p q w := by simp [InStrip, h1, h2]
theorem strip_low {p q w : Pt K} (h1 : w.y ≤ p.y) : ¬ InStrip p q w := fun h => by have := h.1; linarith
theorem strip_high {p q w : Pt K} (h1 : q.y < w.y) : ¬ InStrip p q w := fun h => by have := h.2.1; linarith

theorem fits_up {p q u v : Pt K} (hpq : p.y ≤ q.y) (huv : u.y ≤ v.y) (hn : ¬ Share ⟨p, q⟩ ⟨u, v⟩) : Fits p q ⟨u, v⟩ := by
  unfold Fits
  simp only
  rcases eq_or_lt_of_le hpq with heq | hlt
  · -- the segment is horizontal
    have s1 : ∀ w, ¬ InStrip p q w := fun w h => by have := h.1; have := h.2.1; linarith
    refine iff_of_true ?_ (iff_of_false (s1 _) (s1 _))
    by_cases h : u.y ≤ p.y ∧ p.y < v.y
    · obtain ⟨c, hc, hy⟩ := at_height (h.1.trans_lt h.2) h.1 h.2.le
      rw [crosses_at h.1 h.2 hc hy, crosses_at (heq ▸ h.1) (heq ▸ h.2) hc (hy.trans heq)]
      have key : ∀ a b : Pt K, a.y = b.y → c.y = a.y → (OnSeg ⟨a, b⟩ c → OnSeg ⟨p, q⟩ c) → a.x < c.x → b.x < c.x := by
        intro a b h1 h2 h3 h4
        by_contra h5
        refine hn ⟨c, h3 (onSeg_of ⟨?_, ?_, ?_, ?_⟩ ?_), hc⟩
        · exact (min_le_left _ _).trans h4.le
        · exact (not_lt.1 h5).trans (le_max_right _ _)
        · exact (min_le_left _ _).trans h2.ge
        · exact h2.le.trans (le_max_left _ _)
        · simp only [← h1, h2, sub_self, mul_zero, zero_mul]
      exact ⟨key p q heq hy id, key q p heq.symm (hy.trans heq) onSeg_swap⟩
    · rcases not_and_or.1 h with h | h
      · exact iff_of_false (not_crosses_above huv (not_le.1 h)) (not_crosses_above huv (heq ▸ not_le.1 h))
      · exact iff_of_false (not_crosses_below huv (not_lt.1 h)) (not_crosses_below huv (heq ▸ not_lt.1 h))
  have hu : OnSeg ⟨u, v⟩ u := onSeg_left (⟨u, v⟩ : Seg K)
  have hv : OnSeg ⟨u, v⟩ v := onSeg_right (⟨u, v⟩ : Seg K)
  rcases le_or_gt v.y p.y with v1 | v1
  · exact iff_of_true (iff_of_false (not_crosses_below huv v1) (not_crosses_below huv (v1.trans hpq)))
      (iff_of_false (strip_low (huv.trans v1)) (strip_low v1))
  rcases lt_or_ge q.y u.y with u1 | u1
  · exact iff_of_true (iff_of_false (not_crosses_above huv (hlt.trans u1)) (not_crosses_above huv u1))
      (iff_of_false (strip_high u1) (strip_high (u1.trans_le huv)))
  rcases le_or_gt u.y p.y with u2 | u2
  · obtain ⟨c, hc, hy⟩ := at_height (u2.trans_lt v1) u2 v1.le
    have hcr := crosses_at u2 v1 hc hy
    rw [← side_low hlt hy] at hcr
    rcases le_or_gt v.y q.y with v2 | v2
    · have := same_side hlt hc hv hy.ge (hy.trans_le hpq) v1.le v2 hn
      have n1 : ¬ Crosses ⟨u, v⟩ q := not_crosses_below huv v2
      have n2 : ¬ InStrip p q u := strip_low u2
      have n3 := strip_mid v1 v2
      tauto
    · obtain ⟨d, hd, hyd⟩ := at_height (u1.trans_lt v2) u1 v2.le
      have hcq := crosses_at u1 v2 hd hyd
      rw [← side_high hlt hyd] at hcq
      have := same_side hlt hc hd hy.ge (hy.trans_le hpq) (hpq.trans hyd.ge) hyd.le hn
      have n2 : ¬ InStrip p q u := strip_low u2
      have n3 : ¬ InStrip p q v := strip_high v2
      tauto
  · have n1 : ¬ Crosses ⟨u, v⟩ p := not_crosses_above huv u2
    have n3 := strip_mid u2 u1
    rcases le_or_gt v.y q.y with v2 | v2
    · have := same_side hlt hu hv u2.le u1 v1.le v2 hn
      have n2 : ¬ Crosses ⟨u, v⟩ q := not_crosses_below huv v2
      have n4 := strip_mid v1 v2
      tauto
    · obtain ⟨d, hd, hyd⟩ := at_height (u1.trans_lt v2) u1 v2.le
      have hcq := crosses_at u1 v2 hd hyd
      rw [← side_high hlt hyd] at hcq
      have := same_side hlt hu hd u2.le u1 (hpq.trans hyd.ge) hyd.le hn
      have n4 : ¬ InStrip p q v := strip_high v2
      tauto

theorem fits_of_not_share {p q : Pt K} (hpq : p.y ≤ q.y) {s : Seg K} (hn : ¬ Share ⟨p, q⟩ s) : Fits p q s := by
  rcases le_total s.a.y s.b.y with h | h
  · exact fits_up hpq h hn
  · exact fits_swap (fits_up (u := s.b) (v := s.a) hpq h fun hs => hn (share_swap.1 hs))

/-- A point of a segment whose height is between those of two others is between them. -/
theorem on_between {u v c d z : Pt K} (huv : u.y < v.y) (hc : OnSeg ⟨u, v⟩ c) (hd : OnSeg ⟨u, v⟩ d) (hz : OnSeg ⟨u, v⟩ z) (h : c.y ≤ z.y)
    (h' : z.y ≤ d.y) : OnSeg ⟨c, d⟩ z := by
  obtain ⟨t, t0, t1, tx, ty⟩ := hc
  obtain ⟨w, w0, w1, wx, wy⟩ := hz
  obtain ⟨r, r0, r1, rx, ry⟩ := hd
  simp only at tx ty wx wy rx ry
  have hp : 0 < v.y - u.y := by linarith
  have htw : t ≤ w := le_of_mul_le_mul_right (by linarith : t * (v.y - u.y) ≤ w * (v.y - u.y)) hp
  have hwr : w ≤ r := le_of_mul_le_mul_right (by linarith : w * (v.y - u.y) ≤ r * (v.y - u.y)) hp
  rcases eq_or_lt_of_le (htw.trans hwr) with h1 | h1
  · have hw : w = t := le_antisymm (h1 ▸ hwr) htw
    exact ⟨0, le_rfl, zero_le_one, by simp only; rw [wx, tx, hw]; ring, by simp only; rw [wy, ty, hw]; ring⟩
  · have h1' : 0 < r - t := by linarith
    refine ⟨(w - t) / (r - t), div_nonneg (by linarith) h1'.le, (div_le_one h1').2 (by linarith), ?_, ?_⟩
    · simp only
      rw [wx, tx, rx]
      field_simp
      ring
    · simp only
      rw [wy, ty, ry]
      field_simp
      ring

/-- A crossing in the interior of both segments does not fit. -/
theorem not_fits_up {p q u v z : Pt K} (hpq : p.y ≤ q.y) (huv : u.y ≤ v.y) (hz : OnSeg ⟨p, q⟩ z) (hz' : OnSeg ⟨u, v⟩ z)
    (hu : ¬ OnSeg ⟨p, q⟩ u) (hv : ¬ OnSeg ⟨p, q⟩ v) (hp : ¬ OnSeg ⟨u, v⟩ p) (hq : ¬ OnSeg ⟨u, v⟩ q) : ¬ Fits p q ⟨u, v⟩ := by
  unfold Fits
  simp only
  obtain ⟨zp, zq⟩ := on_heights hz hpq
  obtain ⟨zu, zv⟩ := on_heights hz' huv
  have hu' : OnSeg ⟨u, v⟩ u := onSeg_left (⟨u, v⟩ : Seg K)
  have hv' : OnSeg ⟨u, v⟩ v := onSeg_right (⟨u, v⟩ : Seg K)
  rcases eq_or_lt_of_le hpq with heq | hlt
  · have s1 : ∀ w, ¬ InStrip p q w := fun w h => by have := h.1; have := h.2.1; linarith
    have hzy : z.y = p.y := le_antisymm (by linarith) zp
    have hzr := onSeg_rect hz
    have huv' : u.y < v.y := by
      refine lt_of_le_of_ne huv fun h => ?_
      -- all four at one height: one of the ends is on the other segment
      have e1 : u.y = p.y := le_antisymm (by linarith) (by linarith)
      have hzr' := onSeg_rect hz'
      simp only [Rect.Has, Seg.rect] at hzr hzr'
      have onpq : ∀ w : Pt K, w.y = p.y → min p.x q.x ≤ w.x → w.x ≤ max p.x q.x → OnSeg ⟨p, q⟩ w := fun w h1 h2 h3 =>
        onSeg_of ⟨h2, h3, by simp [Seg.rect, h1], by simp [Seg.rect, h1]⟩ (by simp only [h1, ← heq]; ring)
      have onuv : ∀ w : Pt K, w.y = p.y → min u.x v.x ≤ w.x → w.x ≤ max u.x v.x → OnSeg ⟨u, v⟩ w := fun w h1 h2 h3 =>
        onSeg_of ⟨h2, h3, by simp [Seg.rect, h1, e1], by simp [Seg.rect, h1, e1]⟩ (by simp only [h1, ← h, e1]; ring)
      have a1 : ∀ w : Pt K, w.y = p.y → ¬ OnSeg ⟨p, q⟩ w → w.x < min p.x q.x ∨ max p.x q.x < w.x := by
        intro w h1 h2
        by_contra h3
        rw [not_or, not_lt, not_lt] at h3
        exact h2 (onpq w h1 h3.1 h3.2)
      have a2 : ∀ w : Pt K, w.y = p.y → ¬ OnSeg ⟨u, v⟩ w → w.x < min u.x v.x ∨ max u.x v.x < w.x := by
        intro w h1 h2
        by_contra h3
        rw [not_or, not_lt, not_lt] at h3
        exact h2 (onuv w h1 h3.1 h3.2)
      have b1 := a1 u e1 hu
      have b2 := a1 v (h ▸ e1) hv
      have b3 := a2 p rfl hp
      have b4 := a2 q heq.symm hq
      rcases le_total p.x q.x with c1 | c1 <;> rcases le_total u.x v.x with c2 | c2 <;>
        simp only [min_eq_left c1, max_eq_right c1, min_eq_left c2, max_eq_right c2, min_eq_right c1, max_eq_left c1, min_eq_right c2, max_eq_left c2] at * <;>
        rcases b1 with b1 | b1 <;> rcases b2 with b2 | b2 <;> rcases b3 with b3 | b3 <;> rcases b4 with b4 | b4 <;> linarith
    have h1 : u.y ≤ p.y := hzy ▸ zu
    have h2 : p.y < v.y := by
      refine lt_of_le_of_ne (hzy ▸ zv) fun h => ?_
      have : z = v := by
        obtain ⟨t, t0, t1, tx, ty⟩ := hz'
        simp only at tx ty
        have ht : t = 1 := by
          have : (1 - t) * (v.y - u.y) = 0 := by linear_combination ty - hzy - h
          rcases mul_eq_zero.1 this with h | h
          · linarith
          · linarith
        exact Pt.ext (by rw [tx, ht]; ring) (by rw [hzy, h])
      exact hv (this ▸ hz)
    rw [crosses_at h1 h2 hz' hzy, crosses_at (heq ▸ h1) (heq ▸ h2) hz' (hzy.trans heq)]
    have zpne : z.x ≠ p.x := fun h => hp ((Pt.ext h hzy : z = p) ▸ hz')
    have zqne : z.x ≠ q.x := fun h => hq ((Pt.ext h (hzy.trans heq) : z = q) ▸ hz')
    intro hcon
    have hcon := hcon.2 (iff_of_false (s1 _) (s1 _))
    obtain ⟨t, t0, t1, tx, -⟩ := hz
    simp only at tx
    rcases lt_or_ge p.x z.x with h3 | h3
    · have h4 := hcon.1 h3
      have e : (1 - t) * (z.x - p.x) + t * (z.x - q.x) = 0 := by linear_combination tx
      have e1 := mul_nonneg (sub_nonneg.2 t1) (sub_nonneg.2 h3.le)
      have e2 := mul_nonneg t0 (sub_nonneg.2 h4.le)
      have e3 : (1 - t) * (z.x - p.x) = 0 := by linarith
      have e4 : t * (z.x - q.x) = 0 := by linarith
      rcases mul_eq_zero.1 e3 with h | h <;> rcases mul_eq_zero.1 e4 with h' | h' <;> linarith
    · have h4 : ¬ q.x < z.x := fun h => absurd (hcon.2 h) (not_lt.2 h3)
      have h3' := lt_of_le_of_ne h3 zpne
      have h4' := lt_of_le_of_ne (not_lt.1 h4) zqne
      have e : (1 - t) * (p.x - z.x) + t * (q.x - z.x) = 0 := by linear_combination -tx
      have e1 := mul_nonneg (sub_nonneg.2 t1) (sub_nonneg.2 h3'.le)
      have e2 := mul_nonneg t0 (sub_nonneg.2 h4'.le)
      have e3 : (1 - t) * (p.x - z.x) = 0 := by linarith
      have e4 : t * (q.x - z.x) = 0 := by linarith
      rcases mul_eq_zero.1 e3 with h | h <;> rcases mul_eq_zero.1 e4 with h' | h' <;> linarith
  -- the ends of the segment at the heights of p and q
  have zpn : z ≠ p := fun h => hp (h ▸ hz')
  have zqn : z ≠ q := fun h => hq (h ▸ hz')
  have hzp : p.y < z.y := by
    refine lt_of_le_of_ne zp fun h => zpn ?_
    obtain ⟨t, t0, t1, tx, ty⟩ := hz
    simp only at tx ty
    have ht : t = 0 := by
      have : t * (q.y - p.y) = 0 := by linear_combination -h - ty
      rcases mul_eq_zero.1 this with h | h
      · exact h
      · linarith
    exact Pt.ext (by rw [tx, ht]; ring) h.symm
  have hzq : z.y < q.y := by
    refine lt_of_le_of_ne zq fun h => zqn ?_
    obtain ⟨t, t0, t1, tx, ty⟩ := hz
    simp only at tx ty
    have ht : t = 1 := by
      have : (1 - t) * (q.y - p.y) = 0 := by linear_combination -h + ty
      rcases mul_eq_zero.1 this with h | h
      · linarith
      · linarith
    exact Pt.ext (by rw [tx, ht]; ring) h
  have v1 : p.y < v.y := hzp.trans_le zv
  have u1 : u.y ≤ q.y := zu.trans zq
  have lowp : ∀ c, OnSeg ⟨u, v⟩ c → c.y = p.y → ¬ OnSeg ⟨p, q⟩ c := by
    intro c hc hy hon
    have h0 := on_side_zero hon
    have : c.x = p.x := by
      rw [side, hy, sub_self, mul_zero, sub_zero] at h0
      rcases mul_eq_zero.1 h0 with h | h <;> linarith
    exact hp ((Pt.ext this hy : c = p) ▸ hc)
  have highq : ∀ c, OnSeg ⟨u, v⟩ c → c.y = q.y → ¬ OnSeg ⟨p, q⟩ c := by
    intro c hc hy hon
    have h0 := on_side_zero hon
    have : c.x = q.x := by
      have e : side p q c = (q.y - p.y) * (c.x - q.x) := by rw [side, hy]; ring
      rw [e] at h0
      rcases mul_eq_zero.1 h0 with h | h <;> linarith
    exact hq ((Pt.ext this hy : c = q) ▸ hc)
  rcases le_or_gt u.y p.y with u2 | u2
  · have huv' : u.y < v.y := u2.trans_lt v1
    obtain ⟨c, hc, hy⟩ := at_height huv' u2 v1.le
    have hcr := crosses_at u2 v1 hc hy
    rw [← side_low hlt hy] at hcr
    rcases le_or_gt v.y q.y with v2 | v2
    · have := other_side hlt (on_between huv' hc hv' hz' (hy ▸ zp) zv) hz hy.ge (hy.trans_le hpq) v1.le v2 (lowp c hc hy) hv
      have n1 : ¬ Crosses ⟨u, v⟩ q := not_crosses_below huv v2
      have n2 : ¬ InStrip p q u := strip_low u2
      have n3 := strip_mid v1 v2
      clear * - hcr this n1 n2 n3
      tauto
    · obtain ⟨d, hd, hyd⟩ := at_height huv' u1 v2.le
      have hcq := crosses_at u1 v2 hd hyd
      rw [← side_high hlt hyd] at hcq
      have := other_side hlt (on_between huv' hc hd hz' (hy ▸ zp) (hyd ▸ zq)) hz hy.ge (hy.trans_le hpq) (hpq.trans hyd.ge) hyd.le (lowp c hc hy)
        (highq d hd hyd)
      have n2 : ¬ InStrip p q u := strip_low u2
      have n3 : ¬ InStrip p q v := strip_high v2
      clear * - hcr hcq this n2 n3
      tauto
  · have n1 : ¬ Crosses ⟨u, v⟩ p := not_crosses_above huv u2
    have n3 := strip_mid u2 u1
    rcases le_or_gt v.y q.y with v2 | v2
    · have := other_side hlt hz' hz u2.le u1 v1.le v2 hu hv
      have n2 : ¬ Crosses ⟨u, v⟩ q := not_crosses_below huv v2
      have n4 := strip_mid v1 v2
      clear * - this n1 n2 n3 n4
      tauto
    · obtain ⟨d, hd, hyd⟩ := at_height (u1.trans_lt v2) u1 v2.le
      have hcq := crosses_at u1 v2 hd hyd
      rw [← side_high hlt hyd] at hcq
      have := other_side hlt (on_between (u1.trans_lt v2) hu' hd hz' zu (hyd ▸ zq)) hz u2.le u1 (hpq.trans hyd.ge) hyd.le hu (highq d hd hyd)
      have n4 : ¬ InStrip p q v := strip_high v2
      clear * - hcq this n1 n3 n4
      tauto

theorem not_fits {p q z : Pt K} (hpq : p.y ≤ q.y) {s : Seg K} (hz : OnSeg ⟨p, q⟩ z) (hz' : OnSeg s z)
    (hu : ¬ OnSeg ⟨p, q⟩ s.a) (hv : ¬ OnSeg ⟨p, q⟩ s.b) (hp : ¬ OnSeg s p) (hq : ¬ OnSeg s q) : ¬ Fits p q s := by
  rcases le_total s.a.y s.b.y with h | h
  · exact not_fits_up hpq h hz hz' hu hv hp hq
  · intro hf
    exact not_fits_up (u := s.b) (v := s.a) hpq h hz (onSeg_swap hz') hv hu (fun hh => hp (onSeg_swap hh)) (fun hh => hq (onSeg_swap hh)) (fits_swap hf)

open Classical in
/-- Along a chain: the crossings, the edges that do not fit and the ends. -/
theorem chain_parity (p q : Pt K) : ∀ (l : List (Pt K)) (a b : Pt K), l.head? = some a → l.getLast? = some b →
    (ncross (edges l) p + ncross (edges l) q + (edges l).countP (fun s => ¬ Fits p q s) + (if (InStrip p q a ↔ InStrip p q b) then 0 else 1)) % 2 = 0
  | [], a, b, h, _ => by simp at h
  | [x], a, b, h, h' => by
      simp only [List.head?_cons, Option.some.injEq, List.getLast?_singleton] at h h'
      subst h h'
      simp [ncross, edges]
  | x :: y :: t, a, b, h, h' => by
      have ih := chain_parity p q (y :: t) y b rfl (by rw [List.getLast?_cons_cons] at h'; exact h')
      simp only [List.head?_cons, Option.some.injEq] at h
      subst h
      have e : edges (x :: y :: t) = ⟨x, y⟩ :: edges (y :: t) := rfl
      rw [e]
      simp only [ncross, List.countP_cons] at ih ⊢
      by_cases c1 : Crosses ⟨x, y⟩ p <;> by_cases c2 : Crosses ⟨x, y⟩ q <;> by_cases c3 : InStrip p q x <;> by_cases c4 : InStrip p q y <;>
        by_cases c5 : InStrip p q b <;> simp only [Fits, c1, c2, c3, c4, c5, decide_true, decide_false, if_true, if_false, iff_true, iff_false, not_true, not_false_iff,
          Bool.false_eq_true, true_iff, false_iff] at ih ⊢ <;> omega

theorem share_rev {p q : Pt K} {s : Seg K} : Share ⟨p, q⟩ s ↔ Share ⟨q, p⟩ s :=
  ⟨fun ⟨x, h1, h2⟩ => ⟨x, onSeg_swap h1, h2⟩, fun ⟨x, h1, h2⟩ => ⟨x, onSeg_swap h1, h2⟩⟩

theorem strip_self (P : Prop) [Decidable (P ↔ P)] : (if (P ↔ P) then 0 else 1) = 0 := if_pos Iff.rfl

open Classical in
theorem closed_parity {l : List (Pt K)} (hl : l.head? = l.getLast?) (p q : Pt K) :
    (ncross (edges l) p + ncross (edges l) q + (edges l).countP (fun s => ¬ Fits p q s)) % 2 = 0 := by
  cases h : l.head? with
  | none => rw [List.head?_eq_none_iff] at h; subst h; simp [ncross, edges]
  | some a =>
    have := chain_parity p q l a a h (hl ▸ h)
    rwa [strip_self, Nat.add_zero] at this

/-- The parity of the crossings is the same at the ends of a segment that meets no edge. -/
theorem parity_same {l : List (Pt K)} (hl : l.head? = l.getLast?) {p q : Pt K} (h : ∀ s ∈ edges l, ¬ Share ⟨p, q⟩ s) :
    ncross (edges l) p % 2 = ncross (edges l) q % 2 := by
  classical
  wlog hpq : p.y ≤ q.y generalizing p q
  · exact (this (fun s hs hh => h s hs (share_rev.1 hh)) (not_le.1 hpq).le).symm
  have h1 := closed_parity hl p q
  have h2 : (edges l).countP (fun s => ¬ Fits p q s) = 0 := by
    rw [List.countP_eq_zero]
    intro s hs
    simpa using fits_of_not_share hpq (h s hs)
  omega

theorem countP_two {γ : Type*} {P : γ → Bool} : ∀ {l : List γ} {i j : Nat} {x y : γ}, i < j → l[i]? = some x → l[j]? = some y → P x = true → P y = true →
    2 ≤ l.countP P
  | [], i, j, x, y, _, h, _, _, _ => by simp at h
  | a :: l, 0, j + 1, x, y, _, h1, h2, hx, hy => by
    rw [List.getElem?_cons_zero, Option.some.injEq] at h1
    subst h1
    rw [List.getElem?_cons_succ] at h2
    have : 0 < l.countP P := List.countP_pos_iff.2 ⟨y, List.mem_of_getElem? h2, hy⟩
    rw [List.countP_cons, if_pos hx]
    omega
  | a :: l, i + 1, j + 1, x, y, hij, h1, h2, hx, hy => by
    rw [List.getElem?_cons_succ] at h1 h2
    have := countP_two (by omega : i < j) h1 h2 hx hy
    rw [List.countP_cons]
    omega

/-- In a closed chain every vertex is on two edges. -/
theorem vertex_two {l : List (Pt K)} (hl : l.head? = l.getLast?) (h3 : 3 ≤ l.length) {i : Nat} {v : Pt K} (hv : l[i]? = some v) {P : Seg K → Bool}
    (hP : ∀ s : Seg K, (s.a = v ∨ s.b = v) → P s = true) : 2 ≤ (edges l).countP P := by
  have hi : i < l.length := by
    by_contra hc
    rw [List.getElem?_eq_none (by omega)] at hv
    cases hv
  have hend : l[0]? = l[l.length - 1]? := by rw [← List.head?_eq_getElem?, hl, List.getLast?_eq_getElem?]
  have hseg : ∀ k : Nat, (hk : k + 1 < l.length) → (edges l)[k]? = some ⟨l[k], l[k + 1]⟩ := by
    intro k hk
    rw [edges_getElem?, segAt, List.getElem?_eq_getElem (by omega : k < l.length), List.getElem?_eq_getElem hk]
  have get : ∀ k : Nat, (hk : k < l.length) → l[k]? = some v → l[k] = v := by
    intro k hk h
    rwa [List.getElem?_eq_getElem hk, Option.some.injEq] at h
  by_cases h0 : i = 0 ∨ i = l.length - 1
  · have e0 : l[0]? = some v := by rcases h0 with rfl | rfl; exacts [hv, hend ▸ hv]
    have e1 : l[l.length - 1]? = some v := hend ▸ e0
    refine countP_two (i := 0) (j := l.length - 2) (by omega) (hseg 0 (by omega)) (hseg (l.length - 2) (by omega)) (hP _ (.inl ?_)) (hP _ (.inr ?_))
    · exact get 0 (by omega) e0
    · refine get _ (by omega) ?_
      rw [show l.length - 2 + 1 = l.length - 1 by omega]
      exact e1
  · rw [not_or] at h0
    refine countP_two (i := i - 1) (j := i) (by omega) (hseg (i - 1) (by omega)) (hseg i (by omega)) (hP _ (.inr ?_)) (hP _ (.inl ?_))
    · refine get _ (by omega) ?_
      rw [show i - 1 + 1 = i by omega]
      exact hv
    · exact get i (by omega) hv

theorem edge_ends {l : List (Pt K)} {s : Seg K} (h : s ∈ edges l) : s.a ∈ l ∧ s.b ∈ l := seg_mem_pts (closed := false) (by simpa [segments] using h)

open Classical in
/-- If the ends are not on the boundary, and the segment meets one edge, then the parity changes. -/
theorem parity_differs {l : List (Pt K)} (hl : l.head? = l.getLast?) (h3 : 3 ≤ l.length) {p q : Pt K} (hp : ¬ OnBoundary (edges l) p)
    (hq : ¬ OnBoundary (edges l) q) (h : (edges l).countP (fun s => Share ⟨p, q⟩ s) = 1) : ncross (edges l) p % 2 ≠ ncross (edges l) q % 2 := by
  wlog hpq : p.y ≤ q.y generalizing p q
  · refine (this hq hp ?_ (not_le.1 hpq).le).symm
    rw [← h]
    exact List.countP_congr fun s _ => by simp only [decide_eq_true_eq]; exact share_rev
  have h1 := closed_parity hl p q
  have h2 : (edges l).countP (fun s => ¬ Fits p q s) = (edges l).countP (fun s => Share ⟨p, q⟩ s) := by
    refine List.countP_congr fun s hs => ?_
    simp only [decide_eq_true_eq]
    constructor
    · intro hf
      by_contra hn
      exact hf (fits_of_not_share hpq hn)
    · rintro ⟨z, z1, z2⟩
      have hv : ∀ v ∈ l, ¬ OnSeg ⟨p, q⟩ v := by
        intro v hv hon
        obtain ⟨i, hi⟩ := List.getElem?_of_mem hv
        have := vertex_two (P := fun s => decide (Share ⟨p, q⟩ s)) hl h3 hi (by
          rintro t (rfl | rfl)
          · exact decide_eq_true ⟨_, hon, onSeg_left t⟩
          · exact decide_eq_true ⟨_, hon, onSeg_right t⟩)
        omega
      obtain ⟨e1, e2⟩ := edge_ends hs
      exact not_fits hpq z1 z2 (hv _ e1) (hv _ e2) (fun hh => hp ⟨s, hs, hh⟩) (fun hh => hq ⟨s, hs, hh⟩)
  omega

theorem sub_share {p q w : Pt K} (hw : OnSeg ⟨p, q⟩ w) {s : Seg K} (h : Share ⟨p, w⟩ s) : Share ⟨p, q⟩ s := by
  obtain ⟨z, h1, h2⟩ := h
  exact ⟨z, onSeg_mono (t := ⟨p, w⟩) (onSeg_left (⟨p, q⟩ : Seg K)) hw h1, h2⟩

open Classical in
/-- A segment has a point in the region exactly if one of its ends is in it or the segment meets at least two edges. -/
theorem meets_region_iff {l : List (Pt K)} (hl : l.head? = l.getLast?) (h3 : 3 ≤ l.length) (p q : Pt K) :
    (∃ w, OnSeg ⟨p, q⟩ w ∧ InRegion (edges l) w) ↔
      InRegion (edges l) p ∨ InRegion (edges l) q ∨ 2 ≤ (edges l).countP (fun s => Share ⟨p, q⟩ s) := by
  constructor
  · rintro ⟨w, hw, hr⟩
    by_contra hc
    rw [not_or, not_or] at hc
    obtain ⟨c1, c2, c3⟩ := hc
    have b1 : ¬ OnBoundary (edges l) p := fun h => c1 (.inl h)
    have b2 : ¬ OnBoundary (edges l) q := fun h => c2 (.inl h)
    have d1 : ncross (edges l) p % 2 ≠ 1 := fun h => c1 (.inr ⟨b1, h⟩)
    have d2 : ncross (edges l) q % 2 ≠ 1 := fun h => c2 (.inr ⟨b2, h⟩)
    have c4 : (edges l).countP (fun s => Share ⟨p, q⟩ s) ≠ 1 := fun h => parity_differs hl h3 b1 b2 h (by omega)
    have c5 : (edges l).countP (fun s => Share ⟨p, q⟩ s) = 0 := by omega
    rw [List.countP_eq_zero] at c5
    have c6 : ∀ s ∈ edges l, ¬ Share ⟨p, q⟩ s := fun s hs h => c5 s hs (decide_eq_true h)
    rcases hr with ⟨s, hs, hon⟩ | ⟨-, hr⟩
    · exact c6 s hs ⟨w, hw, hon⟩
    · have := parity_same hl (p := p) (q := w) fun s hs h => c6 s hs (sub_share hw h)
      omega
  · rintro (h | h | h)
    · exact ⟨p, onSeg_left (⟨p, q⟩ : Seg K), h⟩
    · exact ⟨q, onSeg_right (⟨p, q⟩ : Seg K), h⟩
    · have : 0 < (edges l).countP (fun s => Share ⟨p, q⟩ s) := by omega
      obtain ⟨s, hs, h⟩ := List.countP_pos_iff.1 this
      obtain ⟨z, h1, h2⟩ := of_decide_eq_true h
      exact ⟨z, h1, .inl ⟨s, hs, h2⟩⟩

/-- All points of a segment are inside exactly if its ends are and it meets no edge. -/
theorem all_inside_iff {l : List (Pt K)} (hl : l.head? = l.getLast?) (p q : Pt K) :
    (∀ w, OnSeg ⟨p, q⟩ w → Inside (edges l) w) ↔ Inside (edges l) p ∧ Inside (edges l) q ∧ ∀ s ∈ edges l, ¬ Share ⟨p, q⟩ s := by
  constructor
  · intro h
    refine ⟨h p (onSeg_left (⟨p, q⟩ : Seg K)), h q (onSeg_right (⟨p, q⟩ : Seg K)), ?_⟩
    rintro s hs ⟨z, h1, h2⟩
    exact (h z h1).1 ⟨s, hs, h2⟩
  · rintro ⟨h1, -, h3⟩ w hw
    refine ⟨?_, ?_⟩
    · rintro ⟨s, hs, hon⟩
      exact h3 s hs ⟨w, hw, hon⟩
    · rw [← parity_same hl (p := p) (q := w) fun s hs h => h3 s hs (sub_share hw h)]
      exact h1.2

/-- The points of the region are in the rectangle. -/
theorem region_rect {l : List (Pt K)} (hl : l.head? = l.getLast?) {r : Rect K} (hr : ∀ v ∈ l, r.Has v) {p : Pt K} (h : InRegion (edges l) p) : r.Has p := by
  rcases h with ⟨s, hs, hon⟩ | ⟨-, h⟩
  · obtain ⟨e1, e2⟩ := edge_ends hs
    have h1 := hr _ e1
    have h2 := hr _ e2
    have h3 := onSeg_rect hon
    exact ⟨(le_min h1.1 h2.1).trans h3.1, h3.2.1.trans (max_le h1.2.1 h2.2.1), (le_min h1.2.2.1 h2.2.2.1).trans h3.2.2.1,
      h3.2.2.2.trans (max_le h1.2.2.2 h2.2.2.2)⟩
  · by_contra hp
    have := crosses_even hr hl hp
    unfold ncross at h
    omega

/-- The points inside are in the interior of the rectangle. -/
theorem inside_rect {l : List (Pt K)} (hl : l.head? = l.getLast?) {r : Rect K} (hr : ∀ v ∈ l, r.Has v) {p : Pt K} (h : Inside (edges l) p) :
    r.lo.x < p.x ∧ p.x < r.hi.x ∧ r.lo.y < p.y ∧ p.y < r.hi.y := by
  have hp := region_rect hl hr (.inr h)
  -- a point outside of the rectangle cannot be joined to `p` without meeting the boundary
  have key : ∀ q : Pt K, (∀ w, OnSeg ⟨p, q⟩ w → r.Has w → w = p) → ¬ r.Has q → False := by
    intro q h1 h2
    have := parity_same hl (p := p) (q := q) (by
      rintro s hs ⟨w, w1, w2⟩
      have := h1 w w1 (region_rect hl hr (.inl ⟨s, hs, w2⟩))
      exact h.1 ⟨s, hs, this ▸ w2⟩)
    have h3 : ¬ InRegion (edges l) q := fun hq => h2 (region_rect hl hr hq)
    have h4 := h.2
    refine h3 (.inr ⟨fun hb => h3 (.inl hb), by omega⟩)
  have ex : ∀ (dx dy : K) (w : Pt K), OnSeg ⟨p, ⟨p.x + dx, p.y + dy⟩⟩ w → ∃ t, 0 ≤ t ∧ w.x = p.x + t * dx ∧ w.y = p.y + t * dy := by
    rintro dx dy w ⟨t, t0, -, tx, ty⟩
    refine ⟨t, t0, ?_, ?_⟩
    · simp only at tx; rw [tx]; ring
    · simp only at ty; rw [ty]; ring
  refine ⟨lt_of_le_of_ne hp.1 fun he => ?_, lt_of_le_of_ne hp.2.1 fun he => ?_, lt_of_le_of_ne hp.2.2.1 fun he => ?_, lt_of_le_of_ne hp.2.2.2 fun he => ?_⟩
  · refine key ⟨p.x + -1, p.y + 0⟩ (fun w hw hh => ?_) (fun hh => ?_)
    · obtain ⟨t, t0, tx, ty⟩ := ex _ _ w hw
      have := hh.1
      have ht : t = 0 := by linarith
      exact Pt.ext (by rw [tx, ht]; ring) (by rw [ty, ht]; ring)
    · have := hh.1
      simp only at this
      linarith
  · refine key ⟨p.x + 1, p.y + 0⟩ (fun w hw hh => ?_) (fun hh => ?_)
    · obtain ⟨t, t0, tx, ty⟩ := ex _ _ w hw
      have := hh.2.1
      have ht : t = 0 := by linarith
      exact Pt.ext (by rw [tx, ht]; ring) (by rw [ty, ht]; ring)
    · have := hh.2.1
      simp only at this
      linarith
  · refine key ⟨p.x + 0, p.y + -1⟩ (fun w hw hh => ?_) (fun hh => ?_)
    · obtain ⟨t, t0, tx, ty⟩ := ex _ _ w hw
      have := hh.2.2.1
      have ht : t = 0 := by linarith
      exact Pt.ext (by rw [tx, ht]; ring) (by rw [ty, ht]; ring)
    · have := hh.2.2.1
      simp only at this
      linarith
  · refine key ⟨p.x + 0, p.y + 1⟩ (fun w hw hh => ?_) (fun hh => ?_)
    · obtain ⟨t, t0, tx, ty⟩ := ex _ _ w hw
      have := hh.2.2.2
      have ht : t = 0 := by linarith
      exact Pt.ext (by rw [tx, ht]; ring) (by rw [ty, ht]; ring)
    · have := hh.2.2.2
      simp only at this
      linarith

end Tg.S
