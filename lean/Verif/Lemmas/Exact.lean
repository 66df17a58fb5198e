import Verif.Spec.Plane
import Verif.Lemmas.SeriesApi
import Mathlib.Tactic.LinearCombination
import Mathlib.Tactic.Positivity
/-! The predicates on segments in exact arithmetic. -/
namespace Tg.S

set_option linter.unusedSectionVars false

variable {K : Type*} [Field K] [LinearOrder K] [IsStrictOrderedRing K]

theorem exactCross0_iff (ε : K) (p1 p2 p3 : Pt K) (hx : p1.x ≠ p2.x) (hy : p1.y ≠ p2.y) :
    exactCross0 ε p1 p2 p3 = true ↔ (p3.x - p1.x) * (p2.y - p1.y) = (p3.y - p1.y) * (p2.x - p1.x) := by
  have hx' : p2.x - p1.x ≠ 0 := sub_ne_zero.2 (Ne.symm hx)
  have hy' : p2.y - p1.y ≠ 0 := sub_ne_zero.2 (Ne.symm hy)
  unfold exactCross0
  dsimp only
  rw [mul_div_cancel_right₀ _ hy', mul_div_cancel_right₀ _ hx']
  simp only [sub_self, lt_irrefl, ↓reduceIte, feq_iff]
  exact sub_eq_zero

theorem exactCollinear_iff {ε : K} {p1 p2 p3 : Pt K} (h : p1 ≠ p2) :
    exactCollinear ε p1 p2 p3 = true ↔ (p3.x - p1.x) * (p2.y - p1.y) = (p3.y - p1.y) * (p2.x - p1.x) := by
  unfold exactCollinear collinear
  by_cases hx : p1.x = p2.x
  · rw [if_pos ((feq_iff _ _).2 hx), feq_iff]
    have hy : p1.y ≠ p2.y := fun hy => h (Pt.ext hx hy)
    rw [hx, sub_self, mul_zero, mul_eq_zero, or_iff_left (sub_ne_zero.2 hy.symm), sub_eq_zero, eq_comm]
  · rw [if_neg (mt (feq_iff _ _).1 hx)]
    by_cases hy : p1.y = p2.y
    · rw [if_pos ((feq_iff _ _).2 hy), feq_iff, hy, sub_self, mul_zero, eq_comm (a := (0 : K)), mul_eq_zero,
        or_iff_left (sub_ne_zero.2 (Ne.symm hx)), sub_eq_zero, eq_comm]
    · rw [if_neg (mt (feq_iff _ _).1 hy)]
      split_ifs with h3
      · simp only [Bool.or_eq_true, Bool.and_eq_true, feq_iff] at h3
        simp only [true_iff]
        rcases h3 with (⟨h3, -⟩ | ⟨h3, h4⟩) | ⟨h3, h4⟩
        · exact absurd h3 hx
        · rw [← h3, ← h4]; ring
        · rw [← h3, ← h4]; ring
      · exact exactCross0_iff ε p1 p2 p3 hx hy

theorem onSeg_rect {s : Seg K} {p : Pt K} (h : OnSeg s p) : s.rect.Has p := by
  obtain ⟨t, h0, h1, hx, hy⟩ := h
  have key : ∀ a b : K, min a b ≤ a + t * (b - a) ∧ a + t * (b - a) ≤ max a b := by
    intro a b
    rcases le_total a b with h | h
    · rw [min_eq_left h, max_eq_right h]
      constructor <;> nlinarith
    · rw [min_eq_right h, max_eq_left h]
      constructor <;> nlinarith
  unfold Rect.Has Seg.rect
  rw [hx, hy]
  exact ⟨(key _ _).1, (key _ _).2, (key _ _).1, (key _ _).2⟩

/-- A point of the box that is in line with the segment is on it. -/
theorem onSeg_of {s : Seg K} {p : Pt K} (h : s.rect.Has p)
    (hc : (p.x - s.a.x) * (s.b.y - s.a.y) = (p.y - s.a.y) * (s.b.x - s.a.x)) : OnSeg s p := by
  obtain ⟨h1, h2, h3, h4⟩ := h
  simp only [Seg.rect] at h1 h2 h3 h4
  have frac : ∀ a b q : K, a ≠ b → min a b ≤ q → q ≤ max a b → 0 ≤ (q - a) / (b - a) ∧ (q - a) / (b - a) ≤ 1 := by
    intro a b q hab hl hr
    rcases lt_or_gt_of_ne hab with h | h
    · rw [min_eq_left h.le] at hl
      rw [max_eq_right h.le] at hr
      exact ⟨div_nonneg (by linarith) (by linarith), (div_le_one (by linarith)).2 (by linarith)⟩
    · rw [min_eq_right h.le] at hl
      rw [max_eq_left h.le] at hr
      exact ⟨div_nonneg_of_nonpos (by linarith) (by linarith), (div_le_one_of_neg (by linarith)).2 (by linarith)⟩
  by_cases hx : s.a.x = s.b.x
  · by_cases hy : s.a.y = s.b.y
    · rw [← hx, min_self] at h1
      rw [← hx, max_self] at h2
      rw [← hy, min_self] at h3
      rw [← hy, max_self] at h4
      exact ⟨0, le_rfl, zero_le_one, by rw [zero_mul, add_zero]; exact le_antisymm h2 h1, by
        rw [zero_mul, add_zero]; exact le_antisymm h4 h3⟩
    · have hy' : s.b.y - s.a.y ≠ 0 := sub_ne_zero.2 (Ne.symm hy)
      obtain ⟨f1, f2⟩ := frac _ _ _ hy h3 h4
      refine ⟨_, f1, f2, ?_, by field_simp; ring⟩
      rw [← hx, min_self] at h1
      rw [← hx, max_self] at h2
      rw [← hx, sub_self, mul_zero, add_zero]
      exact le_antisymm h2 h1
  · have hx' : s.b.x - s.a.x ≠ 0 := sub_ne_zero.2 (Ne.symm hx)
    obtain ⟨f1, f2⟩ := frac _ _ _ hx h1 h2
    refine ⟨_, f1, f2, by field_simp; ring, ?_⟩
    field_simp
    linear_combination -hc

theorem onSeg_cross {s : Seg K} {p : Pt K} (h : OnSeg s p) :
    (p.x - s.a.x) * (s.b.y - s.a.y) = (p.y - s.a.y) * (s.b.x - s.a.x) := by
  obtain ⟨t, -, -, hx, hy⟩ := h
  rw [hx, hy]; ring

theorem onSeg_iff (s : Seg K) (p : Pt K) : OnSeg s p ↔ s.rect.Has p ∧
    (p.x - s.a.x) * (s.b.y - s.a.y) = (p.y - s.a.y) * (s.b.x - s.a.x) :=
  ⟨fun h => ⟨onSeg_rect h, onSeg_cross h⟩, fun h => onSeg_of h.1 h.2⟩

theorem exactOnSeg_iff (ε : K) (p : Pt K) (s : Seg K) : exactOnSeg ε p s = true ↔ OnSeg s p := by
  unfold exactOnSeg
  rw [onSeg_iff, ← coversPt_iff]
  cases hr : s.rect.coversPt p with
  | false => simp
  | true =>
    simp only [Bool.not_true, Bool.false_eq_true, ↓reduceIte, true_and]
    by_cases h : s.a = s.b
    · rw [coversPt_iff] at hr
      obtain ⟨h1, h2, h3, h4⟩ := hr
      simp only [Seg.rect, ← h, min_self, max_self] at h1 h2 h3 h4
      have e1 := le_antisymm h2 h1
      have e2 := le_antisymm h4 h3
      constructor
      · intro _; rw [h]; ring
      · intro _
        rw [exactCollinear, collinear, if_pos ((feq_iff _ _).2 (by rw [h])), feq_iff, e1]
    · exact exactCollinear_iff h

theorem onSeg_left (s : Seg K) : OnSeg s s.a := ⟨0, le_rfl, zero_le_one, by ring, by ring⟩
theorem onSeg_right (s : Seg K) : OnSeg s s.b := ⟨1, zero_le_one, le_rfl, by ring, by ring⟩

theorem onSeg_swap {a b p : Pt K} (h : OnSeg ⟨a, b⟩ p) : OnSeg ⟨b, a⟩ p := by
  obtain ⟨t, h0, h1, hx, hy⟩ := h
  exact ⟨1 - t, by linarith, by linarith, by rw [hx]; ring, by rw [hy]; ring⟩

/-- The points of a segment are convex. -/
theorem onSeg_mono {s t : Seg K} (ha : OnSeg s t.a) (hb : OnSeg s t.b) {p : Pt K} (h : OnSeg t p) : OnSeg s p := by
  obtain ⟨u, u0, u1, ux, uy⟩ := ha
  obtain ⟨v, v0, v1, vx, vy⟩ := hb
  obtain ⟨w, w0, w1, wx, wy⟩ := h
  refine ⟨u + w * (v - u), ?_, ?_, ?_, ?_⟩
  · nlinarith
  · nlinarith
  · rw [wx, ux, vx]; ring
  · rw [wy, uy, vy]; ring

/-- The arithmetic part of the intersection test. -/
theorem exactSegX_iff (ε : K) (s t : Seg K) : exactSegX ε s t = true ↔ Share s t := by
  unfold exactSegX
  dsimp only
  constructor
  · intro h
    split_ifs at h with h1 h2 h3 h4
    · simp only [Bool.or_eq_true, exactOnSeg_iff] at h
      rcases h with ((h | h) | h) | h
      · exact ⟨_, h, onSeg_left t⟩
      · exact ⟨_, h, onSeg_right t⟩
      · exact ⟨_, onSeg_left s, h⟩
      · exact ⟨_, onSeg_right s, h⟩
    · -- c is between a and b in x
      rw [feq_iff] at h1
      simp only [Bool.or_eq_true, Bool.not_eq_true', not_or, bne_eq_false_iff_eq, bne_iff_ne, ne_eq, not_not] at h2
      have hne := h2.1
      rw [decide_eq_decide] at hne
      have hx : s.a.x ≠ s.b.x := by
        intro he; rw [he] at hne; exact hne Iff.rfl
      refine ⟨t.a, ?_, onSeg_left t⟩
      have hx' : s.b.x - s.a.x ≠ 0 := sub_ne_zero.2 (Ne.symm hx)
      refine ⟨(t.a.x - s.a.x) / (s.b.x - s.a.x), ?_, ?_, by field_simp; ring, by field_simp; linear_combination -h1⟩
      · rcases lt_or_gt_of_ne hx with h | h
        · have : s.a.x ≤ t.a.x := by
            by_contra hc
            exact hne ⟨fun _ => by linarith, fun _ => by linarith⟩
          exact div_nonneg (by linarith) (by linarith)
        · have : t.a.x ≤ s.a.x := by
            by_contra hc
            exact hne ⟨fun _ => by linarith, fun _ => by linarith⟩
          exact div_nonneg_of_nonpos (by linarith) (by linarith)
      · rcases lt_or_gt_of_ne hx with h | h
        · have : t.a.x ≤ s.b.x := by
            by_contra hc
            exact hne ⟨fun _ => by linarith, fun _ => by linarith⟩
          exact (div_le_one (by linarith)).2 (by linarith)
        · have : s.b.x ≤ t.a.x := by
            by_contra hc
            exact hne ⟨fun _ => by linarith, fun _ => by linarith⟩
          exact (div_le_one_of_neg (by linarith)).2 (by linarith)
    · rw [feq_iff] at h1 h3
      simp only [Bool.not_eq_true', Bool.not_eq_false, Bool.and_eq_true, decide_eq_true_eq] at h4
      obtain ⟨⟨⟨t0, t1⟩, u0⟩, u1⟩ := h4
      refine ⟨⟨s.a.x + _ * (s.b.x - s.a.x), s.a.y + _ * (s.b.y - s.a.y)⟩, ⟨_, t0, t1, rfl, rfl⟩, ⟨_, u0, u1, ?_, ?_⟩⟩
      · linear_combination (t.a.x - s.a.x) * mul_one_div_cancel h3
      · linear_combination (t.a.y - s.a.y) * mul_one_div_cancel h3
  · rintro ⟨p, ⟨τ, t0, t1, tx, ty⟩, ⟨u, u0, u1, ux, uy⟩⟩
    have ex : s.a.x + τ * (s.b.x - s.a.x) = t.a.x + u * (t.b.x - t.a.x) := by rw [← tx, ux]
    have ey : s.a.y + τ * (s.b.y - s.a.y) = t.a.y + u * (t.b.y - t.a.y) := by rw [← ty, uy]
    have hcr : (t.a.x - s.a.x) * (s.b.y - s.a.y) - (t.a.y - s.a.y) * (s.b.x - s.a.x)
        = u * ((s.b.x - s.a.x) * (t.b.y - t.a.y) - (s.b.y - s.a.y) * (t.b.x - t.a.x)) := by
      linear_combination -(s.b.y - s.a.y) * ex + (s.b.x - s.a.x) * ey
    split_ifs with h1 h2 h3 h4
    · rw [feq_iff] at h1
      simp only [Bool.or_eq_true, exactOnSeg_iff]
      rw [h1, eq_comm, mul_eq_zero] at hcr
      rcases hcr with hu | hp
      · refine .inl (.inl (.inl ⟨τ, t0, t1, ?_, ?_⟩))
        · rw [hu] at ex; linarith
        · rw [hu] at ey; linarith
      · by_cases hs : s.a = s.b
        · refine .inl (.inr ⟨u, u0, u1, ?_, ?_⟩)
          · rw [← ex, hs]; ring
          · rw [← ey, hs]; ring
        · -- all on one line: c = a + γ r, d = a + (γ + l) r
          obtain ⟨l, lx, ly⟩ : ∃ l : K, t.b.x - t.a.x = l * (s.b.x - s.a.x) ∧ t.b.y - t.a.y = l * (s.b.y - s.a.y) := by
            by_cases hx : s.a.x = s.b.x
            · have hy : s.b.y - s.a.y ≠ 0 := fun h => hs (Pt.ext hx (sub_eq_zero.1 h).symm)
              refine ⟨(t.b.y - t.a.y) / (s.b.y - s.a.y), ?_, by field_simp⟩
              rw [hx, sub_self, zero_mul, zero_sub, neg_eq_zero, mul_eq_zero, or_iff_right hy] at hp
              rw [hp, hx, sub_self, mul_zero]
            · have hx' : s.b.x - s.a.x ≠ 0 := sub_ne_zero.2 (Ne.symm hx)
              refine ⟨(t.b.x - t.a.x) / (s.b.x - s.a.x), by field_simp, ?_⟩
              field_simp
              linear_combination hp
          set γ := τ - u * l with hγ
          have cx : t.a.x = s.a.x + γ * (s.b.x - s.a.x) := by rw [lx] at ex; rw [hγ]; linear_combination -ex
          have cy : t.a.y = s.a.y + γ * (s.b.y - s.a.y) := by rw [ly] at ey; rw [hγ]; linear_combination -ey
          have dx : t.b.x = s.a.x + (γ + l) * (s.b.x - s.a.x) := by linear_combination lx + cx
          have dy : t.b.y = s.a.y + (γ + l) * (s.b.y - s.a.y) := by linear_combination ly + cy
          by_cases c1 : 0 ≤ γ ∧ γ ≤ 1
          · exact .inl (.inl (.inl ⟨γ, c1.1, c1.2, cx, cy⟩))
          by_cases c2 : 0 ≤ γ + l ∧ γ + l ≤ 1
          · exact .inl (.inl (.inr ⟨γ + l, c2.1, c2.2, dx, dy⟩))
          have hτ : τ = γ + u * l := by rw [hγ]; ring
          refine .inl (.inr ?_)
          -- 0 lies between γ and γ + l
          rcases lt_trichotomy l 0 with hl | hl | hl
          · have g1 : 1 < γ := by
              by_contra hc
              rw [not_lt] at hc
              rw [not_and_or, not_le, not_le] at c1
              rcases c1 with c1 | c1
              · nlinarith
              · linarith
            have g2 : γ + l < 0 := by
              rw [not_and_or, not_le, not_le] at c2
              rcases c2 with c2 | c2
              · exact c2
              · nlinarith
            refine ⟨γ / (-l), div_nonneg (by linarith) (by linarith), (div_le_one (by linarith)).2 (by linarith), ?_, ?_⟩
            · rw [lx, cx]; have := hl.ne; field_simp; ring
            · rw [ly, cy]; have := hl.ne; field_simp; ring
          · rw [hl, mul_zero, add_zero] at hτ
            exact absurd ⟨by rw [← hτ]; exact t0, by rw [← hτ]; exact t1⟩ c1
          · have g1 : γ < 0 := by
              rw [not_and_or, not_le, not_le] at c1
              rcases c1 with c1 | c1
              · exact c1
              · nlinarith
            have g2 : 1 < γ + l := by
              rw [not_and_or, not_le, not_le] at c2
              rcases c2 with c2 | c2
              · nlinarith
              · exact c2
            refine ⟨(-γ) / l, div_nonneg (by linarith) (by linarith), (div_le_one (by linarith)).2 (by linarith), ?_, ?_⟩
            · rw [lx, cx]; have := hl.ne'; field_simp; ring
            · rw [ly, cy]; have := hl.ne'; field_simp; ring
    · rfl
    · rw [feq_iff] at h1 h3
      rw [h3, mul_zero] at hcr
      exact absurd hcr h1
    · rw [feq_iff] at h1 h3
      exfalso
      have hcs : (t.a.x - s.a.x) * (t.b.y - t.a.y) - (t.a.y - s.a.y) * (t.b.x - t.a.x)
          = τ * ((s.b.x - s.a.x) * (t.b.y - t.a.y) - (s.b.y - s.a.y) * (t.b.x - t.a.x)) := by
        linear_combination -(t.b.y - t.a.y) * ex + (t.b.x - t.a.x) * ey
      have e1 := hcs
      rw [hcs, hcr, mul_assoc, mul_one_div_cancel h3, mul_one, mul_assoc, mul_one_div_cancel h3, mul_one] at h4
      simp [t0, t1, u0, u1] at h4
    · rfl

end Tg.S
