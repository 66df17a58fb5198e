import Verif.Spec.Decimal
import Verif.Lemmas.MarginGeo
import Verif.Lemmas.Move
/-! What rounding to doubles keeps of decimals. -/
set_option linter.unusedSectionVars false
namespace Tg.S

open Tg.Spec.Double Tg.Double

/-- `f` moves the numbers of `D` by little, compared to `M` and to their differences. -/
structure Keeps (f : ℚ → ℚ) (M u : ℚ) (D : ℚ → Prop) : Prop where
  m0 : 0 < M
  u0 : 0 < u
  near : ∀ x, D x → |f x - x| ≤ M / 2 ^ 53
  nearU : ∀ x, D x → |f x - x| ≤ u / 8
  gap : ∀ x y, D x → D y → x < y → x + u ≤ y

/-- The same sign. -/
def SameSign (a b : ℚ) : Prop := (0 < a ↔ 0 < b) ∧ (a < 0 ↔ b < 0)

theorem SameSign.mul {a b c d : ℚ} (h : SameSign a b) (k : SameSign c d) : SameSign (a * c) (b * d) := by
  constructor
  · rw [mul_pos_iff, mul_pos_iff, h.1, h.2, k.1, k.2]
  · rw [mul_neg_iff, mul_neg_iff, h.1, h.2, k.1, k.2]

theorem SameSign.neg {a b : ℚ} (h : SameSign a b) : SameSign (-a) (-b) := by
  constructor
  · rw [neg_pos, neg_pos, h.2]
  · rw [neg_lt_zero, neg_lt_zero, h.1]

theorem SameSign.zero {a b : ℚ} (h : SameSign a b) : a = 0 ↔ b = 0 := by
  constructor
  · rintro rfl
    exact le_antisymm (not_lt.1 fun k => lt_irrefl _ (h.1.2 k)) (not_lt.1 fun k => lt_irrefl _ (h.2.2 k))
  · rintro rfl
    exact le_antisymm (not_lt.1 fun k => lt_irrefl _ (h.1.1 k)) (not_lt.1 fun k => lt_irrefl _ (h.2.1 k))

/-- Both coordinates are in `D`. -/
def InD (D : ℚ → Prop) (p : Pt ℚ) : Prop := D p.x ∧ D p.y

/-- The segment of the images. -/
def Seg.each (f : ℚ → ℚ) (s : Seg ℚ) : Seg ℚ := ⟨s.a.each f, s.b.each f⟩

section
variable {f : ℚ → ℚ} {M u : ℚ} {D : ℚ → Prop} (K : Keeps f M u D)
include K

theorem Keeps.lt {x y : ℚ} (hx : D x) (hy : D y) : f x < f y ↔ x < y := by
  have mono : ∀ x y, D x → D y → x < y → f x < f y := by
    intro x y hx hy h
    have h1 := K.gap x y hx hy h
    have h2 := abs_le.1 (K.nearU x hx)
    have h3 := abs_le.1 (K.nearU y hy)
    have := K.u0
    linarith [h2.1, h2.2, h3.1, h3.2]
  refine ⟨fun h => ?_, mono x y hx hy⟩
  rcases lt_trichotomy x y with k | rfl | k
  · exact k
  · exact absurd h (lt_irrefl _)
  · exact absurd (mono y x hy hx k) (not_lt.2 h.le)

theorem Keeps.le {x y : ℚ} (hx : D x) (hy : D y) : f x ≤ f y ↔ x ≤ y := by rw [← not_lt, K.lt hy hx, not_lt]

theorem Keeps.eq {x y : ℚ} (hx : D x) (hy : D y) : f x = f y ↔ x = y := by
  rw [le_antisymm_iff, K.le hx hy, K.le hy hx, ← le_antisymm_iff]

theorem Keeps.pt_eq {p q : Pt ℚ} (hp : InD D p) (hq : InD D q) : p.each f = q.each f ↔ p = q := by
  constructor
  · intro h
    have h1 := congrArg Pt.x h
    have h2 := congrArg Pt.y h
    exact Pt.ext ((K.eq hp.1 hq.1).1 h1) ((K.eq hp.2 hq.2).1 h2)
  · rintro rfl; rfl

theorem Keeps.sub {x y : ℚ} (hx : D x) (hy : D y) : SameSign (f x - f y) (x - y) :=
  ⟨by rw [sub_pos, sub_pos, K.lt hy hx], by rw [sub_neg, sub_neg, K.lt hx hy]⟩

theorem Keeps.diff {x y : ℚ} (hx : D x) (hy : D y) : |(f x - f y) - (x - y)| ≤ M / 2 ^ 52 := by
  have h2 := abs_le.1 (K.near x hx)
  have h3 := abs_le.1 (K.near y hy)
  rw [abs_le]
  constructor <;> linarith [h2.1, h2.2, h3.1, h3.2]

theorem mul_near {a b c d e : ℚ} (h1 : |a - b| ≤ e) (h2 : |c - d| ≤ e) : |a * c - b * d| ≤ e * (|b| + |d|) + e * e := by
  have e1 : a * c - b * d = b * (c - d) + d * (a - b) + (a - b) * (c - d) := by ring
  have e0 : 0 ≤ e := (abs_nonneg _).trans h1
  rw [e1]
  refine (abs_add_le _ _).trans (add_le_add ((abs_add_le _ _).trans ?_) ?_)
  · rw [abs_mul, abs_mul]
    have := mul_le_mul_of_nonneg_left h2 (abs_nonneg b)
    have := mul_le_mul_of_nonneg_left h1 (abs_nonneg d)
    linarith
  · rw [abs_mul]
    exact mul_le_mul h1 h2 (abs_nonneg _) e0

/-- A point that is away from the line stays away from it and on the same side. -/
theorem Keeps.off {s : Seg ℚ} {p : Pt ℚ} (ha : InD D s.a) (hb : InD D s.b) (hp : InD D p) (h : OffDec M s p) :
    Off M (s.each f) (p.each f) ∧ SameSign (cross (s.each f) (p.each f)) (cross s p) := by
  obtain ⟨⟨ax, ay⟩, ⟨bx, yb⟩⟩ := s
  obtain ⟨px, py⟩ := p
  have d1 := K.diff hb.1 ha.1
  have d2 := K.diff hb.2 ha.2
  have d3 := K.diff hp.1 ha.1
  have d4 := K.diff hp.2 ha.2
  have m0 := K.m0
  unfold OffDec cross at h
  unfold Off cross
  dsimp only [Seg.each, Pt.each] at *
  generalize f bx - f ax = w' at *
  generalize f yb - f ay = h' at *
  generalize f px - f ax = x' at *
  generalize f py - f ay = y' at *
  generalize bx - ax = w at *
  generalize yb - ay = v at *
  generalize px - ax = x at *
  generalize py - ay = y at *
  have p1 := mul_near K d1 d4
  have p2 := mul_near K d2 d3
  have hc : |(w' * y' - h' * x') - (w * y - v * x)| ≤ M / 2 ^ 52 * ((|w| + |v|) + (|x| + |y|)) + 2 * (M / 2 ^ 52 * (M / 2 ^ 52)) := by
    have e : (w' * y' - h' * x') - (w * y - v * x) = (w' * y' - w * y) - (h' * x' - v * x) := by ring
    rw [e]
    refine (abs_sub _ _).trans ?_
    linarith
  have q1 : |w'| ≤ |w| + M / 2 ^ 52 := by
    have := abs_add_le (w' - w) w
    rw [sub_add_cancel] at this
    linarith
  have q2 : |h'| ≤ |v| + M / 2 ^ 52 := by
    have := abs_add_le (h' - v) v
    rw [sub_add_cancel] at this
    linarith
  have q3 : |w'| + |h'| ≤ (|w| + |v|) + M / 2 ^ 51 := by linarith
  have hST : |w * y - v * x| ≤ (|w| + |v|) * (|x| + |y|) := by
    refine (abs_sub _ _).trans ?_
    rw [abs_mul, abs_mul]
    have := mul_nonneg (abs_nonneg w) (abs_nonneg x)
    have := mul_nonneg (abs_nonneg v) (abs_nonneg y)
    linarith
  have S0 : 0 ≤ |w| + |v| := by positivity
  have T0 : 0 ≤ |x| + |y| := by positivity
  generalize w' * y' - h' * x' = c' at *
  generalize w * y - v * x = c at *
  generalize |w| + |v| = S at *
  generalize |x| + |y| = T at *
  have hT : M / 2 ^ 45 < T := by
    by_contra hn
    have h1 : S * T ≤ S * (M / 2 ^ 45) := mul_le_mul_of_nonneg_left (not_lt.1 hn) S0
    have h2 : 0 ≤ M * T / 2 ^ 45 := by positivity
    have : M * (S + T) / 2 ^ 45 = S * (M / 2 ^ 45) + M * T / 2 ^ 45 := by ring
    linarith
  have hq : 2 * (M / 2 ^ 52 * (M / 2 ^ 52)) ≤ M / 2 ^ 52 * T := by
    have : M / 2 ^ 52 * (2 * (M / 2 ^ 52)) ≤ M / 2 ^ 52 * T := by
      refine mul_le_mul_of_nonneg_left ?_ (by positivity)
      have : 2 * (M / 2 ^ 52) ≤ M / 2 ^ 45 := by linarith
      linarith
    linarith
  have MT : 0 < M * T := mul_pos m0 (lt_of_le_of_lt (by positivity) hT)
  have MS : 0 ≤ M * S := mul_nonneg m0.le S0
  have hd : |c' - c| ≤ (M * S + M * T) / 2 ^ 51 := by
    refine hc.trans ?_
    have e1 : M / 2 ^ 52 * (S + T) = (M * S + M * T) / 2 ^ 52 := by ring
    have e2 : M / 2 ^ 52 * T = M * T / 2 ^ 52 := by ring
    rw [e1]
    rw [e2] at hq
    linarith
  have hb' : (M * S + M * T) / 2 ^ 45 < |c| := by
    have e1 : M * (S + T) / 2 ^ 45 = (M * S + M * T) / 2 ^ 45 := by ring
    rwa [e1] at h
  have hk : |c' - c| < |c| := by linarith
  refine ⟨?_, ?_⟩
  · have h1 : |c| - |c' - c| ≤ |c'| := by
      have := abs_add_le (c - c') c'
      rw [sub_add_cancel, abs_sub_comm] at this
      linarith
    have h2 : M * (|w'| + |h'|) ≤ M * (S + T) := by
      refine mul_le_mul_of_nonneg_left ?_ m0.le
      linarith
    have e1 : M * (S + T) = M * S + M * T := by ring
    rw [e1] at h2
    linarith
  · rcases lt_trichotomy c 0 with k | k | k
    · rw [abs_of_neg k] at hk
      have := abs_lt.1 hk
      exact ⟨iff_of_false (by linarith [this.2]) (by linarith), iff_of_true (by linarith [this.2]) k⟩
    · rw [k, abs_zero] at hk
      exact absurd hk (not_lt.2 (abs_nonneg _))
    · rw [abs_of_pos k] at hk
      have := abs_lt.1 hk
      exact ⟨iff_of_true (by linarith [this.1]) k, iff_of_false (by linarith [this.1]) (by linarith)⟩

theorem Keeps.inBox {s : Seg ℚ} {p : Pt ℚ} (ha : InD D s.a) (hb : InD D s.b) (hp : InD D p) : InBox (s.each f) (p.each f) ↔ InBox s p := by
  unfold InBox
  dsimp only [Seg.each, Pt.each]
  rw [K.le ha.1 hp.1, K.le hb.1 hp.1, K.le hp.1 ha.1, K.le hp.1 hb.1, K.le ha.2 hp.2, K.le hb.2 hp.2, K.le hp.2 ha.2, K.le hp.2 hb.2]

theorem Keeps.clear {s : Seg ℚ} {p : Pt ℚ} (ha : InD D s.a) (hb : InD D s.b) (hp : InD D p) (h : ClearDec M s p) : Clear M (s.each f) (p.each f) := by
  rcases h with h | h | h | h | h | h
  · exact .inl (K.off ha hb hp h).1
  · exact .inr (.inl (by rw [h]; rfl))
  · exact .inr (.inr (.inl (by rw [h]; rfl)))
  · exact .inr (.inr (.inr (.inl (congrArg f h))))
  · exact .inr (.inr (.inr (.inr (.inl (congrArg f h)))))
  · refine .inr (.inr (.inr (.inr (.inr ⟨fun k => h.1 ((K.inBox ha hb hp).1 k), ?_⟩))))
    dsimp only [Seg.each, Pt.each]
    rw [K.lt hp.1 ha.1, K.lt hp.1 hb.1]
    intro hl he
    refine h.2 hl ?_
    rcases le_total s.a.y s.b.y with k | k
    · rw [max_eq_right ((K.le ha.2 hb.2).2 k), K.eq hp.2 hb.2] at he
      rw [he, max_eq_right k]
    · rw [max_eq_left ((K.le hb.2 ha.2).2 k), K.eq hp.2 ha.2] at he
      rw [he, max_eq_left k]

omit K in
theorem onSeg_box (s : Seg ℚ) (p : Pt ℚ) : OnSeg s p ↔ InBox s p ∧ cross s p = 0 := by
  rw [onSeg_iff]
  refine and_congr ⟨fun h1 => ⟨min_le_iff.1 h1.1, le_max_iff.1 h1.2.1, min_le_iff.1 h1.2.2.1, le_max_iff.1 h1.2.2.2⟩,
    fun h1 => ⟨min_le_iff.2 h1.1, le_max_iff.2 h1.2.1, min_le_iff.2 h1.2.2.1, le_max_iff.2 h1.2.2.2⟩⟩ ?_
  unfold cross
  constructor <;> intro h <;> linarith

omit K in
theorem crosses_sign (s : Seg ℚ) (p : Pt ℚ) : Crosses s p ↔ (s.a.y ≤ p.y ∧ p.y < s.b.y ∧ 0 < cross s p) ∨ (s.b.y ≤ p.y ∧ p.y < s.a.y ∧ cross s p < 0) := by
  obtain ⟨a, b⟩ := s
  rcases le_total a.y b.y with h | h
  · rw [crosses_iff h]
    unfold cross
    dsimp only
    constructor
    · rintro ⟨h1, h2, h3⟩
      exact .inl ⟨h1, h2, by linarith⟩
    · rintro (⟨h1, h2, h3⟩ | ⟨h1, h2, -⟩)
      · exact ⟨h1, h2, by linarith⟩
      · exact absurd (h1.trans_lt h2) (not_lt.2 h)
  · have hsw : Crosses ⟨a, b⟩ p ↔ Crosses ⟨b, a⟩ p := by
      unfold Crosses
      dsimp only
      rw [min_comm, max_comm]
      exact and_congr_right fun _ => and_congr_right fun _ => exists_congr fun _ => and_congr_right fun _ => ⟨onSeg_swap, onSeg_swap⟩
    rw [hsw, crosses_iff h]
    unfold cross
    dsimp only
    constructor
    · rintro ⟨h1, h2, h3⟩
      exact .inr ⟨h1, h2, by linarith⟩
    · rintro (⟨h1, h2, -⟩ | ⟨h1, h2, h3⟩)
      · exact absurd (h1.trans_lt h2) (not_lt.2 h)
      · exact ⟨h1, h2, by linarith⟩

omit K in
theorem cross_split (s : Seg ℚ) (p : Pt ℚ) : cross s p = (s.a.x - p.x) * (s.b.y - p.y) + (s.b.x - p.x) * (p.y - s.a.y) := by
  unfold cross; ring

omit K in
theorem crosses_left {s : Seg ℚ} {p : Pt ℚ} (h1 : p.x < s.a.x) (h2 : p.x < s.b.x) : Crosses s p ↔ (s.a.y ≤ p.y ∧ p.y < s.b.y) ∨ (s.b.y ≤ p.y ∧ p.y < s.a.y) := by
  rw [crosses_sign, cross_split]
  constructor
  · exact Or.imp (fun h => ⟨h.1, h.2.1⟩) fun h => ⟨h.1, h.2.1⟩
  · refine Or.imp (fun h => ⟨h.1, h.2, ?_⟩) fun h => ⟨h.1, h.2, ?_⟩
    · have := mul_pos (sub_pos.2 h1) (sub_pos.2 h.2)
      have := mul_nonneg (sub_pos.2 h2).le (sub_nonneg.2 h.1)
      linarith
    · have := mul_nonneg (sub_pos.2 h1).le (sub_nonneg.2 h.1)
      have := mul_pos (sub_pos.2 h2) (sub_pos.2 h.2)
      linarith

omit K in
theorem crosses_right {s : Seg ℚ} {p : Pt ℚ} (h1 : s.a.x < p.x) (h2 : s.b.x < p.x) : ¬ Crosses s p := by
  rw [crosses_sign, cross_split]
  rintro (⟨a, b, h⟩ | ⟨a, b, h⟩)
  · have := mul_pos (sub_pos.2 h1) (sub_pos.2 b)
    have := mul_nonneg (sub_pos.2 h2).le (sub_nonneg.2 a)
    linarith
  · have := mul_nonneg (sub_pos.2 h1).le (sub_nonneg.2 a)
    have := mul_pos (sub_pos.2 h2) (sub_pos.2 b)
    linarith

/-- The ray and the segment are the same after rounding. -/
theorem Keeps.seg {s : Seg ℚ} {p : Pt ℚ} (ha : InD D s.a) (hb : InD D s.b) (hp : InD D p) (h : ClearDec M s p) :
    (OnSeg (s.each f) (p.each f) ↔ OnSeg s p) ∧ (Crosses (s.each f) (p.each f) ↔ Crosses s p) := by
  have main : SameSign (cross (s.each f) (p.each f)) (cross s p) →
      (OnSeg (s.each f) (p.each f) ↔ OnSeg s p) ∧ (Crosses (s.each f) (p.each f) ↔ Crosses s p) := by
    intro hs
    rw [onSeg_box, onSeg_box, K.inBox ha hb hp, hs.zero, crosses_sign, crosses_sign, hs.1, hs.2]
    refine ⟨Iff.rfl, ?_⟩
    dsimp only [Seg.each, Pt.each]
    rw [K.le ha.2 hp.2, K.lt hp.2 hb.2, K.le hb.2 hp.2, K.lt hp.2 ha.2]
  rcases h with h | h | h | h | h | h
  · exact main (K.off ha hb hp h).2
  · refine main ?_
    subst h
    unfold cross
    dsimp only [Seg.each, Pt.each]
    rw [sub_self, sub_self, sub_self, sub_self, mul_zero, mul_zero, mul_zero, mul_zero]
    exact ⟨Iff.rfl, Iff.rfl⟩
  · refine main ?_
    subst h
    unfold cross
    dsimp only [Seg.each, Pt.each]
    rw [mul_comm, sub_self, mul_comm (s.b.x - s.a.x), sub_self]
    exact ⟨Iff.rfl, Iff.rfl⟩
  · refine main ?_
    unfold cross
    dsimp only [Seg.each, Pt.each]
    rw [h, sub_self, sub_self, zero_mul, zero_mul, zero_sub, zero_sub]
    exact ((K.sub hb.2 ha.2).mul (K.sub hp.1 hb.1)).neg
  · refine main ?_
    unfold cross
    dsimp only [Seg.each, Pt.each]
    rw [h, sub_self, sub_self, zero_mul, zero_mul, sub_zero, sub_zero]
    exact (K.sub hb.1 ha.1).mul (K.sub hp.2 hb.2)
  · refine ⟨iff_of_false (fun k => h.1 ((K.inBox ha hb hp).1 ((onSeg_box _ _).1 k).1)) fun k => h.1 ((onSeg_box _ _).1 k).1, ?_⟩
    by_cases hl : p.x < s.a.x ∧ p.x < s.b.x
    · have hl' : (p.each f).x < (s.each f).a.x ∧ (p.each f).x < (s.each f).b.x := ⟨(K.lt hp.1 ha.1).2 hl.1, (K.lt hp.1 hb.1).2 hl.2⟩
      rw [crosses_left hl.1 hl.2, crosses_left hl'.1 hl'.2]
      dsimp only [Seg.each, Pt.each]
      rw [K.le ha.2 hp.2, K.lt hp.2 hb.2, K.le hb.2 hp.2, K.lt hp.2 ha.2]
    by_cases hr : s.a.x < p.x ∧ s.b.x < p.x
    · exact iff_of_false (crosses_right (s := s.each f) ((K.lt ha.1 hp.1).2 hr.1) ((K.lt hb.1 hp.1).2 hr.2)) (crosses_right hr.1 hr.2)
    rw [not_and_or, not_lt, not_lt] at hl hr
    have key : ¬ ((s.a.y ≤ p.y ∨ s.b.y ≤ p.y) ∧ (p.y ≤ s.a.y ∨ p.y ≤ s.b.y)) := fun k => h.1 ⟨hl, hr, k⟩
    rw [crosses_sign, crosses_sign]
    dsimp only [Seg.each, Pt.each]
    rw [K.le ha.2 hp.2, K.lt hp.2 hb.2, K.le hb.2 hp.2, K.lt hp.2 ha.2]
    refine iff_of_false ?_ ?_
    · rintro (⟨a, b, -⟩ | ⟨a, b, -⟩)
      · exact key ⟨.inl a, .inr b.le⟩
      · exact key ⟨.inr a, .inl b.le⟩
    · rintro (⟨a, b, -⟩ | ⟨a, b, -⟩)
      · exact key ⟨.inl a, .inr b.le⟩
      · exact key ⟨.inr a, .inl b.le⟩

/-! ### Two segments -/

omit K in
/-- Where the crossing is. -/
theorem share_of_signs {s t : Seg ℚ} (h1 : cross s t.a * cross s t.b < 0) (h2 : cross t s.a * cross t s.b < 0) : Share s t := by
  have hd1 : cross s t.a - cross s t.b ≠ 0 := by
    intro h
    rw [sub_eq_zero.1 h] at h1
    exact absurd h1 (not_lt.2 (mul_self_nonneg _))
  have hd2 : cross t s.a - cross t s.b ≠ 0 := by
    intro h
    rw [sub_eq_zero.1 h] at h2
    exact absurd h2 (not_lt.2 (mul_self_nonneg _))
  have frac : ∀ a b : ℚ, a * b < 0 → a - b ≠ 0 → 0 ≤ a / (a - b) ∧ a / (a - b) ≤ 1 := by
    intro a b hab hd
    rcases mul_neg_iff.1 hab with ⟨x, y⟩ | ⟨x, y⟩
    · exact ⟨div_nonneg x.le (by linarith), (div_le_one (by linarith)).2 (by linarith)⟩
    · exact ⟨div_nonneg_of_nonpos x.le (by linarith), (div_le_one_of_neg (by linarith)).2 (by linarith)⟩
  obtain ⟨f1, f2⟩ := frac _ _ h1 hd1
  obtain ⟨g1, g2⟩ := frac _ _ h2 hd2
  have e1 : cross s t.a - cross s t.b = -(cross t s.a - cross t s.b) := by unfold cross; ring
  refine ⟨⟨t.a.x + cross s t.a / (cross s t.a - cross s t.b) * (t.b.x - t.a.x), t.a.y + cross s t.a / (cross s t.a - cross s t.b) * (t.b.y - t.a.y)⟩,
    ⟨_, g1, g2, ?_, ?_⟩, ⟨_, f1, f2, rfl, rfl⟩⟩
  · have e2 : (cross t s.a - cross t s.b) * (t.a.x - s.a.x) = cross s t.a * (t.b.x - t.a.x) + cross t s.a * (s.b.x - s.a.x) := by unfold cross; ring
    dsimp only
    rw [e1]
    generalize cross t s.a - cross t s.b = d at *
    field_simp
    linarith
  · have e2 : (cross t s.a - cross t s.b) * (t.a.y - s.a.y) = cross s t.a * (t.b.y - t.a.y) + cross t s.a * (s.b.y - s.a.y) := by unfold cross; ring
    dsimp only
    rw [e1]
    generalize cross t s.a - cross t s.b = d at *
    field_simp
    linarith

omit K in
theorem signs_of_share {s t : Seg ℚ} (h : Share s t) (h1 : cross s t.a ≠ 0) (h2 : cross s t.b ≠ 0) : cross s t.a * cross s t.b < 0 := by
  obtain ⟨p, hs, u, u0, u1, hx, hy⟩ := h
  have hc := ((onSeg_box _ _).1 hs).2
  have e : cross s p = (1 - u) * cross s t.a + u * cross s t.b := by
    unfold cross
    rw [hx, hy]
    ring
  rw [e] at hc
  rcases lt_or_gt_of_ne h1 with a | a <;> rcases lt_or_gt_of_ne h2 with b | b
  · exfalso
    have := mul_nonneg (sub_nonneg.2 u1) (neg_pos.2 a).le
    have := mul_nonneg u0 (neg_pos.2 b).le
    nlinarith
  · exact mul_neg_of_neg_of_pos a b
  · exact mul_neg_of_pos_of_neg a b
  · exfalso
    nlinarith [mul_nonneg (sub_nonneg.2 u1) a.le, mul_nonneg u0 b.le]

theorem Keeps.share {s t : Seg ℚ} (hs : InD D s.a ∧ InD D s.b) (ht : InD D t.a ∧ InD D t.b) (h : ApartDec M s t) :
    Apart M (s.each f) (t.each f) ∧ (Share (s.each f) (t.each f) ↔ Share s t) := by
  rcases h with ⟨o1, o2, o3, o4⟩ | h | h
  · have k1 := K.off hs.1 hs.2 ht.1 o1
    have k2 := K.off hs.1 hs.2 ht.2 o2
    have k3 := K.off ht.1 ht.2 hs.1 o3
    have k4 := K.off ht.1 ht.2 hs.2 o4
    refine ⟨.inl ⟨k1.1, k2.1, k3.1, k4.1⟩, ?_⟩
    have n : ∀ {s : Seg ℚ} {p : Pt ℚ}, OffDec M s p → cross s p ≠ 0 := by
      intro s p h e
      rw [OffDec, e, abs_zero] at h
      have := K.m0
      exact absurd h (not_lt.2 (by positivity))
    have char : ∀ {s t : Seg ℚ}, cross s t.a ≠ 0 → cross s t.b ≠ 0 → cross t s.a ≠ 0 → cross t s.b ≠ 0 →
        (Share s t ↔ cross s t.a * cross s t.b < 0 ∧ cross t s.a * cross t s.b < 0) := fun a b c d =>
      ⟨fun h => ⟨signs_of_share h a b, signs_of_share (h.imp fun _ k => ⟨k.2, k.1⟩) c d⟩, fun h => share_of_signs h.1 h.2⟩
    rw [char (n o1) (n o2) (n o3) (n o4), char (mt k1.2.zero.1 (n o1)) (mt k2.2.zero.1 (n o2)) (mt k3.2.zero.1 (n o3)) (mt k4.2.zero.1 (n o4))]
    exact and_congr (k1.2.mul k2.2).2 (k3.2.mul k4.2).2
  · have sh : ∀ {s t : Seg ℚ}, (s.a = t.a ∨ s.a = t.b ∨ s.b = t.a ∨ s.b = t.b) → Share s t := by
      rintro s t (h | h | h | h)
      · exact ⟨s.a, onSeg_left s, h ▸ onSeg_left t⟩
      · exact ⟨s.a, onSeg_left s, h ▸ onSeg_right t⟩
      · exact ⟨s.b, onSeg_right s, h ▸ onSeg_left t⟩
      · exact ⟨s.b, onSeg_right s, h ▸ onSeg_right t⟩
    have h' : (s.each f).a = (t.each f).a ∨ (s.each f).a = (t.each f).b ∨ (s.each f).b = (t.each f).a ∨ (s.each f).b = (t.each f).b := by
      rcases h with h | h | h | h
      · exact .inl (congrArg (Pt.each f) h)
      · exact .inr (.inl (congrArg (Pt.each f) h))
      · exact .inr (.inr (.inl (congrArg (Pt.each f) h)))
      · exact .inr (.inr (.inr (congrArg (Pt.each f) h)))
    exact ⟨.inr (.inl h'), iff_of_true (sh h') (sh h)⟩
  · have boxes : ∀ {s t : Seg ℚ}, (∀ p, ¬ (InBox s p ∧ InBox t p)) ↔ (max s.a.x s.b.x < min t.a.x t.b.x ∨ max t.a.x t.b.x < min s.a.x s.b.x ∨
        max s.a.y s.b.y < min t.a.y t.b.y ∨ max t.a.y t.b.y < min s.a.y s.b.y) := by
      intro s t
      constructor
      · intro h
        by_contra hn
        simp only [not_or, not_lt] at hn
        obtain ⟨n1, n2, n3, n4⟩ := hn
        refine h ⟨max (min s.a.x s.b.x) (min t.a.x t.b.x), max (min s.a.y s.b.y) (min t.a.y t.b.y)⟩ ⟨⟨?_, ?_, ?_, ?_⟩, ?_, ?_, ?_, ?_⟩
        · exact min_le_iff.1 (le_max_left _ _)
        · exact le_max_iff.1 (max_le min_le_max n1)
        · exact min_le_iff.1 (le_max_left _ _)
        · exact le_max_iff.1 (max_le min_le_max n3)
        · exact min_le_iff.1 (le_max_right _ _)
        · exact le_max_iff.1 (max_le n2 min_le_max)
        · exact min_le_iff.1 (le_max_right _ _)
        · exact le_max_iff.1 (max_le n4 min_le_max)
      · rintro h p ⟨⟨a1, a2, a3, a4⟩, b1, b2, b3, b4⟩
        rcases h with h | h | h | h
        · exact absurd ((min_le_iff.2 b1).trans (le_max_iff.2 a2)) (not_le.2 h)
        · exact absurd ((min_le_iff.2 a1).trans (le_max_iff.2 b2)) (not_le.2 h)
        · exact absurd ((min_le_iff.2 b3).trans (le_max_iff.2 a4)) (not_le.2 h)
        · exact absurd ((min_le_iff.2 a3).trans (le_max_iff.2 b4)) (not_le.2 h)
    have h' : ∀ p, ¬ (InBox (s.each f) p ∧ InBox (t.each f) p) := by
      rw [boxes] at h ⊢
      simp only [max_lt_iff, lt_min_iff] at h ⊢
      dsimp only [Seg.each, Pt.each]
      rw [K.lt hs.1.1 ht.1.1, K.lt hs.1.1 ht.2.1, K.lt hs.2.1 ht.1.1, K.lt hs.2.1 ht.2.1, K.lt ht.1.1 hs.1.1, K.lt ht.1.1 hs.2.1, K.lt ht.2.1 hs.1.1, K.lt ht.2.1 hs.2.1,
        K.lt hs.1.2 ht.1.2, K.lt hs.1.2 ht.2.2, K.lt hs.2.2 ht.1.2, K.lt hs.2.2 ht.2.2, K.lt ht.1.2 hs.1.2, K.lt ht.1.2 hs.2.2, K.lt ht.2.2 hs.1.2, K.lt ht.2.2 hs.2.2]
      exact h
    refine ⟨.inr (.inr h'), iff_of_false ?_ ?_⟩
    · rintro ⟨p, a, b⟩
      exact h' p ⟨((onSeg_box _ _).1 a).1, ((onSeg_box _ _).1 b).1⟩
    · rintro ⟨p, a, b⟩
      exact h p ⟨((onSeg_box _ _).1 a).1, ((onSeg_box _ _).1 b).1⟩

/-! ### Rings and shapes -/

theorem Keeps.segs {pts : List (Pt ℚ)} (hp : ∀ p ∈ pts, InD D p) (hc : pts.getLast? = pts.head?) :
    segments (pts.map (Pt.each f)) true = (segments pts true).map (Seg.each f) := by
  unfold segments
  rw [List.length_map, List.getLast?_map, List.head?_map, hc]
  simp only [if_true, edges_map]
  split_ifs <;> rfl

theorem Keeps.boundary {es : List (Seg ℚ)} {p : Pt ℚ} (hp : InD D p) (he : ∀ s ∈ es, (InD D s.a ∧ InD D s.b) ∧ ClearDec M s p) :
    OnBoundary (es.map (Seg.each f)) (p.each f) ↔ OnBoundary es p := by
  unfold OnBoundary
  simp only [List.mem_map, exists_exists_and_eq_and]
  exact exists_congr fun s => and_congr_right fun hs => (K.seg (he s hs).1.1 (he s hs).1.2 hp (he s hs).2).1

theorem Keeps.inside {es : List (Seg ℚ)} {p : Pt ℚ} (hp : InD D p) (he : ∀ s ∈ es, (InD D s.a ∧ InD D s.b) ∧ ClearDec M s p) :
    Inside (es.map (Seg.each f)) (p.each f) ↔ Inside es p := by
  unfold Inside
  rw [K.boundary hp he]
  have : ncross (es.map (Seg.each f)) (p.each f) = ncross es p := by
    unfold ncross
    rw [List.countP_map]
    refine List.countP_congr fun s hs => ?_
    simp only [Function.comp, decide_eq_true_eq]
    exact (K.seg (he s hs).1.1 (he s hs).1.2 hp (he s hs).2).2
  rw [this]

theorem Keeps.region {es : List (Seg ℚ)} {p : Pt ℚ} (hp : InD D p) (he : ∀ s ∈ es, (InD D s.a ∧ InD D s.b) ∧ ClearDec M s p) :
    InRegion (es.map (Seg.each f)) (p.each f) ↔ InRegion es p := by
  unfold InRegion
  rw [K.boundary hp he, K.inside hp he]

theorem Keeps.top {pts : List (Pt ℚ)} {p : Pt ℚ} (hd : ∀ q ∈ pts, InD D q) (hp : InD D p) (h : NotTopDec pts p) : NotTop (pts.map (Pt.each f)) (p.each f) := by
  obtain ⟨hi, h1, lo, h2, h3, h4⟩ := h
  refine ⟨hi.each f, List.mem_map_of_mem h1, lo.each f, List.mem_map_of_mem h2, ?_, ?_⟩
  · rw [List.forall_mem_map]
    intro q hq
    exact ⟨(K.le (hd _ h2).2 (hd _ hq).2).2 (h3 q hq).1, (K.le (hd _ hq).2 (hd _ h1).2).2 (h3 q hq).2⟩
  · rcases h4 with h4 | h4
    · exact .inl ((K.lt (hd _ h1).2 hp.2).2 h4)
    · right; left
      dsimp only [Pt.each]
      have hl := (h3 lo h2).2
      rcases eq_or_lt_of_le hl with e | hl
      · rw [e, sub_self, zero_div, sub_zero] at h4
        rw [e, sub_self, zero_div, sub_zero]
        exact (K.le hp.2 (hd _ h1).2).2 h4
      · have hlt : p.y < hi.y := by
          have : 0 < (hi.y - lo.y) / 2 ^ 19 := div_pos (sub_pos.2 hl) (by norm_num)
          linarith
        have g := K.gap _ _ hp.2 (hd _ h1).2 hlt
        have n1 := abs_le.1 (K.nearU _ hp.2)
        have n2 := abs_le.1 (K.nearU _ (hd _ h1).2)
        have n3 := abs_le.1 (K.nearU _ (hd _ h2).2)
        have u0 := K.u0
        linarith [n1.1, n1.2, n2.1, n2.2, n3.1, n3.2]

end

section
variable {F : Fp} (hF : Rounding F.rnd) {k M : ℕ} (hk : k ≤ 20) (h0 : 0 < M) (hM : M ≤ 10 ^ 15)
include hF hk

theorem dec_err {x : ℚ} (hM : M ≤ 10 ^ 15) (hx : Dec k M x) : InR x ∧ |F.fl x - x| ≤ |x| / 2 ^ 53 ∧ (x = 0 ∨ 1 / 10 ^ 20 ≤ |x|) := by
  have hM' : (M : ℚ) ≤ 10 ^ 15 := by exact_mod_cast hM
  have big : |x| ≤ 2 ^ (1000 : ℤ) := by
    refine hx.2.trans (hM'.trans ?_)
    refine le_trans (b := 2 ^ (50 : ℤ)) (by norm_num) (zpow_le_zpow_right₀ (by norm_num) (by norm_num))
  have hr : InR x := inR_of (big.trans (by rw [← zpow_natCast]; exact zpow_le_zpow_right₀ (by norm_num) (by norm_num)))
  obtain ⟨⟨n, hn, rfl⟩, -⟩ := hx
  by_cases h : n = 0
  · subst h
    refine ⟨hr, ?_, .inl (by simp)⟩
    rw [Int.cast_zero, zero_div, F.fl_zero hF]
    simp
  · have h1 : (1 : ℚ) ≤ |(n : ℚ)| := by exact_mod_cast Int.one_le_abs h
    have low : 1 / 10 ^ 20 ≤ |(n : ℚ) / 10 ^ k| := by
      rw [abs_div, abs_of_pos (by positivity : (0 : ℚ) < 10 ^ k)]
      exact div_le_div₀ (abs_nonneg _) h1 (by positivity) (pow_le_pow_right₀ (by norm_num) hk)
    refine ⟨hr, ?_, .inr low⟩
    rw [abs_sub_comm]
    refine F.fl_err hF (le_trans ?_ low) big
    refine le_trans (b := 2 ^ (-70 : ℤ)) (zpow_le_zpow_right₀ (by norm_num) (by norm_num)) (by norm_num)

include h0 hM

theorem keeps_fl : Keeps F.fl M (1 / 10 ^ k) (Dec k M) := by
  refine ⟨by exact_mod_cast h0, by positivity, fun x hx => ?_, fun x hx => ?_, ?_⟩
  · refine (dec_err hF hk hM hx).2.1.trans ?_
    exact div_le_div_of_nonneg_right hx.2 (by positivity)
  · refine (dec_err hF hk hM hx).2.1.trans ?_
    obtain ⟨⟨n, hn, rfl⟩, -⟩ := hx
    have hn' : |(n : ℚ)| ≤ 10 ^ 15 := by exact_mod_cast hn.le
    rw [abs_div, abs_of_pos (by positivity : (0 : ℚ) < 10 ^ k), div_div, div_div, mul_comm ((10 : ℚ) ^ k), mul_comm ((10 : ℚ) ^ k), ← div_div, ← div_div]
    refine div_le_div_of_nonneg_right ?_ (by positivity)
    rw [div_le_div_iff₀ (by norm_num) (by norm_num)]
    refine (mul_le_mul_of_nonneg_right hn' (by norm_num)).trans ?_
    norm_num
  · rintro x y ⟨⟨n, -, rfl⟩, -⟩ ⟨⟨m, -, rfl⟩, -⟩ h
    have t0 : (0 : ℚ) < 10 ^ k := by positivity
    rw [div_lt_div_iff_of_pos_right t0] at h
    rw [← add_div, div_le_div_iff_of_pos_right t0]
    have : n < m := by exact_mod_cast h
    exact_mod_cast this

theorem usual_dec {x : ℚ} (hx : Dec k M x) : Usual M (F.fl x) := by
  obtain ⟨hr, he, h1⟩ := dec_err hF hk hM hx
  refine ⟨⟨_, (hF _ hr).2.1, rfl⟩, ?_, ?_⟩
  · rcases h1 with rfl | h1
    · exact .inl (F.fl_zero hF)
    · right
      have h2 : |x| ≤ |F.fl x| + |F.fl x - x| := by
        have := abs_add_le (F.fl x) (x - F.fl x)
        rw [add_sub_cancel, abs_sub_comm x] at this
        exact this
      have h3 : |x| / 2 ^ 53 ≤ |x| / 2 := by
        refine div_le_div_of_nonneg_left (abs_nonneg _) (by norm_num) (by norm_num)
      have h4 : (1 : ℚ) / 2 ^ 100 ≤ 1 / 10 ^ 20 / 2 := by norm_num
      linarith
  · have hi : ∀ n : ℤ, |n| ≤ 10 ^ 15 → F.fl n = n := fun n hn => F.fl_int0 hF (hn.trans (by norm_num))
    have hM' : (M : ℤ) ≤ 10 ^ 15 := by exact_mod_cast hM
    have a1 : |(M : ℤ)| ≤ 10 ^ 15 := by rw [abs_of_nonneg (by positivity)]; exact hM'
    have a2 : |-(M : ℤ)| ≤ 10 ^ 15 := by rw [abs_neg]; exact a1
    have b1 := hi _ a1
    have b2 := hi _ a2
    push_cast at b1 b2
    have hM'' : (M : ℚ) ≤ 10 ^ 15 := by exact_mod_cast hM
    have r1 : InR (M : ℚ) := inR_of (by
      rw [abs_of_nonneg (by positivity)]
      refine hM''.trans (le_trans (b := 2 ^ 50) (by norm_num) (pow_le_pow_right₀ (by norm_num) (by norm_num))))
    have r2 : InR (-(M : ℚ)) := inR_of (by
      rw [abs_neg, abs_of_nonneg (by positivity)]
      refine hM''.trans (le_trans (b := 2 ^ 50) (by norm_num) (pow_le_pow_right₀ (by norm_num) (by norm_num))))
    have h2 := abs_le.1 hx.2
    rw [abs_le]
    have c1 := F.fl_mono hF r2 hr h2.1
    have c2 := F.fl_mono hF hr r1 h2.2
    rw [b1] at c2
    rw [b2] at c1
    exact ⟨c1, c2⟩

theorem usualPt_dec {p : Pt ℚ} (hp : DecPt k M p) : UsualPt M (p.each F.fl) := ⟨usual_dec hF hk h0 hM hp.1, usual_dec hF hk h0 hM hp.2⟩

theorem ring_dec {s t : Series ℚ} {p : Pt ℚ} (hp : DecPt k M p) (h : RingDec k M s p) (hm : s.Maps (Pt.each F.fl) t) :
    RingClear M t (p.each F.fl) ∧ (InRegion t.segs (p.each F.fl) ↔ InRegion s.segs p) ∧ (Inside t.segs (p.each F.fl) ↔ Inside s.segs p) := by
  have K := keeps_fl hF hk h0 hM
  have hm : t.pts = s.pts.map (Pt.each F.fl) := hm
  have hsg : segments t.pts true = (segments s.pts true).map (Seg.each F.fl) := by rw [hm, K.segs h.dec h.closed.2]
  have hall : ∀ u ∈ segments s.pts true, (InD (Dec k M) u.a ∧ InD (Dec k M) u.b) ∧ ClearDec M u p := fun u hu =>
    ⟨⟨h.dec _ (seg_mem_pts hu).1, h.dec _ (seg_mem_pts hu).2⟩, h.clear u hu⟩
  refine ⟨⟨?_, ?_, ?_, ?_⟩, ?_, ?_⟩
  · refine ⟨?_, ?_⟩
    · rw [hm, List.length_map]; exact h.closed.1
    · rw [hm, List.getLast?_map, List.head?_map, h.closed.2]
  · rw [hm, List.forall_mem_map]
    exact fun q hq => usualPt_dec hF hk h0 hM (h.dec q hq)
  · rw [hsg, List.forall_mem_map]
    exact fun u hu => K.clear (hall u hu).1.1 (hall u hu).1.2 hp (hall u hu).2
  · rw [hm]
    exact K.top h.dec hp h.top
  · rw [Series.segs, Series.segs, hsg, K.region hp hall]
  · rw [Series.segs, Series.segs, hsg, K.inside hp hall]

theorem rings_dec {p : Pt ℚ} (hp : DecPt k M p) : ∀ {ss ts : List (Series ℚ)}, (∀ s ∈ ss, RingDec k M s p) → List.Forall₂ (Series.Maps (Pt.each F.fl)) ss ts →
    (∀ t ∈ ts, RingClear M t (p.each F.fl)) ∧ ((∀ t ∈ ts, ¬ Inside t.segs (p.each F.fl)) ↔ ∀ s ∈ ss, ¬ Inside s.segs p) ∧
      ((∀ t ∈ ts, ¬ InRegion t.segs (p.each F.fl)) ↔ ∀ s ∈ ss, ¬ InRegion s.segs p)
  | _, _, _, .nil => by simp
  | s :: _, t :: _, h, .cons h1 h2 => by
    obtain ⟨a1, a2, a3⟩ := ring_dec hF hk h0 hM hp (h s (by simp)) h1
    obtain ⟨b1, b2, b3⟩ := rings_dec hp (fun s hs => h s (List.mem_cons_of_mem _ hs)) h2
    refine ⟨?_, ?_, ?_⟩
    · rw [List.forall_mem_cons]; exact ⟨a1, b1⟩
    · rw [List.forall_mem_cons, List.forall_mem_cons, a3, b2]
    · rw [List.forall_mem_cons, List.forall_mem_cons, a2, b3]

/-- A shape of decimals and the shape of the rounded coordinates. -/
theorem shape_dec {x y : AShape ℚ} {p : Pt ℚ} (hp : DecPt k M p) (h : x.ClearDec k M p) (hm : x.Maps (Pt.each F.fl) y) :
    y.ClearOf M (p.each F.fl) ∧ (y.Has (p.each F.fl) ↔ x.Has p) ∧ (y.Inner (p.each F.fl) ↔ x.Inner p) := by
  have K := keeps_fl hF hk h0 hM
  match x, y, hm, h with
  | .point q, .point r, hm, h =>
    have hm : r = q.each F.fl := hm
    refine ⟨trivial, ?_, ?_⟩
    · show p.each F.fl = r ↔ p = q
      rw [hm, K.pt_eq hp h]
    · show p.each F.fl = r ↔ p = q
      rw [hm, K.pt_eq hp h]
  | .line s, .line t, hm, h =>
    have hm : t.pts = s.pts.map (Pt.each F.fl) := hm
    have hall : ∀ u ∈ edges s.pts, (InD (Dec k M) u.a ∧ InD (Dec k M) u.b) ∧ S.ClearDec M u p := fun u hu =>
      ⟨⟨h.1 _ (seg_mem_pts (closed := false) hu).1, h.1 _ (seg_mem_pts (closed := false) hu).2⟩, h.2 u hu⟩
    have hb : OnBoundary (edges t.pts) (p.each F.fl) ↔ OnBoundary (edges s.pts) p := by
      rw [hm, edges_map]; exact K.boundary hp hall
    have he : ∀ o : Option (Pt ℚ), (∀ q, o = some q → q ∈ s.pts) → (o.map (Pt.each F.fl) = some (p.each F.fl) ↔ o = some p) := by
      intro o ho
      cases o with
      | none => simp
      | some q => simp [K.pt_eq (h.1 q (ho q rfl)) hp]
    refine ⟨⟨?_, ?_⟩, hb, ?_⟩
    · rw [hm, List.forall_mem_map]
      exact fun q hq => usualPt_dec hF hk h0 hM (h.1 q hq)
    · rw [hm, edges_map, List.forall_mem_map]
      exact fun u hu => K.clear (hall u hu).1.1 (hall u hu).1.2 hp (hall u hu).2
    · show (OnBoundary (edges t.pts) _ ∧ _ ∧ _) ↔ (OnBoundary (edges s.pts) _ ∧ _ ∧ _)
      rw [hb, hm, List.head?_map, List.getLast?_map, Ne, Ne, he _ fun q hq => List.mem_of_mem_head? hq, he _ fun q hq => List.mem_of_mem_getLast? hq]
  | .poly s hs, .poly t ts, hm, h =>
    obtain ⟨a1, a2, a3⟩ := ring_dec hF hk h0 hM hp (h s (by simp)) hm.1
    obtain ⟨b1, b2, b3⟩ := rings_dec hF hk h0 hM hp (fun s hs => h s (List.mem_cons_of_mem _ hs)) hm.2
    refine ⟨?_, ?_, ?_⟩
    · intro r hr
      rcases List.mem_cons.1 hr with rfl | hr
      · exact a1
      · exact b1 r hr
    · exact and_congr a2 b2
    · exact and_congr a3 b3

theorem shapes_dec {p : Pt ℚ} (hp : DecPt k M p) : ∀ {xs ys : List (AShape ℚ)}, (∀ x ∈ xs, x.ClearDec k M p) → List.Forall₂ (AShape.Maps (Pt.each F.fl)) xs ys →
    (∀ y ∈ ys, y.ClearOf M (p.each F.fl)) ∧ ((∃ y ∈ ys, y.Has (p.each F.fl)) ↔ ∃ x ∈ xs, x.Has p) ∧ ((∃ y ∈ ys, y.Inner (p.each F.fl)) ↔ ∃ x ∈ xs, x.Inner p)
  | _, _, _, .nil => by simp
  | s :: _, t :: _, h, .cons h1 h2 => by
    obtain ⟨a1, a2, a3⟩ := shape_dec hF hk h0 hM hp (h s (by simp)) h1
    obtain ⟨b1, b2, b3⟩ := shapes_dec hp (fun s hs => h s (List.mem_cons_of_mem _ hs)) h2
    refine ⟨?_, ?_, ?_⟩
    · rw [List.forall_mem_cons]; exact ⟨a1, b1⟩
    · rw [List.exists_mem_cons_iff, List.exists_mem_cons_iff, a2, b2]
    · rw [List.exists_mem_cons_iff, List.exists_mem_cons_iff, a3, b3]

end

end Tg.S
