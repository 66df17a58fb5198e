import Verif.Lemmas.Margin
/-! The test of two segments, for coordinates that are any doubles of usual size. -/
set_option linter.unusedSectionVars false
namespace Tg.S

open Tg.Spec.Double Tg.Double

variable {F : Fp} (hF : F.Ok) {M : ℚ} (hM : M ≤ 2 ^ 100)
include hF

/-- A product of two differences, rounded: a double that is zero or not tiny. -/
structure Prod2 (q : ℚ) : Prop where
  d : IsD q
  mid : q ≠ 0 → Mid 310 q

theorem mul_prod {x y x' y' : ℚ} (hx : x ≠ 0 → Mid 152 x) (hy : y ≠ 0 → Mid 152 y) (ax : Ap (1 / 2 ^ 53) x' x) (ay : Ap (1 / 2 ^ 53) y' y) :
    Prod2 (F.mul x' y') := by
  have h := ax.mul ay (m := 1 / 2 ^ 52 + 1 / 2 ^ 60) (by norm_num)
  have hm := mul_ap hF hx hy ax ay
  by_cases h0 : x * y = 0
  · have e : x' * y' = 0 := by
      obtain ⟨δ, -, h⟩ := h
      rw [h, h0, zero_mul]
    have e2 : F.mul x' y' = 0 := by rw [Fp.mul, e, F.fl_zero hF]
    refine ⟨?_, fun h => absurd e2 h⟩
    have := isD_int (n := 0) (j := 0) (by norm_num) (by norm_num) (by norm_num)
    rw [Int.cast_zero, zero_mul] at this
    rwa [e2]
  · have mm := (hx (left_ne_zero_of_mul h0)).mul (hy (right_ne_zero_of_mul h0))
    exact ⟨(mm.ap h (by norm_num)).isD hF (by norm_num), fun _ => (mm.ap hm (by norm_num)).mono (by norm_num)⟩

omit hF in
theorem Prod2.mult {q : ℚ} (h : Prod2 q) : ∃ m : ℤ, q = m * 2 ^ (-362 : ℤ) := by
  by_cases h0 : q = 0
  · exact ⟨0, by rw [h0, Int.cast_zero, zero_mul]⟩
  · exact isD_mult (j := -362) h.d (by norm_num) ((h.mid h0).1.trans' (zpow_le_zpow_right₀ (by norm_num) (by norm_num)))

omit hF in
/-- The difference of two products is zero or not tiny. -/
theorem Prod2.sub {p q : ℚ} (hp : Prod2 p) (hq : Prod2 q) (hne : p - q ≠ 0) : Mid 362 (p - q) := by
  constructor
  · obtain ⟨m, hm⟩ := hp.mult
    obtain ⟨n, hn⟩ := hq.mult
    have : m ≠ n := by rintro rfl; exact hne (by rw [hm, hn, sub_self])
    rw [hm, hn, ← sub_mul, abs_mul, abs_of_pos (zpow_pos (by norm_num : (0 : ℚ) < 2) (-362))]
    refine le_mul_of_one_le_left (zpow_nonneg (by norm_num) _) ?_
    have : 1 ≤ |m - n| := Int.one_le_abs (sub_ne_zero.2 this)
    exact_mod_cast this
  · have big : ∀ {z : ℚ}, Prod2 z → |z| ≤ 2 ^ (310 : ℤ) := by
      intro z hz
      by_cases h0 : z = 0
      · rw [h0, abs_zero]; exact zpow_nonneg (by norm_num) _
      · exact (hz.mid h0).2
    refine (abs_sub p q).trans ((add_le_add (big hp) (big hq)).trans ?_)
    have := two_split 310 1
    rw [pow_one] at this
    rw [← two_mul, ← this]
    exact zpow_le_zpow_right₀ (by norm_num) (by norm_num)

theorem sub_prod {p q : ℚ} (hp : Prod2 p) (hq : Prod2 q) : Ap (1 / 2 ^ 53) (F.sub p q) (p - q) ∧ (F.sub p q ≠ 0 → Mid 363 (F.sub p q)) := by
  by_cases h0 : p - q = 0
  · have : F.sub p q = 0 := by rw [Fp.sub, h0, F.fl_zero hF]
    rw [this, h0]
    exact ⟨⟨0, by rw [abs_zero]; norm_num, by rw [zero_mul]⟩, fun h => absurd rfl h⟩
  · have hm := hp.sub hq h0
    have ha := hm.fl hF (by norm_num)
    exact ⟨ha, fun _ => hm.ap ha (by norm_num)⟩

/-- The error of a difference of two products of differences: absolute. -/
theorem det_err {x y u v x' y' u' v' W : ℚ} (hx : x ≠ 0 → Mid 152 x) (hy : y ≠ 0 → Mid 152 y) (hu : u ≠ 0 → Mid 152 u) (hv : v ≠ 0 → Mid 152 v)
    (ax : Ap (1 / 2 ^ 53) x' x) (ay : Ap (1 / 2 ^ 53) y' y) (au : Ap (1 / 2 ^ 53) u' u) (av : Ap (1 / 2 ^ 53) v' v) (hW : |x * y| + |u * v| ≤ W) :
    |F.sub (F.mul x' y') (F.mul u' v') - (x * y - u * v)| ≤ W / 2 ^ 50 ∧ |F.sub (F.mul x' y') (F.mul u' v')| ≤ 2 * W ∧
      (F.sub (F.mul x' y') (F.mul u' v') ≠ 0 → Mid 363 (F.sub (F.mul x' y') (F.mul u' v'))) := by
  have p1 := mul_prod hF hx hy ax ay
  have p2 := mul_prod hF hu hv au av
  have e1 := (mul_ap hF hx hy ax ay).abs_sub
  have e2 := (mul_ap hF hu hv au av).abs_sub
  obtain ⟨s1, s2⟩ := sub_prod hF p1 p2
  have e3 := s1.abs_sub
  have e4 := s1.abs_le
  generalize F.mul x' y' = P at *
  generalize F.mul u' v' = Q at *
  generalize F.sub P Q = R at *
  generalize x * y = A at *
  generalize u * v = B at *
  have hA := abs_nonneg A
  have hB := abs_nonneg B
  have t1 : |P - Q| ≤ |A| + |B| + |P - A| + |Q - B| := by
    have h1 := abs_add_le (P - A) (A - Q)
    have h2 := abs_add_le (A - B) (B - Q)
    rw [sub_add_sub_cancel] at h1 h2
    rw [abs_sub_comm B Q] at h2
    have := abs_sub A B
    linarith
  have t2 : |R - (A - B)| ≤ |R - (P - Q)| + |P - A| + |Q - B| := by
    have h1 := abs_add_le (R - (P - Q)) ((P - Q) - (A - B))
    rw [sub_add_sub_cancel] at h1
    have h2 := abs_sub (P - A) (Q - B)
    rw [show P - A - (Q - B) = P - Q - (A - B) by ring] at h2
    linarith
  exact ⟨by linarith, by linarith, s2⟩

/-- The quotient of two such numbers is told to be between 0 and 1, if this is clear. -/
theorem quot_clear {N R N' R' W : ℚ} (e1 : |N' - N| ≤ W / 2 ^ 50) (e2 : |R' - R| ≤ W / 2 ^ 50) (b1 : |R'| ≤ 2 * W) (mN : N' ≠ 0 → Mid 363 N')
    (mR : R' ≠ 0 → Mid 363 R') (hN : W / 2 ^ 47 < |N|) (hD : W / 2 ^ 47 < |N - R|) :
    N' ≠ 0 ∧ ((R' ≠ 0 ∧ F.mul N' (F.div 1 R') ≥ 0 ∧ F.mul N' (F.div 1 R') ≤ 1) ↔ (R ≠ 0 ∧ N * (1 / R) ≥ 0 ∧ N * (1 / R) ≤ 1)) := by
  have W0 : 0 ≤ W := by linarith [abs_nonneg R']
  have k1 := abs_le.1 e1
  have k2 := abs_le.1 e2
  have n0 : N' ≠ 0 := by
    rintro rfl
    rw [zero_sub, abs_neg] at e1
    linarith
  refine ⟨n0, ?_⟩
  -- the answer for the rounded numbers
  have val : R' ≠ 0 → ∃ θ, |θ| ≤ 1 / 2 ^ 51 ∧ F.mul N' (F.div 1 R') = N' / R' * (1 + θ) := by
    intro r0
    have mi := (mR r0).inv
    have ai := mi.fl hF (by norm_num)
    have mi' := mi.ap ai (by norm_num)
    have mp := (mN n0).mul mi'
    have ap := mp.fl hF (by norm_num)
    obtain ⟨α, a1, a2⟩ := ai
    obtain ⟨β, b1, b2⟩ := ap
    refine ⟨α + β + α * β, ?_, ?_⟩
    · have h1 := abs_add_le (α + β) (α * β)
      have h2 := abs_add_le α β
      rw [abs_mul] at h1
      have h3 := mul_le_mul a1 b1 (abs_nonneg _) (by norm_num)
      linarith
    · rw [Fp.mul, Fp.div, if_neg r0, one_div, b2, a2]
      ring
  have sgn : ∀ {a b θ : ℚ}, b ≠ 0 → a ≠ 0 → |θ| ≤ 1 / 2 ^ 51 → (a / b * (1 + θ) ≥ 0 ↔ 0 < a * b) := by
    intro a b θ hb ha hθ
    have hp : 0 < 1 + θ := by have := (abs_le.1 hθ).1; linarith
    have : a / b = a * b / (b * b) := by field_simp
    have hbb : 0 < b * b := mul_self_pos.2 hb
    rw [ge_iff_le, mul_nonneg_iff_of_pos_right hp, this, div_nonneg_iff]
    constructor
    · rintro (h | h)
      · exact lt_of_le_of_ne h.1 (Ne.symm (mul_ne_zero ha hb))
      · exact absurd h.2 (not_le.2 hbb)
    · exact fun h => .inl ⟨h.le, hbb.le⟩
  have N0 : N ≠ 0 := by
    rintro rfl
    rw [abs_zero] at hN
    have : 0 ≤ W / 2 ^ 47 := div_nonneg W0 (by norm_num)
    linarith
  -- the statement for positive numerators
  have main : ∀ {N R N' R' : ℚ}, |N' - N| ≤ W / 2 ^ 50 → |R' - R| ≤ W / 2 ^ 50 → |R'| ≤ 2 * W → W / 2 ^ 47 < N → W / 2 ^ 47 < |N - R| → ∀ θ, |θ| ≤ 1 / 2 ^ 51 →
      ((R' ≠ 0 ∧ N' / R' * (1 + θ) ≥ 0 ∧ N' / R' * (1 + θ) ≤ 1) ↔ (R ≠ 0 ∧ N * (1 / R) ≥ 0 ∧ N * (1 / R) ≤ 1)) := by
    intro N R N' R' e1 e2 b1 hN hD θ hθ
    have k1 := abs_le.1 e1
    have k2 := abs_le.1 e2
    have kθ := abs_le.1 hθ
    have bR := abs_le.1 b1
    have N0 : 0 < N := lt_of_le_of_lt (div_nonneg W0 (by norm_num)) hN
    have N0' : 0 < N' := by linarith
    have right : (R ≠ 0 ∧ N * (1 / R) ≥ 0 ∧ N * (1 / R) ≤ 1) ↔ N ≤ R := by
      constructor
      · rintro ⟨r0, r1, r2⟩
        have hR : 0 < R := by
          rcases lt_or_gt_of_ne r0 with h | h
          · have := mul_neg_of_pos_of_neg N0 (one_div_neg.2 h)
            linarith
          · exact h
        rwa [mul_one_div, div_le_one hR] at r2
      · intro h
        have hR : 0 < R := lt_of_lt_of_le N0 h
        refine ⟨hR.ne', ?_, ?_⟩
        · exact mul_nonneg N0.le (one_div_pos.2 hR).le
        · rwa [mul_one_div, div_le_one hR]
    rw [right]
    constructor
    · rintro ⟨r0, r1, r2⟩
      have hR : 0 < R' := by
        have := (sgn r0 N0'.ne' hθ).1 r1
        exact (pos_iff_pos_of_mul_pos this).1 N0'
      by_contra hc
      rw [not_le] at hc
      rw [abs_of_pos (sub_pos.2 hc)] at hD
      rw [div_mul_eq_mul_div, div_le_one hR] at r2
      have : N' * (1 + θ) ≥ N' * (1 - 1 / 2 ^ 51) := mul_le_mul_of_nonneg_left (by linarith) N0'.le
      have : N' ≤ 2 * R' := by
        by_contra hh
        rw [not_le] at hh
        linarith
      linarith
    · intro h
      rw [abs_sub_comm, abs_of_nonneg (sub_nonneg.2 h)] at hD
      have hR : 0 < R' := by linarith
      refine ⟨hR.ne', (sgn hR.ne' N0'.ne' hθ).2 (mul_pos N0' hR), ?_⟩
      rw [div_mul_eq_mul_div, div_le_one hR]
      have : N' * (1 + θ) ≤ N' * (1 + 1 / 2 ^ 51) := mul_le_mul_of_nonneg_left (by linarith) N0'.le
      have : N' ≤ 2 * W := by linarith
      linarith
  have key : ∀ θ, |θ| ≤ 1 / 2 ^ 51 →
      ((R' ≠ 0 ∧ N' / R' * (1 + θ) ≥ 0 ∧ N' / R' * (1 + θ) ≤ 1) ↔ (R ≠ 0 ∧ N * (1 / R) ≥ 0 ∧ N * (1 / R) ≤ 1)) := by
    intro θ hθ
    rcases lt_or_gt_of_ne N0 with h | h
    · rw [abs_of_neg h] at hN
      have := main (N := -N) (R := -R) (N' := -N') (R' := -R') (by rwa [← neg_sub', abs_neg]) (by rwa [← neg_sub', abs_neg]) (by rwa [abs_neg]) hN
        (by rwa [← neg_sub', abs_neg]) θ hθ
      rw [neg_div_neg_eq, neg_ne_zero, neg_ne_zero, one_div_neg_eq_neg_one_div, neg_mul_neg] at this
      exact this
    · rw [abs_of_pos h] at hN
      exact main e1 e2 b1 hN hD θ hθ
  by_cases r0 : R' = 0
  · rw [← key 0 (by rw [abs_zero]; norm_num)]
    simp [r0]
  · obtain ⟨θ, h1, h2⟩ := val r0
    rw [h2]
    exact key θ h1

omit hF in
theorem seg_fin {R t u : ℚ} : ((if feq R 0 = true then false else if (!(decide (t ≥ 0) && decide (t ≤ 1) && decide (u ≥ 0) && decide (u ≤ 1))) = true then false
      else true) = true) ↔ (R ≠ 0 ∧ t ≥ 0 ∧ t ≤ 1) ∧ (R ≠ 0 ∧ u ≥ 0 ∧ u ≤ 1) := by
  by_cases h : R = 0
  · rw [if_pos ((feq_iff _ _).2 h)]
    simp [h]
  · rw [if_neg (mt (feq_iff _ _).1 h)]
    by_cases h1 : t ≥ 0 <;> by_cases h2 : t ≤ 1 <;> by_cases h3 : u ≥ 0 <;> by_cases h4 : u ≤ 1 <;> simp [h, h1, h2, h3, h4]

include hM

theorem segX_far (ε : ℚ) {s t : Seg ℚ} (hs : UsualSeg M s) (ht : UsualSeg M t) (o1 : Off M s t.a) (o2 : Off M s t.b) (o3 : Off M t s.a) (o4 : Off M t s.b) :
    F.segX s t = exactSegX ε s t := by
  have md : ∀ {x y : ℚ}, Usual M x → Usual M y → x - y ≠ 0 → Mid 152 (x - y) := fun hx hy h => diff_mid hM hx hy (sub_ne_zero.1 h)
  have cx := sub_ap hF hM ht.1.1 hs.1.1
  have cy := sub_ap hF hM ht.1.2 hs.1.2
  have rx := sub_ap hF hM hs.2.1 hs.1.1
  have ry := sub_ap hF hM hs.2.2 hs.1.2
  have sx := sub_ap hF hM ht.2.1 ht.1.1
  have sy := sub_ap hF hM ht.2.2 ht.1.2
  have mcx := md ht.1.1 hs.1.1
  have mcy := md ht.1.2 hs.1.2
  have mrx := md hs.2.1 hs.1.1
  have mry := md hs.2.2 hs.1.2
  have msx := md ht.2.1 ht.1.1
  have msy := md ht.2.2 ht.1.2
  have M0 : 0 ≤ M := (abs_nonneg _).trans hs.1.1.2.2
  have prod : ∀ {x y : ℚ}, |x| ≤ 2 * M → |x * y| ≤ 2 * M * |y| := fun h => by
    rw [abs_mul]
    exact mul_le_mul_of_nonneg_right h (abs_nonneg _)
  have prod' : ∀ {x y : ℚ}, |y| ≤ 2 * M → |x * y| ≤ 2 * M * |x| := fun h => by
    rw [mul_comm]; exact prod h
  set Ls := |s.b.x - s.a.x| + |s.b.y - s.a.y| with hLs
  set Lt := |t.b.x - t.a.x| + |t.b.y - t.a.y| with hLt
  -- c × r, r × s and c × s
  obtain ⟨u1, u2, u3⟩ := det_err hF mcx mry mcy mrx cx ry cy rx (W := 2 * M * Ls) (by
    have := prod (y := s.b.y - s.a.y) (diff_le ht.1.1 hs.1.1)
    have := prod (y := s.b.x - s.a.x) (diff_le ht.1.2 hs.1.2)
    rw [hLs]; linarith)
  obtain ⟨v1, v2, v3⟩ := det_err hF mrx msy mry msx rx sy ry sx (W := 2 * M * Ls) (by
    have := prod' (x := s.b.x - s.a.x) (diff_le ht.2.2 ht.1.2)
    have := prod' (x := s.b.y - s.a.y) (diff_le ht.2.1 ht.1.1)
    rw [hLs]; linarith)
  obtain ⟨v1', v2', -⟩ := det_err hF mrx msy mry msx rx sy ry sx (W := 2 * M * Lt) (by
    have := prod (y := t.b.y - t.a.y) (diff_le hs.2.1 hs.1.1)
    have := prod (y := t.b.x - t.a.x) (diff_le hs.2.2 hs.1.2)
    rw [hLt]; linarith)
  obtain ⟨w1, w2, w3⟩ := det_err hF mcx msy mcy msx cx sy cy sx (W := 2 * M * Lt) (by
    have := prod (y := t.b.y - t.a.y) (diff_le ht.1.1 hs.1.1)
    have := prod (y := t.b.x - t.a.x) (diff_le ht.1.2 hs.1.2)
    rw [hLt]; linarith)
  have sc : ∀ L : ℚ, 2 * M * L / 2 ^ 47 = M * L / 2 ^ 46 := fun L => by ring
  have q1 := quot_clear hF u1 v1 v2 u3 v3 (by
      rw [sc]; refine lt_of_lt_of_eq o1 ?_
      rw [← abs_neg]; congr 1; unfold cross; ring) (by
      rw [sc]; refine lt_of_lt_of_eq o2 ?_
      rw [← abs_neg]; congr 1; unfold cross; ring)
  have q2 := quot_clear hF w1 v1' v2' w3 v3 (by
      rw [sc]; refine lt_of_lt_of_eq o3 ?_
      congr 1; unfold cross; ring) (by
      rw [sc]; refine lt_of_lt_of_eq o4 ?_
      congr 1; unfold cross; ring)
  have hne : (t.a.x - s.a.x) * (s.b.y - s.a.y) - (t.a.y - s.a.y) * (s.b.x - s.a.x) ≠ 0 := by
    intro h
    have : cross s t.a = 0 := by unfold cross; linarith
    unfold Off at o1
    rw [this, abs_zero] at o1
    have : 0 ≤ M * (|s.b.x - s.a.x| + |s.b.y - s.a.y|) / 2 ^ 46 := div_nonneg (mul_nonneg M0 (add_nonneg (abs_nonneg _) (abs_nonneg _))) (by norm_num)
    linarith
  unfold Fp.segX exactSegX
  dsimp only
  rw [if_neg (mt (feq_iff _ _).1 q1.1), if_neg (mt (feq_iff _ _).1 hne)]
  have q1 := q1.2
  have q2 := q2.2
  rw [Bool.eq_iff_iff]
  generalize F.sub (F.mul (F.sub s.b.x s.a.x) (F.sub t.b.y t.a.y)) (F.mul (F.sub s.b.y s.a.y) (F.sub t.b.x t.a.x)) = R' at *
  generalize (s.b.x - s.a.x) * (t.b.y - t.a.y) - (s.b.y - s.a.y) * (t.b.x - t.a.x) = R at *
  exact seg_fin.trans ((and_congr q2 q1).trans seg_fin.symm)

end Tg.S
