import Verif.Lemmas.Fp
import Verif.Lemmas.TwinShape
import Verif.Spec.Float32
import Verif.Spec.Grid
import Mathlib.Data.Set.Finite.Lemmas
import Mathlib.Data.Finite.Prod
import Verif.Model.IeeeIndex
import Mathlib.Data.Set.Finite.Lattice
import Mathlib.Order.Interval.Finset.Basic
import Mathlib.Data.Int.Interval
/-! The conversion of coordinates to 32-bit floats. -/
set_option linter.unusedSectionVars false
namespace Tg.Float32

open Tg.Spec.Float32 Tg.S

theorem f32_le {q : ℚ} (h : IsF32 q) : |q| ≤ 2 ^ 128 := by
  obtain ⟨n, j, h1, h2, h3, rfl⟩ := h
  rw [abs_mul, abs_of_pos (zpow_pos (by norm_num : (0 : ℚ) < 2) j), ← Int.cast_abs]
  have a : ((|n| : ℤ) : ℚ) ≤ 2 ^ 24 := by exact_mod_cast h1.le
  have b : (2 : ℚ) ^ j ≤ 2 ^ (104 : ℕ) := by
    rw [← zpow_natCast]
    exact zpow_le_zpow_right₀ (by norm_num) (by exact_mod_cast h3)
  calc ((|n| : ℤ) : ℚ) * 2 ^ j ≤ 2 ^ 24 * 2 ^ 104 := mul_le_mul a b (zpow_nonneg (by norm_num) _) (by norm_num)
    _ = 2 ^ 128 := by norm_num

theorem le_inf {q : ℚ} (h : IsF32 q) : -inf ≤ q ∧ q ≤ inf := by
  have h := f32_le h
  have e : (2 : ℚ) ^ 128 ≤ inf := by
    unfold inf
    exact pow_le_pow_right₀ (by norm_num) (by norm_num)
  exact ⟨(neg_le_neg (h.trans e)).trans (neg_abs_le q), (le_abs_self q).trans (h.trans e)⟩

variable {r : ℚ → ℚ} (hr : Rounding r)
include hr

theorem mono {x y : ℚ} (h : x ≤ y) : r x ≤ r y := by
  have i0 : -inf ≤ inf := by
    have : (0 : ℚ) ≤ inf := by unfold inf; exact pow_nonneg (by norm_num) _
    exact (neg_nonpos.2 this).trans this
  have bnd : ∀ z, -inf ≤ r z ∧ r z ≤ inf := fun z => by
    by_cases z1 : (2 ^ 25 - 1) * 2 ^ 103 ≤ z
    · rw [hr.large z z1]; exact ⟨i0, le_rfl⟩
    by_cases z2 : z ≤ -((2 ^ 25 - 1) * 2 ^ 103)
    · rw [hr.small z z2]; exact ⟨le_rfl, i0⟩
    · exact le_inf (hr.float z (abs_lt.2 ⟨not_le.1 z2, not_le.1 z1⟩))
  by_cases y1 : (2 ^ 25 - 1) * 2 ^ 103 ≤ y
  · rw [hr.large y y1]; exact (bnd x).2
  by_cases x1 : x ≤ -((2 ^ 25 - 1) * 2 ^ 103)
  · rw [hr.small x x1]; exact (bnd y).1
  have hy : |y| < (2 ^ 25 - 1) * 2 ^ 103 := abs_lt.2 ⟨(not_le.1 x1).trans_le h, not_le.1 y1⟩
  have hx : |x| < (2 ^ 25 - 1) * 2 ^ 103 := abs_lt.2 ⟨not_le.1 x1, h.trans_lt (not_le.1 y1)⟩
  rcases h.eq_or_lt with rfl | h
  · exact le_rfl
  by_contra hn
  have hn := not_le.1 hn
  have a := hr.near x hx _ (hr.float y hy)
  have b := hr.near y hy _ (hr.float x hx)
  clear bnd i0 y1 x1 hx hy
  have a := sq_le_sq.2 a
  have b := sq_le_sq.2 b
  generalize r x = s at *
  generalize r y = t at *
  have p : 0 < (s - t) * (y - x) := mul_pos (sub_pos.2 hn) (sub_pos.2 h)
  nlinarith

omit hr in
theorem isF32_int {n j : ℤ} (hn : |n| ≤ 2 ^ 24) (h1 : -149 ≤ j) (h2 : j ≤ 103) : IsF32 (n * 2 ^ j) := by
  by_cases h : |n| < 2 ^ 24
  · exact ⟨n, j, h, h1, h2.trans (by norm_num), rfl⟩
  have h : |n| = 2 ^ 24 := le_antisymm hn (not_lt.1 h)
  rcases abs_eq (by norm_num) |>.1 h with rfl | rfl
  · refine ⟨2 ^ 23, j + 1, by norm_num, by omega, by omega, ?_⟩
    rw [zpow_add_one₀ (by norm_num)]
    push_cast
    ring
  · refine ⟨-2 ^ 23, j + 1, by norm_num, by omega, by omega, ?_⟩
    rw [zpow_add_one₀ (by norm_num)]
    push_cast
    ring

omit hr in
theorem in_range {q : ℚ} (h : |q| ≤ 2 ^ 127) : |q| < (2 ^ 25 - 1) * 2 ^ 103 := lt_of_le_of_lt h (by norm_num)

theorem exact {q : ℚ} (h : |q| ≤ 2 ^ 127) (hq : IsF32 q) : r q = q := by
  have := hr.near q (in_range h) q hq
  rw [sub_self, abs_zero] at this
  exact (sub_eq_zero.1 (abs_nonpos_iff.1 this)).symm

theorem zero : r 0 = 0 := exact hr (by norm_num) ⟨0, 0, by norm_num, by norm_num, by norm_num, by simp⟩

/-- The relative error of a rounded number that is not too small. -/
theorem err {q : ℚ} (h1 : 2 ^ (-126 : ℤ) ≤ |q|) (h2 : |q| < 2 ^ (127 : ℤ)) : |q - r q| ≤ |q| / 2 ^ 24 := by
  have hq : 0 < |q| := lt_of_lt_of_le (zpow_pos (by norm_num) _) h1
  have hR : |q| < (2 ^ 25 - 1) * 2 ^ 103 := in_range (h2.le.trans (by norm_num))
  set e := Int.log 2 |q| with he
  have l1 : (2 : ℚ) ^ e ≤ |q| := by
    have := Int.zpow_log_le_self (R := ℚ) (b := 2) (by norm_num) hq
    rwa [Nat.cast_ofNat] at this
  have l2 : |q| < (2 : ℚ) ^ (e + 1) := by
    have := Int.lt_zpow_succ_log_self (R := ℚ) (b := 2) (by norm_num) |q|
    rwa [Nat.cast_ofNat] at this
  have e1 : -127 < e := by
    have := lt_of_le_of_lt h1 l2
    rw [zpow_lt_zpow_iff_right₀ (by norm_num)] at this
    omega
  have e2 : e < 127 := by
    have := lt_of_le_of_lt l1 h2
    rwa [zpow_lt_zpow_iff_right₀ (by norm_num)] at this
  have hw : (0 : ℚ) < 2 ^ (e - 23) := zpow_pos (by norm_num) _
  have hew : (2 : ℚ) ^ e = 2 ^ 23 * 2 ^ (e - 23) := by
    have := two_split (e - 23) 23
    rwa [show e - 23 + ((23 : ℕ) : ℤ) = e by push_cast; ring] at this
  have hew1 : (2 : ℚ) ^ (e + 1) = 2 ^ 24 * 2 ^ (e - 23) := by
    have := two_split (e - 23) 24
    rwa [show e - 23 + ((24 : ℕ) : ℤ) = e + 1 by push_cast; ring] at this
  have hround := abs_sub_round (q / 2 ^ (e - 23))
  have hd : |q - round (q / 2 ^ (e - 23)) * 2 ^ (e - 23)| ≤ 2 ^ (e - 23) / 2 := by
    have : q - round (q / 2 ^ (e - 23)) * 2 ^ (e - 23) = (q / 2 ^ (e - 23) - round (q / 2 ^ (e - 23))) * 2 ^ (e - 23) := by
      field_simp
    rw [this, abs_mul, abs_of_pos hw]
    calc _ ≤ 1 / 2 * (2 : ℚ) ^ (e - 23) := mul_le_mul_of_nonneg_right hround hw.le
      _ = _ := by ring
  have hn : |round (q / 2 ^ (e - 23))| ≤ 2 ^ 24 := by
    have hq' : |q / 2 ^ (e - 23)| < 2 ^ 24 := by
      rw [abs_div, abs_of_pos hw, div_lt_iff₀ hw, ← hew1]
      exact l2
    rw [abs_lt] at hq'
    rw [abs_le] at hround ⊢
    have a1 : (round (q / 2 ^ (e - 23)) : ℚ) < (2 ^ 24 + 1 : ℤ) := by push_cast; linarith [hq'.2, hround.1]
    have a2 : ((-(2 ^ 24 + 1) : ℤ) : ℚ) < round (q / 2 ^ (e - 23)) := by push_cast; linarith [hq'.1, hround.2]
    have a1 := Int.cast_lt.1 a1
    have a2 := Int.cast_lt.1 a2
    constructor <;> omega
  refine (hr.near q hR _ (isF32_int hn (j := e - 23) (by omega) (by omega))).trans (hd.trans ?_)
  rw [le_div_iff₀ (by norm_num)]
  refine le_trans (le_of_eq ?_) l1
  rw [hew]
  ring

/-! ### The conversion -/

variable {F : Fp} (hF : F.Ok)
include hF

omit hr hF in
theorem clamp_mono {x y : ℚ} (h : x ≤ y) : Fp.clamp x ≤ Fp.clamp y := max_le_max le_rfl (min_le_min h le_rfl)

omit hr hF in
theorem clamp_abs (x : ℚ) : |Fp.clamp x| ≤ 2 ^ 1000 := by
  have : (0 : ℚ) ≤ 2 ^ 1000 := pow_nonneg (by norm_num) _
  unfold Fp.clamp
  generalize (2 : ℚ) ^ 1000 = w at *
  rw [abs_le]
  exact ⟨le_max_left _ _, max_le (by linarith) (min_le_right _ _)⟩

omit hr hF in
theorem clamp_eq {x : ℚ} (h : |x| ≤ 2 ^ 1000) : Fp.clamp x = x := by
  unfold Fp.clamp
  generalize (2 : ℚ) ^ 1000 = w at *
  rw [abs_le] at h
  rw [min_eq_left h.2, max_eq_right h.1]

omit hr hF in
theorem inR_mul {x c : ℚ} (hx : |x| ≤ 2 ^ 1000) (hc : |c| ≤ 2) : InR (x * c) := inR_of (by
  rw [abs_mul]
  refine (mul_le_mul hx hc (abs_nonneg _) (pow_nonneg (by norm_num) _)).trans ?_
  rw [← pow_succ]
  exact pow_le_pow_right₀ (by norm_num) (by norm_num))

omit hr in
theorem next0_mono {x y : ℚ} (hx : |x| ≤ 2 ^ 1000) (hy : |y| ≤ 2 ^ 1000) (h : x ≤ y) (dir : Bool) : F.next0 x dir ≤ F.next0 y dir := by
  unfold Fp.next0 Fp.mul
  have c1 : |(1 - 1 / 8388608 : ℚ)| ≤ 2 := by norm_num [abs_le]
  have c2 : |(1 + 1 / 8388608 : ℚ)| ≤ 2 := by norm_num [abs_le]
  have ci : ∀ (b : Bool) (z : ℚ), |z| ≤ 2 ^ 1000 → InR (z * if b then 1 - 1 / 8388608 else 1 + 1 / 8388608) := by
    intro b z hz
    cases b
    · exact inR_mul hz c2
    · exact inR_mul hz c1
  refine F.fl_mono hF (ci _ _ hx) (ci _ _ hy) ?_
  clear hx hy ci
  by_cases hx : x < 0 <;> by_cases hy : y < 0
  · simp only [hx, hy, decide_true]
    split_ifs <;> linarith
  · simp only [hx, hy, decide_true, decide_false]
    have : (0 : ℚ) ≤ y := not_lt.1 hy
    cases dir <;> norm_num <;> linarith
  · exact absurd (h.trans_lt hy) hx
  · simp only [hx, hy, decide_false]
    split_ifs <;> linarith

theorem ix32_lawful : (F.ix32 r).Lawful where
  down_mono x y h := mono hr (next0_mono hF (clamp_abs x) (clamp_abs y) (clamp_mono h) false)
  up_mono x y h := mono hr (next0_mono hF (clamp_abs x) (clamp_abs y) (clamp_mono h) true)
  near_mono x y h := mono hr (F.fl_mono hF (by simpa using inR_mul (c := 1) (clamp_abs x) (by norm_num)) (by simpa using inR_mul (c := 1) (clamp_abs y) (by norm_num))
    (clamp_mono h))
  down_le x := by
    refine mono hr (F.fl_mono hF (inR_mul (clamp_abs x) ?_) (by simpa using inR_mul (c := 1) (clamp_abs x) (by norm_num)) ?_)
    · split_ifs <;> norm_num [abs_le]
    · generalize Fp.clamp x = y
      by_cases hy : y < 0 <;> simp [hy] <;> linarith
  le_up x := by
    refine mono hr (F.fl_mono hF (by simpa using inR_mul (c := 1) (clamp_abs x) (by norm_num)) (inR_mul (clamp_abs x) ?_) ?_)
    · split_ifs <;> norm_num [abs_le]
    · generalize Fp.clamp x = y
      by_cases hy : y < 0 <;> simp [hy] <;> linarith

/-- The number times a factor near to one, rounded twice. -/
theorem twice {x c : ℚ} (h1 : 2 ^ (-125 : ℤ) ≤ |x|) (h2 : |x| ≤ 2 ^ (126 : ℤ)) (c1 : 1 / 2 < c) (c2 : c < 3 / 2) :
    |x * c - r (F.mul x c)| ≤ |x * c| * (1 / 2 ^ 24 + 1 / 2 ^ 52) := by
  have hc : 0 < c := by linarith
  have b1 : (2 : ℚ) ^ (-126 : ℤ) < |x * c| := by
    rw [abs_mul, abs_of_pos hc]
    have : (2 : ℚ) ^ (-126 : ℤ) = 2 ^ (-125 : ℤ) / 2 := by norm_num
    have p : (0 : ℚ) < 2 ^ (-125 : ℤ) := zpow_pos (by norm_num) _
    rw [this]
    generalize (2 : ℚ) ^ (-125 : ℤ) = w at *
    calc w / 2 ≤ |x| * (1 / 2) := by linarith
      _ < |x| * c := mul_lt_mul_of_pos_left c1 (p.trans_le h1)
  have b2 : |x * c| < 2 ^ (126 : ℤ) * (3 / 2) := by
    rw [abs_mul, abs_of_pos hc]
    have p : (0 : ℚ) < 2 ^ (126 : ℤ) := zpow_pos (by norm_num) _
    nlinarith [abs_nonneg x]
  have a1 : (2 : ℚ) ^ (-1000 : ℤ) ≤ |x * c| := (zpow_le_zpow_right₀ (by norm_num) (by norm_num)).trans b1.le
  have a2 : |x * c| ≤ 2 ^ (1000 : ℤ) := b2.le.trans (le_trans (by norm_num) (zpow_le_zpow_right₀ (m := 127) (by norm_num) (by norm_num)))
  have e1 := F.fl_err hF a1 a2
  clear a1 a2
  have m1 : (2 : ℚ) ^ (-126 : ℤ) ≤ |F.mul x c| := by
    have q1 : (2 : ℚ) ^ (-126 : ℤ) = F.fl (2 ^ (-126 : ℤ)) := by
      have := F.fl_int hF (n := 1) (j := -126) (by norm_num) (by norm_num) (by norm_num)
      simpa using this.symm
    have q2 : -(2 : ℚ) ^ (-126 : ℤ) = F.fl (-2 ^ (-126 : ℤ)) := by
      have := F.fl_int hF (n := -1) (j := -126) (by norm_num) (by norm_num) (by norm_num)
      simpa using this.symm
    have ir : ∀ z : ℚ, |z| ≤ 2 ^ (127 : ℤ) → InR z := fun z hz => inR_of (hz.trans (by
      rw [← zpow_natCast]; exact zpow_le_zpow_right₀ (by norm_num) (by norm_num)))
    have irx : InR (x * c) := ir _ (b2.le.trans (by norm_num))
    unfold Fp.mul
    rcases le_total 0 (x * c) with hs | hs
    · rw [abs_of_nonneg hs] at b1
      have := F.fl_mono hF (ir _ (by norm_num [abs_le])) irx b1.le
      rw [← q1] at this
      exact this.trans (le_abs_self _)
    · rw [abs_of_nonpos hs] at b1
      have := F.fl_mono hF irx (ir (-2 ^ (-126 : ℤ)) (by norm_num [abs_le])) (by linarith)
      rw [← q2] at this
      exact (le_neg.1 this).trans (neg_le_abs _)
  have m2 : |F.mul x c| ≤ |x * c| * (1 + 1 / 2 ^ 53) := by
    have := abs_sub_abs_le_abs_sub (F.mul x c) (x * c)
    rw [abs_sub_comm] at this
    have e1 : |x * c - F.mul x c| ≤ |x * c| / 2 ^ 53 := e1
    linarith
  have m3 : |F.mul x c| < 2 ^ (127 : ℤ) := by
    refine m2.trans_lt ?_
    have : (2 : ℚ) ^ (127 : ℤ) = 2 ^ (126 : ℤ) * 2 := by norm_num
    rw [this]
    have p : (0 : ℚ) < 2 ^ (126 : ℤ) := zpow_pos (by norm_num) _
    nlinarith [abs_nonneg (x * c)]
  have e2 := err hr m1 m3
  have e1 : |x * c - F.mul x c| ≤ |x * c| / 2 ^ 53 := e1
  have tri := abs_add_le (x * c - F.mul x c) (F.mul x c - r (F.mul x c))
  rw [sub_add_sub_cancel] at tri
  clear m1 m3 b1 b2 h1 h2
  nlinarith [abs_nonneg (x * c)]

/-- Zero, and the numbers in the range of normal floats. -/
def Normal (x : ℚ) : Prop := x = 0 ∨ 2 ^ (-125 : ℤ) ≤ |x| ∧ |x| ≤ 2 ^ (126 : ℤ)

theorem ix32_fits : Ag.Fits Normal (F.ix32 r) := by
  have cl : ∀ x, Normal x → Fp.clamp x = x := fun x hx => by
    rcases hx with rfl | ⟨-, h⟩
    · exact clamp_eq (by rw [abs_zero]; exact pow_nonneg (by norm_num) _)
    · exact clamp_eq (h.trans (by rw [← zpow_natCast]; exact zpow_le_zpow_right₀ (by norm_num) (by norm_num)))
  have z : ∀ dir, r (F.next0 0 dir) = 0 := fun dir => by
    unfold Fp.next0 Fp.mul
    rw [zero_mul, F.fl_zero hF, zero hr]
  refine ⟨ix32_lawful hr hF, fun _ _ h => h, fun x hx => ?_, fun x hx => ?_⟩
  · show r (F.next0 (Fp.clamp x) false) ≤ x
    rw [cl x hx]
    rcases hx with rfl | ⟨a, b⟩
    · exact (z false).le
    unfold Fp.next0
    by_cases h0 : x < 0
    · simp only [h0, decide_true, Bool.true_beq, Bool.false_eq_true, if_false]
      have := twice hr hF a b (c := 1 + 1 / 8388608) (by norm_num) (by norm_num)
      rw [abs_of_neg (show x * (1 + 1 / 8388608) < 0 by linarith)] at this
      have := (abs_le.1 this).1
      norm_num at this ⊢
      linarith
    · simp only [h0, decide_false, beq_self_eq_true, if_true]
      have := twice hr hF a b (c := 1 - 1 / 8388608) (by norm_num) (by norm_num)
      rw [abs_of_nonneg (show 0 ≤ x * (1 - 1 / 8388608) by linarith)] at this
      have := (abs_le.1 this).1
      norm_num at this ⊢
      linarith
  · show x ≤ r (F.next0 (Fp.clamp x) true)
    rw [cl x hx]
    rcases hx with rfl | ⟨a, b⟩
    · exact (z true).ge
    unfold Fp.next0
    by_cases h0 : x < 0
    · simp only [h0, decide_true, beq_self_eq_true, if_true]
      have := twice hr hF a b (c := 1 - 1 / 8388608) (by norm_num) (by norm_num)
      rw [abs_of_neg (show x * (1 - 1 / 8388608) < 0 by linarith)] at this
      have := (abs_le.1 this).2
      norm_num at this ⊢
      linarith
    · simp only [h0, decide_false, Bool.false_beq, Bool.not_true, Bool.false_eq_true, if_false]
      have := twice hr hF a b (c := 1 + 1 / 8388608) (by norm_num) (by norm_num)
      rw [abs_of_nonneg (show 0 ≤ x * (1 + 1 / 8388608) by linarith)] at this
      have := (abs_le.1 this).2
      norm_num at this ⊢
      linarith

omit hr hF in
theorem normal_grid {k : ℤ} (h1 : -125 ≤ k) (h2 : k ≤ 102) {x : ℚ} (h : OnGrid k x) : Normal x := by
  obtain ⟨n, a, rfl⟩ := h
  by_cases h0 : n = 0
  · left; rw [h0]; simp
  right
  have hw : (0 : ℚ) < 2 ^ k := zpow_pos (by norm_num) _
  have n1 : (1 : ℚ) ≤ ((|n| : ℤ) : ℚ) := by exact_mod_cast Int.one_le_abs h0
  have n2 : ((|n| : ℤ) : ℚ) ≤ 2 ^ 24 := by exact_mod_cast a
  rw [abs_mul, abs_of_pos hw, ← Int.cast_abs]
  constructor
  · exact (zpow_le_zpow_right₀ (by norm_num) h1).trans (le_mul_of_one_le_left hw.le n1)
  · calc ((|n| : ℤ) : ℚ) * 2 ^ k ≤ 2 ^ 24 * 2 ^ (102 : ℤ) := mul_le_mul n2 (zpow_le_zpow_right₀ (by norm_num) h2) hw.le (by norm_num)
      _ = 2 ^ (126 : ℤ) := by norm_num

omit hr hF in
theorem finite_f32 : {q : ℚ | IsF32 q}.Finite := by
  refine Set.Finite.subset (Set.Finite.image (fun p : ℤ × ℤ => (p.1 : ℚ) * 2 ^ p.2)
    ((Set.finite_Icc (-2 ^ 24 : ℤ) (2 ^ 24)).prod (Set.finite_Icc (-149 : ℤ) 104))) ?_
  rintro q ⟨n, j, h1, h2, h3, rfl⟩
  exact ⟨(n, j), ⟨⟨(abs_lt.1 h1).1.le, (abs_lt.1 h1).2.le⟩, h2, h3⟩, rfl⟩

omit hr hF in
/-- There is a function that rounds to floats. -/
theorem exists_rounding : ∃ r, Rounding r := by
  classical
  have h : ∀ q : ℚ, ∃ y, IsF32 y ∧ ∀ z, IsF32 z → |q - y| ≤ |q - z| := fun q => by
    obtain ⟨y, h1, h2⟩ := Set.exists_min_image _ (fun z => |q - z|) finite_f32 ⟨0, ⟨0, 0, by norm_num, by norm_num, by norm_num, by simp⟩⟩
    exact ⟨y, h1, fun z hz => h2 z hz⟩
  choose g g1 g2 using h
  have p : (0 : ℚ) < (2 ^ 25 - 1) * 2 ^ 103 := by norm_num
  refine ⟨fun q => if (2 ^ 25 - 1) * 2 ^ 103 ≤ q then inf else if q ≤ -((2 ^ 25 - 1) * 2 ^ 103) then -inf else g q, ?_, ?_, ?_, ?_⟩
  · intro q hq
    rw [abs_lt] at hq
    simp only [if_neg (not_le.2 hq.1), if_neg (not_le.2 hq.2)]
    exact g1 q
  · intro q hq
    rw [abs_lt] at hq
    simp only [if_neg (not_le.2 hq.1), if_neg (not_le.2 hq.2)]
    exact g2 q
  · intro q hq
    simp only [if_pos hq]
  · intro q hq
    simp only [if_pos hq]
    rw [if_neg (not_le.2 (by linarith))]

end Tg.Float32
