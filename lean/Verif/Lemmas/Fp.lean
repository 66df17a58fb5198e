import Verif.Lemmas.Double
import Verif.Model.Ieee
import Mathlib.Data.Int.Log
import Mathlib.Algebra.Order.Round
import Mathlib.Tactic.Linarith
import Mathlib.Tactic.Ring
import Mathlib.Tactic.FieldSimp
import Mathlib.Tactic.Positivity
/-! Rounding to doubles: which operations are exact, monotone, and how large the error is. -/
set_option linter.unusedSectionVars false
namespace Tg.S

open Tg.Spec.Double Tg.Double

/-- Every `n * 2 ^ i` with 53 bits has the bits of a double. -/
theorem U_exists : ∀ (i n : ℕ), n < 2 ^ 53 → ∃ b, U b = n * 2 ^ i ∧ b < (i + 2) * 2 ^ 52
  | 0, n, h => by
    by_cases h1 : n < 2 ^ 52
    · refine ⟨n, ?_, by omega⟩
      rw [U, if_pos (Nat.div_eq_of_lt h1), Nat.mod_eq_of_lt h1, Nat.div_eq_of_lt h1]
    · refine ⟨n, ?_, by omega⟩
      rw [U, if_neg (by omega), show n / 2 ^ 52 = 1 by omega, show 2 ^ 52 + n % 2 ^ 52 = n by omega]
  | i + 1, n, h => by
    by_cases h1 : n < 2 ^ 52
    · obtain ⟨b, h2, h3⟩ := U_exists i (2 * n) (by omega)
      exact ⟨b, by rw [h2, pow_succ]; ring, Nat.lt_of_lt_of_le h3 (Nat.mul_le_mul_right _ (by omega))⟩
    · refine ⟨(i + 2) * 2 ^ 52 + (n - 2 ^ 52), ?_, by omega⟩
      have e1 : ((i + 2) * 2 ^ 52 + (n - 2 ^ 52)) / 2 ^ 52 = i + 2 := by omega
      have e2 : ((i + 2) * 2 ^ 52 + (n - 2 ^ 52)) % 2 ^ 52 = n - 2 ^ 52 := by omega
      rw [U, e1, e2, if_neg (by omega), show 2 ^ 52 + (n - 2 ^ 52) = n by omega, show i + 2 - 1 = i + 1 by omega]

/-- The values of finite doubles. -/
def IsD (q : ℚ) : Prop := ∃ x, IsFinite x ∧ val x = q

theorem isD_int {n j : ℤ} (hn : |n| ≤ 2 ^ 53) (h1 : -1074 ≤ j) (h2 : j ≤ 960) : IsD (n * 2 ^ j) := by
  obtain ⟨m, i, hm, hi, he⟩ : ∃ (m i : ℕ), m < 2 ^ 53 ∧ i ≤ 2035 ∧ |(n : ℚ) * 2 ^ j| = (m * 2 ^ i : ℕ) / 2 ^ 1074 := by
    have key : ∀ (m : ℕ) (i : ℤ), -1074 ≤ i → (m : ℚ) * 2 ^ i = (m * 2 ^ (i + 1074).toNat : ℕ) / 2 ^ 1074 := by
      intro m i hi
      have : (2 : ℚ) ^ i = 2 ^ (i + 1074).toNat / 2 ^ 1074 := by
        rw [← zpow_natCast, ← zpow_natCast, ← zpow_sub₀ (by norm_num), Int.toNat_of_nonneg (by omega)]
        congr 1
        push_cast
        ring
      rw [this]
      push_cast
      ring
    have ha : |(n : ℚ) * 2 ^ j| = (n.natAbs : ℚ) * 2 ^ j := by
      rw [abs_mul, abs_of_pos (zpow_pos (by norm_num : (0 : ℚ) < 2) j), Nat.cast_natAbs, Int.cast_abs]
    have hle : n.natAbs ≤ 2 ^ 53 := by
      rw [← Int.natCast_natAbs] at hn
      clear key ha
      exact_mod_cast hn
    rcases Nat.lt_or_ge n.natAbs (2 ^ 53) with h | h
    · exact ⟨n.natAbs, (j + 1074).toNat, h, by omega, by rw [ha, key _ _ h1]⟩
    · refine ⟨2 ^ 52, (j + 1 + 1074).toNat, by norm_num, by omega, ?_⟩
      rw [← key _ _ (by omega), ha, show n.natAbs = 2 ^ 53 by omega, zpow_add_one₀ (by norm_num)]
      push_cast
      ring
  obtain ⟨b, hb, hb'⟩ := U_exists i m hm
  obtain ⟨x, hx, hs⟩ := mk_mag b (by omega) (decide ((n : ℚ) * 2 ^ j < 0))
  refine ⟨x, (finite_mag x).2 (by omega), ?_⟩
  rw [val_mag, hx, hb, ← he, hs]
  by_cases h : (n : ℚ) * 2 ^ j < 0
  · rw [decide_eq_true h, abs_of_neg h]; simp [sg]
  · rw [decide_eq_false h, abs_of_nonneg (not_lt.1 h)]; simp [sg]

/-- The range in which rounding is specified. -/
def InR (q : ℚ) : Prop := |q| < (2 ^ 54 - 1) * 2 ^ 970

theorem inR_of {q : ℚ} (h : |q| ≤ 2 ^ 1020) : InR q := by
  refine lt_of_le_of_lt h ?_
  rw [show (2 : ℚ) ^ 1020 = 2 ^ 50 * 2 ^ 970 from by rw [← pow_add]]
  exact mul_lt_mul_of_pos_right (by norm_num) (pow_pos (by norm_num) _)

/-- An arithmetic whose rounding is that of IEEE 754. -/
def Fp.Ok (F : Fp) : Prop := Rounding F.rnd

variable {F : Fp} (hF : F.Ok)

include hF in
theorem Fp.fl_isD {q : ℚ} (hr : InR q) (h : IsD q) : F.fl q = q := by
  obtain ⟨x, hx, rfl⟩ := h
  have := ((hF _ hr).2.2 x hx).1
  rw [sub_self, abs_zero] at this
  have := abs_nonpos_iff.1 this
  unfold Fp.fl
  linarith

include hF in
/-- Operations on grid values are exact. -/
theorem Fp.fl_int {n j : ℤ} (hn : |n| ≤ 2 ^ 53) (h1 : -1074 ≤ j) (h2 : j ≤ 960) : F.fl (n * 2 ^ j) = n * 2 ^ j := by
  refine F.fl_isD hF (inR_of ?_) (isD_int hn h1 h2)
  rw [abs_mul, abs_of_pos (zpow_pos (by norm_num : (0 : ℚ) < 2) j)]
  have e : (2 : ℚ) ^ 1020 = 2 ^ 60 * 2 ^ (960 : ℤ) := by
    rw [← zpow_natCast, ← zpow_natCast, ← zpow_add₀ (by norm_num)]
    rfl
  have hn' : |(n : ℚ)| ≤ 2 ^ 60 := by
    have : ((|n| : ℤ) : ℚ) ≤ (2 ^ 53 : ℤ) := by exact_mod_cast hn
    rw [Int.cast_abs] at this
    refine this.trans ?_
    norm_num
  rw [e]
  exact mul_le_mul hn' (zpow_le_zpow_right₀ (by norm_num) h2) (zpow_nonneg (by norm_num) _) (by norm_num)

include hF in
theorem Fp.fl_int0 {n : ℤ} (hn : |n| ≤ 2 ^ 53) : F.fl n = n := by
  have := F.fl_int hF (n := n) (j := 0) hn (by norm_num) (by norm_num)
  rwa [zpow_zero, mul_one] at this

include hF in
theorem Fp.fl_zero : F.fl 0 = 0 := by
  have := F.fl_int0 hF (n := 0) (by norm_num)
  rwa [Int.cast_zero] at this

include hF in
theorem Fp.fl_one : F.fl 1 = 1 := by
  have := F.fl_int0 hF (n := 1) (by norm_num)
  rwa [Int.cast_one] at this

include hF in
theorem Fp.fl_mono {a b : ℚ} (ha : InR a) (hb : InR b) (h : a ≤ b) : F.fl a ≤ F.fl b := by
  rcases eq_or_lt_of_le h with rfl | h
  · exact le_rfl
  by_contra hc
  rw [not_le] at hc
  have h1 := ((hF _ ha).2.2 _ (hF _ hb).2.1).1
  have h2 := ((hF _ hb).2.2 _ (hF _ ha).2.1).1
  change |a - F.fl a| ≤ |a - F.fl b| at h1
  change |b - F.fl b| ≤ |b - F.fl a| at h2
  have k1 := neg_abs_le (a - F.fl a)
  have k2 := le_abs_self (b - F.fl b)
  rcases abs_cases (a - F.fl b) with ⟨e1, e2⟩ | ⟨e1, e2⟩ <;> rcases abs_cases (b - F.fl a) with ⟨e3, e4⟩ | ⟨e3, e4⟩ <;>
    rw [e1] at h1 <;> rw [e3] at h2 <;> linarith

theorem inR_one : InR 1 := inR_of (by rw [abs_one]; exact one_le_pow₀ (by norm_num))
theorem inR_zero : InR 0 := inR_of (by rw [abs_zero]; exact pow_nonneg (by norm_num) _)

include hF in
theorem Fp.fl_nonneg {a : ℚ} (ha : InR a) (h : 0 ≤ a) : 0 ≤ F.fl a := by
  rw [← F.fl_zero hF]
  exact F.fl_mono hF inR_zero ha h

include hF in
theorem Fp.fl_nonpos {a : ℚ} (ha : InR a) (h : a ≤ 0) : F.fl a ≤ 0 := by
  rw [← F.fl_zero hF]
  exact F.fl_mono hF ha inR_zero h

theorem two_split (k : ℤ) (n : ℕ) : (2 : ℚ) ^ (k + n) = 2 ^ n * 2 ^ k := by
  rw [zpow_add₀ (by norm_num), zpow_natCast, mul_comm]

include hF in
/-- The relative error of a rounded number that is not too small. -/
theorem Fp.fl_err {q : ℚ} (h1 : 2 ^ (-1000 : ℤ) ≤ |q|) (h2 : |q| ≤ 2 ^ (1000 : ℤ)) : |q - F.fl q| ≤ |q| / 2 ^ 53 := by
  have hq : 0 < |q| := lt_of_lt_of_le (zpow_pos (by norm_num) _) h1
  have hr : InR q := inR_of (h2.trans (by
    rw [← zpow_natCast]; exact zpow_le_zpow_right₀ (by norm_num) (by norm_num)))
  set e := Int.log 2 |q| with he
  have l1 : (2 : ℚ) ^ e ≤ |q| := by
    have := Int.zpow_log_le_self (R := ℚ) (b := 2) (by norm_num) hq
    rwa [Nat.cast_ofNat] at this
  have l2 : |q| < (2 : ℚ) ^ (e + 1) := by
    have := Int.lt_zpow_succ_log_self (R := ℚ) (b := 2) (by norm_num) |q|
    rwa [Nat.cast_ofNat] at this
  have e1 : -1001 < e := by
    have := lt_of_le_of_lt h1 l2
    rw [zpow_lt_zpow_iff_right₀ (by norm_num)] at this
    omega
  have e2 : e ≤ 1000 := by
    have := l1.trans h2
    rwa [zpow_le_zpow_iff_right₀ (by norm_num)] at this
  have hw : (0 : ℚ) < 2 ^ (e - 52) := zpow_pos (by norm_num) _
  have hew : (2 : ℚ) ^ e = 2 ^ 52 * 2 ^ (e - 52) := by
    have := two_split (e - 52) 52
    rwa [show e - 52 + ((52 : ℕ) : ℤ) = e by push_cast; ring] at this
  have hew1 : (2 : ℚ) ^ (e + 1) = 2 ^ 53 * 2 ^ (e - 52) := by
    have := two_split (e - 52) 53
    rwa [show e - 52 + ((53 : ℕ) : ℤ) = e + 1 by push_cast; ring] at this
  have hround := abs_sub_round (q / 2 ^ (e - 52))
  have hd : |q - round (q / 2 ^ (e - 52)) * 2 ^ (e - 52)| ≤ 2 ^ (e - 52) / 2 := by
    have : q - round (q / 2 ^ (e - 52)) * 2 ^ (e - 52) = (q / 2 ^ (e - 52) - round (q / 2 ^ (e - 52))) * 2 ^ (e - 52) := by
      field_simp
    rw [this, abs_mul, abs_of_pos hw]
    calc _ ≤ 1 / 2 * (2 : ℚ) ^ (e - 52) := mul_le_mul_of_nonneg_right hround hw.le
      _ = _ := by ring
  have hn : |round (q / 2 ^ (e - 52))| ≤ 2 ^ 53 := by
    have hq' : |q / 2 ^ (e - 52)| < 2 ^ 53 := by
      rw [abs_div, abs_of_pos hw, div_lt_iff₀ hw, ← hew1]
      exact l2
    rw [abs_lt] at hq'
    rw [abs_le] at hround ⊢
    have a1 : (round (q / 2 ^ (e - 52)) : ℚ) < (2 ^ 53 + 1 : ℤ) := by push_cast; linarith [hq'.2, hround.1]
    have a2 : ((-(2 ^ 53 + 1) : ℤ) : ℚ) < round (q / 2 ^ (e - 52)) := by push_cast; linarith [hq'.1, hround.2]
    have a1 := Int.cast_lt.1 a1
    have a2 := Int.cast_lt.1 a2
    constructor <;> omega
  by_cases hj : e - 52 ≤ 960
  · obtain ⟨y, hy, hv⟩ := isD_int hn (j := e - 52) (by omega) hj
    have := ((hF _ hr).2.2 y hy).1
    rw [hv] at this
    refine this.trans (hd.trans ?_)
    rw [le_div_iff₀ (by norm_num)]
    refine le_trans (le_of_eq ?_) l1
    rw [hew]
    ring
  · omega

theorem near_one : Near 4607182418800017408 (1 + 1 / 2 ^ 53) := by
  have e1 : U 4607182418800017408 = 2 ^ 52 * 2 ^ 1022 := by
    rw [U, if_neg (by norm_num), show 4607182418800017408 % 2 ^ 52 = 0 from by norm_num, show 4607182418800017408 / 2 ^ 52 = 1023 from by norm_num, Nat.add_zero, show 1023 - 1 = 1022 from rfl]
  have e2 : U (4607182418800017408 - 1) ≤ U 4607182418800017408 := U_mono.monotone (by omega)
  have e3 : U (4607182418800017408 + 1) = U 4607182418800017408 + 2 ^ 1022 := by
    rw [U_succ, show 4607182418800017408 / 2 ^ 52 = 1023 from by norm_num]
  rw [Near, if_pos (by norm_num)]
  have e2' : (U (4607182418800017408 - 1) : ℚ) ≤ U 4607182418800017408 := by exact_mod_cast e2
  have e1' : (U 4607182418800017408 : ℚ) = 2 ^ 52 * 2 ^ 1022 := by rw [e1, Nat.cast_mul, Nat.cast_pow, Nat.cast_pow, Nat.cast_ofNat]
  have e3' : (U (4607182418800017408 + 1) : ℚ) = U 4607182418800017408 + 2 ^ 1022 := by rw [e3, Nat.cast_add, Nat.cast_pow, Nat.cast_ofNat]
  have eK : (2 : ℚ) ^ 1075 = 2 ^ 53 * 2 ^ 1022 := by rw [← pow_add]
  rw [e3', e1', eK]
  rw [e1'] at e2'
  have hp : (0 : ℚ) < 2 ^ 1022 := pow_pos (by norm_num) _
  clear e1 e2 e3 e1' e3' eK
  generalize (2 : ℚ) ^ 1022 = K at *
  generalize (U (4607182418800017408 - 1) : ℚ) = V at *
  constructor
  · rw [div_le_iff₀ (mul_pos (by norm_num) hp)]
    calc V + 2 ^ 52 * K ≤ 2 ^ 52 * K + 2 ^ 52 * K := by linarith
      _ = 1 * (2 ^ 53 * K) := by ring
      _ ≤ (1 + 1 / 2 ^ 53) * (2 ^ 53 * K) := mul_le_mul_of_nonneg_right (by norm_num) (mul_pos (by norm_num) hp).le
  · rw [le_div_iff₀ (mul_pos (by norm_num) hp)]
    apply le_of_eq
    ring

include hF in
/-- Halfway to the next double after 1 is rounded down to it. -/
theorem Fp.fl_tie : F.fl (1 + 1 / 2 ^ 53) = 1 := by
  have hx : mag 4607182418800017408#64 = 4607182418800017408 := by decide +kernel
  have hs : neg 4607182418800017408#64 = false := by decide +kernel
  have hr : InR (1 + 1 / 2 ^ 53) := inR_of (by
    rw [abs_of_pos (by norm_num)]
    refine le_trans (b := 2 ^ 1) (by norm_num) (pow_le_pow_right₀ (by norm_num) (by norm_num)))
  have := near_only (x := 4607182418800017408#64) (d := 1 + 1 / 2 ^ 53) (y := F.rnd (1 + 1 / 2 ^ 53)) (by rw [hx]; exact near_one)
    (by rw [hx]; norm_num) ((finite_mag _).2 (by rw [hx]; norm_num)) (by rw [hs, sg]; simpa using hF _ hr)
  have e1 : U 4607182418800017408 = 2 ^ 52 * 2 ^ 1022 := by
    rw [U, if_neg (by norm_num), show 4607182418800017408 % 2 ^ 52 = 0 from by norm_num, show 4607182418800017408 / 2 ^ 52 = 1023 from by norm_num, Nat.add_zero, show 1023 - 1 = 1022 from rfl]
  rw [Fp.fl, this, val_mag, hx, hs, e1, sg, ← pow_add]
  rw [Nat.cast_pow, Nat.cast_ofNat, div_self (pow_ne_zero _ (by norm_num))]
  simp

end Tg.S
