import Verif.Lemmas.SharedIeee
/-! Which number rounding gives, and the neighbours of a double. -/
set_option linter.unusedSectionVars false
namespace Tg.S

open Tg.Spec.Double Tg.Double

/-! ### Neighbours -/

/-- The place of a double in the order of all doubles; both zeros have the place 0. -/
def ord (x : F64) : ℤ := if neg x then -(mag x : ℤ) else mag x

/-- The number at a place. -/
def atOrd (z : ℤ) : ℚ := if z < 0 then -(U z.natAbs / 2 ^ 1074) else U z.natAbs / 2 ^ 1074

theorem val_ord (x : F64) : val x = atOrd (ord x) := by
  rw [val_mag]
  unfold sg ord atOrd
  by_cases hn : neg x = true
  · rw [if_pos hn, if_pos hn]
    rcases Nat.eq_zero_or_pos (mag x) with h | h
    · rw [h, U_zero]; simp [U_zero]
    · rw [if_pos (by omega), show (-(mag x : ℤ)).natAbs = mag x from by omega]; ring
  · rw [if_neg hn, if_neg hn, if_neg (by omega), show ((mag x : ℤ)).natAbs = mag x from by omega]; ring

theorem atOrd_mono : StrictMono atOrd := by
  have k0 := K_pos
  intro a b h
  have hd : ∀ {m n : ℕ}, m < n → (U m : ℚ) / 2 ^ 1074 < U n / 2 ^ 1074 := fun h => (div_lt_div_iff_of_pos_right k0).2 (U_cast_mono h)
  have h0 : ∀ m, 0 ≤ (U m : ℚ) / 2 ^ 1074 := fun m => div_nonneg (Nat.cast_nonneg _) k0.le
  have hp : ∀ {m : ℕ}, 0 < m → 0 < (U m : ℚ) / 2 ^ 1074 := fun {m} h => by
    have := hd h
    rwa [U_zero, Nat.cast_zero, zero_div] at this
  unfold atOrd
  split_ifs with h1 h2 h2
  · have := hd (show b.natAbs < a.natAbs by omega)
    generalize (U b.natAbs : ℚ) / 2 ^ 1074 = u at this ⊢
    generalize (U a.natAbs : ℚ) / 2 ^ 1074 = w at this ⊢
    linarith
  · have := hp (show 0 < a.natAbs by omega)
    have h' := h0 b.natAbs
    generalize (U b.natAbs : ℚ) / 2 ^ 1074 = u at h' ⊢
    generalize (U a.natAbs : ℚ) / 2 ^ 1074 = w at this ⊢
    linarith
  · omega
  · exact hd (by omega)

theorem ord_up {x : F64} (hf : IsFinite x) : ord (bitsUp x) = ord x + 1 := by
  have hm := (finite_mag x).1 hf
  have hx := x.isLt
  unfold bitsUp
  by_cases h0 : x.toNat % 2 ^ 63 = 0
  · rw [if_pos h0]
    have : mag x = 0 := h0
    unfold ord
    rw [this, show mag 1#64 = 1 from by decide +kernel, show neg 1#64 = false from by decide +kernel]
    simp
  · rw [if_neg h0]
    by_cases hn : neg x = true
    · rw [if_pos hn]
      have hn' : 2 ^ 63 ≤ x.toNat := by simpa [neg] using hn
      have e : (x - 1#64).toNat = x.toNat - 1 := by
        rw [BitVec.toNat_sub, BitVec.toNat_ofNat]; omega
      have n2 : neg (x - 1#64) = true := by simp only [neg, e, decide_eq_true_eq]; omega
      unfold ord
      rw [if_pos hn, if_pos n2]
      simp only [mag, e]
      omega
    · rw [if_neg hn]
      have hn' : x.toNat < 2 ^ 63 := by simpa [neg] using hn
      simp only [mag] at hm
      have e : (x + 1#64).toNat = x.toNat + 1 := by
        rw [BitVec.toNat_add, BitVec.toNat_ofNat]; omega
      have n2 : ¬ neg (x + 1#64) = true := by simp only [neg, e, decide_eq_true_eq]; omega
      unfold ord
      rw [if_neg hn, if_neg n2]
      simp only [mag, e]
      omega

theorem ord_down {x : F64} (hf : IsFinite x) : ord (bitsDown x) = ord x - 1 := by
  have hm := (finite_mag x).1 hf
  have hx := x.isLt
  unfold bitsDown
  by_cases h0 : x.toNat % 2 ^ 63 = 0
  · rw [if_pos h0]
    have : mag x = 0 := h0
    unfold ord
    rw [this, show mag (BitVec.ofNat 64 (2 ^ 63 + 1)) = 1 from by decide +kernel, show neg (BitVec.ofNat 64 (2 ^ 63 + 1)) = true from by decide +kernel]
    simp
  · rw [if_neg h0]
    by_cases hn : neg x = true
    · rw [if_pos hn]
      have hn' : 2 ^ 63 ≤ x.toNat := by simpa [neg] using hn
      simp only [mag] at hm
      have e : (x + 1#64).toNat = x.toNat + 1 := by
        rw [BitVec.toNat_add, BitVec.toNat_ofNat]; omega
      have n2 : neg (x + 1#64) = true := by simp only [neg, e, decide_eq_true_eq]; omega
      unfold ord
      rw [if_pos hn, if_pos n2]
      simp only [mag, e]
      omega
    · rw [if_neg hn]
      have hn' : x.toNat < 2 ^ 63 := by simpa [neg] using hn
      have e : (x - 1#64).toNat = x.toNat - 1 := by
        rw [BitVec.toNat_sub, BitVec.toNat_ofNat]; omega
      have n2 : ¬ neg (x - 1#64) = true := by simp only [neg, e, decide_eq_true_eq]; omega
      unfold ord
      rw [if_neg hn, if_neg n2]
      simp only [mag, e]
      omega

theorem mag_ord (x : F64) : mag x = (ord x).natAbs := by unfold ord; split_ifs <;> omega

theorem inR_val {x : F64} (hx : IsFinite x) : InR (val x) := by
  have hm := (finite_mag x).1 hx
  have k0 := K_pos
  have habs : |val x| = U (mag x) / 2 ^ 1074 := by
    rw [val_mag, abs_mul, abs_of_nonneg (div_nonneg (Nat.cast_nonneg _) k0.le)]
    unfold sg
    split_ifs <;> simp
  unfold InR
  rw [habs, ← U_top, K_two, div_lt_div_iff₀ k0 (mul_pos k0 two_pos)]
  have h1 := U_cast_le (show mag x ≤ 2047 * 2 ^ 52 - 1 by omega)
  have h2 := U_cast_mono (show 2047 * 2 ^ 52 - 1 < 2047 * 2 ^ 52 by norm_num)
  rw [← mul_assoc, mul_comm ((U (mag x) : ℚ) * 2 ^ 1074), ← mul_assoc]
  refine mul_lt_mul_of_pos_right ?_ k0
  generalize (U (mag x) : ℚ) = a at *
  generalize (U (2047 * 2 ^ 52 - 1) : ℚ) = b at *
  generalize (U (2047 * 2 ^ 52) : ℚ) = c at *
  linarith

theorem atOrd_zero : atOrd 0 = 0 := by simp [atOrd, U_zero]

theorem down_finite {x : F64} (hx : IsFinite x) (h : 0 < val x) : IsFinite (bitsDown x) := by
  rw [finite_mag] at *
  have h0 : 0 < ord x := by
    rw [val_ord, ← atOrd_zero] at h
    exact atOrd_mono.lt_iff_lt.1 h
  rw [mag_ord, ord_down ((finite_mag x).2 hx)]
  rw [mag_ord] at hx
  omega

/-! ### Rounding -/

theorem val_mult (x : F64) {j : ℤ} (h1 : -1074 ≤ j) (hq : 2 ^ (52 + j) ≤ |val x|) : ∃ m : ℤ, val x = m * 2 ^ j := by
  have k0 : (0 : ℚ) < 2 ^ 1074 := K_pos
  obtain ⟨i, hi⟩ : ∃ i : ℕ, j = i - 1074 := ⟨(j + 1074).toNat, by omega⟩
  rw [val_mag] at hq ⊢
  have hU : 2 ^ (52 + i) ≤ U (mag x) := by
    have e : |sg (neg x) * ((U (mag x) : ℚ) / 2 ^ 1074)| = (U (mag x) : ℚ) / 2 ^ 1074 := by
      rw [abs_mul, abs_of_nonneg (div_nonneg (Nat.cast_nonneg _) k0.le)]
      unfold sg
      split_ifs <;> simp
    rw [e, le_div_iff₀ k0, ← zpow_natCast, ← zpow_add₀ (by norm_num)] at hq
    rw [show 52 + j + ((1074 : ℕ) : ℤ) = ((52 + i : ℕ) : ℤ) from by rw [hi]; push_cast; ring, zpow_natCast] at hq
    exact_mod_cast hq
  have hd : 2 ^ i ∣ U (mag x) := by
    have hlt : U (mag x) < 2 ^ 53 * 2 ^ (mag x / 2 ^ 52 - 1) := by
      unfold U
      refine Nat.mul_lt_mul_of_pos_right ?_ (Nat.two_pow_pos _)
      split_ifs <;> omega
    have hle : i ≤ mag x / 2 ^ 52 - 1 := by
      by_contra hc
      have : 2 ^ (52 + i) < 2 ^ (53 + (mag x / 2 ^ 52 - 1)) := by rw [pow_add 2 53]; exact lt_of_le_of_lt hU hlt
      have := (Nat.pow_lt_pow_iff_right (by norm_num : 1 < 2)).1 this
      omega
    unfold U
    exact dvd_mul_of_dvd_right (pow_dvd_pow 2 hle) _
  obtain ⟨n, hn⟩ := hd
  have e2 : (U (mag x) : ℚ) / 2 ^ 1074 = n * 2 ^ j := by
    rw [hn, hi, zpow_sub₀ (by norm_num), zpow_natCast, show ((1074 : ℤ)) = ((1074 : ℕ) : ℤ) from rfl, zpow_natCast]
    push_cast
    ring
  rw [e2]
  unfold sg
  split_ifs
  · exact ⟨-n, by push_cast; ring⟩
  · exact ⟨n, by push_cast; ring⟩

theorem isD_mult {q : ℚ} (h : IsD q) {j : ℤ} (h1 : -1074 ≤ j) (hq : 2 ^ (52 + j) ≤ |q|) : ∃ m : ℤ, q = m * 2 ^ j := by
  obtain ⟨x, -, rfl⟩ := h
  exact val_mult x h1 hq

variable {F : Fp} (hF : F.Ok)
include hF

/-- A number nearer to a double than half the distance to the next one is rounded to it. -/
theorem Fp.fl_nearest {q : ℚ} {n j : ℤ} (n1 : 2 ^ 52 < |n|) (n2 : |n| ≤ 2 ^ 53) (h1 : -1074 ≤ j) (h2 : j ≤ 940) (h : |q - n * 2 ^ j| < 2 ^ j / 2) :
    F.fl q = n * 2 ^ j := by
  have w0 : (0 : ℚ) < 2 ^ j := zpow_pos (by norm_num) _
  have hr : InR q := by
    refine inR_of ?_
    have hn : |(n : ℚ) * 2 ^ j| ≤ 2 ^ 53 * 2 ^ j := by
      rw [abs_mul, abs_of_pos w0]
      exact mul_le_mul_of_nonneg_right (by exact_mod_cast n2) w0.le
    have hq : |q| ≤ |(n : ℚ) * 2 ^ j| + |q - n * 2 ^ j| := by
      have := abs_add_le ((n : ℚ) * 2 ^ j) (q - n * 2 ^ j)
      rwa [add_sub_cancel] at this
    have hw : (2 : ℚ) ^ j * 2 ^ 54 ≤ 2 ^ 1020 := by
      rw [← zpow_natCast, ← zpow_natCast, ← zpow_add₀ (by norm_num)]
      exact zpow_le_zpow_right₀ (by norm_num) (by push_cast; omega)
    generalize (2 : ℚ) ^ 1020 = B at hw ⊢
    generalize |(n : ℚ) * 2 ^ j| = v at hn hq
    generalize (2 : ℚ) ^ j = w at *
    linarith
  obtain ⟨-, hfin, hnear⟩ := hF q hr
  obtain ⟨y, y1, y2⟩ := isD_int (n := n) (j := j) n2 h1 (by omega)
  have hc := (hnear y y1).1
  rw [y2] at hc
  change |q - F.fl q| ≤ _ at hc
  have hD : IsD (F.fl q) := ⟨_, hfin, rfl⟩
  have hlt : |F.fl q - n * 2 ^ j| < 2 ^ j := by
    have := abs_sub_le (F.fl q) q (n * 2 ^ j)
    rw [abs_sub_comm (F.fl q) q] at this
    linarith
  have hbig : 2 ^ (52 + j) ≤ |F.fl q| := by
    have h3 : ((2 : ℚ) ^ 52 + 1) * 2 ^ j ≤ |(n : ℚ) * 2 ^ j| := by
      rw [abs_mul, abs_of_pos w0]
      refine mul_le_mul_of_nonneg_right ?_ w0.le
      exact_mod_cast n1
    have h4 := abs_sub_abs_le_abs_sub ((n : ℚ) * 2 ^ j) (F.fl q)
    rw [abs_sub_comm] at h4
    rw [zpow_add₀ (by norm_num), show ((52 : ℤ)) = ((52 : ℕ) : ℤ) from rfl, zpow_natCast]
    generalize (2 : ℚ) ^ j = w at *
    linarith
  obtain ⟨m, hm⟩ := isD_mult hD h1 hbig
  rw [hm, ← sub_mul, abs_mul, abs_of_pos w0] at hlt
  have : |(m : ℚ) - n| < 1 := by
    by_contra hc
    exact absurd hlt (not_lt.2 (le_mul_of_one_le_left w0.le (not_lt.1 hc)))
  have : |m - n| < 1 := by exact_mod_cast this
  rw [hm, show m = n by rw [abs_lt] at this; omega]

theorem Fp.sub_neg {a b : ℚ} (da : IsD a) (db : IsD b) (ha : |a| ≤ 2 ^ 990) (hb : |b| ≤ 2 ^ 990) (h : a < b) : F.sub a b < 0 := by
  have := Sh.height hF ⟨h, da, db, ha, hb⟩
  by_contra hc
  have e1 : InR (b - a) := Sh.Ends.inR ⟨h, da, db, ha, hb⟩ h.le le_rfl
  have e2 : InR (a - b) := by unfold InR at *; rwa [abs_sub_comm]
  have hz : 0 ≤ F.fl (a - b) := not_lt.1 hc
  obtain ⟨-, -, n1⟩ := hF (a - b) e2
  obtain ⟨m, hm⟩ := Sh.isD_scaled da
  obtain ⟨n, hn⟩ := Sh.isD_scaled db
  have k0 : (0 : ℚ) < 2 ^ 1074 := K_pos
  have hmn : m + 1 ≤ n := by
    rw [hm, hn, div_lt_div_iff_of_pos_right k0] at h
    exact_mod_cast h
  have hle : a - b ≤ ((-1 : ℤ) : ℚ) * 2 ^ (-1074 : ℤ) := by
    rw [hm, hn, ← sub_div, zpow_neg, div_le_iff₀ k0]
    rw [show (2 : ℚ) ^ (1074 : ℤ) = 2 ^ 1074 from zpow_natCast _ _, mul_assoc, inv_mul_cancel₀ k0.ne']
    have : ((m + 1 : ℤ) : ℚ) ≤ n := by exact_mod_cast hmn
    push_cast at this ⊢
    linarith
  have hsmall : InR (((-1 : ℤ) : ℚ) * 2 ^ (-1074 : ℤ)) := by
    refine inR_of ?_
    rw [abs_mul, abs_of_pos (zpow_pos (by norm_num : (0 : ℚ) < 2) _), ← zpow_natCast]
    rw [show |((-1 : ℤ) : ℚ)| = 1 from by norm_num, one_mul]
    exact zpow_le_zpow_right₀ (by norm_num) (by norm_num)
  have k := F.fl_mono hF e2 hsmall hle
  rw [F.fl_int hF (by norm_num) (by norm_num) (by norm_num)] at k
  have : (0 : ℚ) < 2 ^ (-1074 : ℤ) := zpow_pos (by norm_num) _
  generalize (2 : ℚ) ^ (-1074 : ℤ) = u at k this
  push_cast at k
  linarith

/-- `nexttoward` goes to the next double. -/
theorem Fp.down_spec {y : ℚ} (h : InR y) (hy : F.fl y = y) : F.down y < y ∧ ∀ z, val z < y → val z ≤ F.down y := by
  have hf := (hF y h).2.1
  have e : F.down y = atOrd (ord (F.rnd y) - 1) := by rw [Fp.down, val_ord, ord_down hf]
  have e' : y = atOrd (ord (F.rnd y)) := by rw [← val_ord]; exact hy.symm
  rw [e]
  refine ⟨?_, fun z hz => ?_⟩
  · conv_rhs => rw [e']
    exact atOrd_mono (by omega)
  · rw [val_ord z] at hz ⊢
    rw [e'] at hz
    exact atOrd_mono.monotone (by have := atOrd_mono.lt_iff_lt.1 hz; omega)

theorem Fp.up_spec {y : ℚ} (h : InR y) (hy : F.fl y = y) : y < F.up y ∧ ∀ z, y < val z → F.up y ≤ val z := by
  have hf := (hF y h).2.1
  have e : F.up y = atOrd (ord (F.rnd y) + 1) := by rw [Fp.up, val_ord, ord_up hf]
  have e' : y = atOrd (ord (F.rnd y)) := by rw [← val_ord]; exact hy.symm
  rw [e]
  refine ⟨?_, fun z hz => ?_⟩
  · conv_lhs => rw [e']
    exact atOrd_mono (by omega)
  · rw [val_ord z] at hz ⊢
    rw [e'] at hz
    exact atOrd_mono.monotone (by have := atOrd_mono.lt_iff_lt.1 hz; omega)

theorem Fp.up_int {n m j : ℤ} (hn : 2 ^ 52 ≤ n ∧ n < 2 ^ 53) (hm : m = n + 1) (h1 : -1074 ≤ j) (h2 : j ≤ 900) : F.up (n * 2 ^ j) = m * 2 ^ j := by
  subst hm
  have w0 : (0 : ℚ) < 2 ^ j := zpow_pos (by norm_num) _
  have hd : IsD (n * 2 ^ j) := isD_int (by rw [abs_of_nonneg (by omega)]; omega) h1 (by omega)
  have hr : InR (n * 2 ^ j) := by obtain ⟨x, hx, e⟩ := hd; rw [← e]; exact inR_val hx
  obtain ⟨u1, u2⟩ := F.up_spec hF hr (F.fl_isD hF hr hd)
  obtain ⟨x, -, ex⟩ := isD_int (n := n + 1) (j := j) (by rw [abs_of_nonneg (by omega)]; omega) h1 (by omega)
  have u3 := u2 x (by rw [ex]; push_cast; nlinarith)
  rw [ex] at u3
  have hn' : (2 ^ 52 : ℚ) ≤ n := by exact_mod_cast hn.1
  obtain ⟨k, hk⟩ := val_mult (bitsUp (F.rnd (n * 2 ^ j))) h1 (by
    rw [zpow_add₀ (by norm_num)]
    change (2 : ℚ) ^ 52 * 2 ^ j ≤ |F.up (n * 2 ^ j)|
    exact (mul_le_mul_of_nonneg_right hn' w0.le).trans (u1.le.trans (le_abs_self _)))
  change F.up (n * 2 ^ j) = k * 2 ^ j at hk
  rw [hk] at u1 u3 ⊢
  have k1 := lt_of_mul_lt_mul_right u1 w0.le
  have k2 := le_of_mul_le_mul_right u3 w0
  have k1 : n < k := by exact_mod_cast k1
  have k2 : k ≤ n + 1 := by exact_mod_cast k2
  rw [show k = n + 1 by omega]

theorem Fp.down_int {n m j : ℤ} (hn : 2 ^ 52 < n ∧ n ≤ 2 ^ 53) (hm : m = n - 1) (h1 : -1074 ≤ j) (h2 : j ≤ 900) : F.down (n * 2 ^ j) = m * 2 ^ j := by
  subst hm
  have w0 : (0 : ℚ) < 2 ^ j := zpow_pos (by norm_num) _
  have hd : IsD (n * 2 ^ j) := isD_int (by rw [abs_of_nonneg (by omega)]; omega) h1 (by omega)
  have hr : InR (n * 2 ^ j) := by obtain ⟨x, hx, e⟩ := hd; rw [← e]; exact inR_val hx
  obtain ⟨u1, u2⟩ := F.down_spec hF hr (F.fl_isD hF hr hd)
  obtain ⟨x, -, ex⟩ := isD_int (n := n - 1) (j := j) (by rw [abs_of_nonneg (by omega)]; omega) h1 (by omega)
  have u3 := u2 x (by rw [ex]; push_cast; nlinarith)
  rw [ex] at u3
  have hn' : (2 ^ 52 : ℚ) ≤ (n - 1 : ℤ) := by exact_mod_cast (by omega : (2 ^ 52 : ℤ) ≤ n - 1)
  obtain ⟨k, hk⟩ := val_mult (bitsDown (F.rnd (n * 2 ^ j))) h1 (by
    rw [zpow_add₀ (by norm_num)]
    change (2 : ℚ) ^ 52 * 2 ^ j ≤ |F.down (n * 2 ^ j)|
    exact (mul_le_mul_of_nonneg_right hn' w0.le).trans (u3.trans (le_abs_self _)))
  change F.down (n * 2 ^ j) = k * 2 ^ j at hk
  rw [hk] at u1 u3 ⊢
  have k1 := lt_of_mul_lt_mul_right u1 w0.le
  have k2 := le_of_mul_le_mul_right u3 w0
  have k1 : k < n := by exact_mod_cast k1
  have k2 : n - 1 ≤ k := by exact_mod_cast k2
  rw [show k = n - 1 by omega]

end Tg.S
