import Verif.Spec.Double
import Mathlib.Tactic.Linarith
import Mathlib.Tactic.Ring
import Mathlib.Tactic.NormNum
import Mathlib.Order.Monotone.Basic
import Mathlib.Tactic.Positivity
import Mathlib.Tactic.FieldSimp
/-! Rounding a rational number to a double: which numbers round to which double. -/
set_option linter.unusedSectionVars false
namespace Tg.Double
open Spec.Double

/-- The absolute value of the double with the bits `b` other than the sign, in units of `2 ^ -1074`. -/
def U (b : ℕ) : ℕ := (if b / 2 ^ 52 = 0 then b % 2 ^ 52 else 2 ^ 52 + b % 2 ^ 52) * 2 ^ (b / 2 ^ 52 - 1)

theorem U_succ (b : ℕ) : U (b + 1) = U b + 2 ^ (b / 2 ^ 52 - 1) := by
  unfold U
  rcases Nat.lt_or_ge (b % 2 ^ 52) (2 ^ 52 - 1) with h | h
  · have e1 : (b + 1) / 2 ^ 52 = b / 2 ^ 52 := by omega
    have e2 : (b + 1) % 2 ^ 52 = b % 2 ^ 52 + 1 := by omega
    rw [e1, e2]
    split_ifs <;> ring
  · have e1 : (b + 1) / 2 ^ 52 = b / 2 ^ 52 + 1 := by omega
    have e2 : (b + 1) % 2 ^ 52 = 0 := by omega
    have e3 : b % 2 ^ 52 = 2 ^ 52 - 1 := by omega
    rw [e1, e2, e3, if_neg (by omega)]
    by_cases h0 : b / 2 ^ 52 = 0
    · rw [if_pos h0, h0]; norm_num
    · obtain ⟨k, hk⟩ : ∃ k, b / 2 ^ 52 = k + 1 := ⟨b / 2 ^ 52 - 1, by omega⟩
      rw [if_neg h0, hk, Nat.add_sub_cancel, Nat.add_sub_cancel, pow_succ]
      norm_num; ring

theorem U_zero : U 0 = 0 := by simp [U]

theorem U_mono : StrictMono U := strictMono_nat_of_lt_succ fun b => by
  rw [U_succ]; exact Nat.lt_add_of_pos_right (Nat.two_pow_pos _)

/-- The bits other than the sign. -/
def mag (x : F64) : ℕ := x.toNat % 2 ^ 63

theorem units_mag (x : F64) : units x = U (mag x) := by
  have e1 : mag x / 2 ^ 52 = expo x := by simp only [mag, expo]; omega
  have e2 : mag x % 2 ^ 52 = frac x := by simp only [mag, frac]; omega
  rw [units, sig, U, e1, e2]

theorem finite_mag (x : F64) : IsFinite x ↔ mag x < 2047 * 2 ^ 52 := by
  simp only [IsFinite, expo, mag]; omega

theorem sig_mag (x : F64) : sig x % 2 = mag x % 2 := by
  have h1 : x.toNat % 2 ^ 52 % 2 = x.toNat % 2 := Nat.mod_mod_of_dvd _ (by norm_num)
  have h2 : x.toNat % 2 ^ 63 % 2 = x.toNat % 2 := Nat.mod_mod_of_dvd _ (by norm_num)
  simp only [sig, frac, mag]
  split_ifs
  · rw [h1, h2]
  · rw [h2, Nat.add_mod, h1]; norm_num

theorem ext_mag {x y : F64} (h1 : mag x = mag y) (h2 : neg x = neg y) : x = y := by
  have := x.isLt
  have := y.isLt
  simp only [mag, neg, decide_eq_decide] at h1 h2
  apply BitVec.eq_of_toNat_eq
  by_cases h : 2 ^ 63 ≤ x.toNat
  · have := h2.1 h; omega
  · have : ¬ 2 ^ 63 ≤ y.toNat := fun h' => h (h2.2 h'); omega

theorem mk_mag (b : ℕ) (hb : b < 2 ^ 63) (s : Bool) : ∃ x : F64, mag x = b ∧ neg x = s := by
  refine ⟨BitVec.ofNat 64 (b + if s then 2 ^ 63 else 0), ?_, ?_⟩
  · simp only [mag, BitVec.toNat_ofNat]; split_ifs <;> omega
  · simp only [neg, BitVec.toNat_ofNat]
    cases s
    · simp only [Bool.false_eq_true, if_false, decide_eq_false_iff_not]; omega
    · simp only [if_true, decide_eq_true_eq]; omega

/-- The sign, as a factor. -/
def sg (s : Bool) : ℚ := if s then -1 else 1

theorem sg_sq (s : Bool) : sg s * sg s = 1 := by cases s <;> norm_num [sg]
theorem sg_abs (s : Bool) (a : ℚ) : |sg s * a| = |a| := by cases s <;> simp [sg, abs_neg]

theorem val_mag (x : F64) : val x = sg (neg x) * (U (mag x) / 2 ^ 1074) := by rw [val, units_mag]; rfl

/-- `d` is between the middles of the gaps beside the double with the bits `b`; the middles belong to it if it is even. -/
def Near (b : ℕ) (d : ℚ) : Prop :=
  if b % 2 = 0 then (U (b - 1) + U b : ℚ) / 2 ^ 1075 ≤ d ∧ d ≤ (U b + U (b + 1)) / 2 ^ 1075
  else (U (b - 1) + U b : ℚ) / 2 ^ 1075 < d ∧ d < (U b + U (b + 1)) / 2 ^ 1075

/-- The distance of two numbers, from the second on. -/
theorem near_lt {a c d K : ℚ} (hK : 0 < K) (h : a < c) (hd : d < (a + c) / (K * 2)) : |d - a / K| < |d - c / K| := by
  have h1 : a / K < c / K := div_lt_div_of_pos_right h hK
  have h2 : (a + c) / (K * 2) = (a / K + c / K) / 2 := by field_simp
  rw [h2] at hd
  rw [abs_of_nonpos (by linarith : d - c / K ≤ 0)]
  apply abs_lt.2; constructor <;> linarith

theorem near_eq {a c d K : ℚ} (hK : 0 < K) (hd : d = (a + c) / (K * 2)) : |d - a / K| = |d - c / K| := by
  have h2 : (a + c) / (K * 2) = (a / K + c / K) / 2 := by field_simp
  rw [h2] at hd
  rw [show d - a / K = -(d - c / K) by linarith, abs_neg]

theorem far_lt {a c d K : ℚ} (hK : 0 < K) (h : c < a) (hd : (c + a) / (K * 2) < d) : |d - a / K| < |d - c / K| := by
  have h1 : c / K < a / K := div_lt_div_of_pos_right h hK
  have h2 : (c + a) / (K * 2) = (a / K + c / K) / 2 := by field_simp; ring
  rw [h2] at hd
  rw [abs_of_nonneg (by linarith : 0 ≤ d - c / K)]
  apply abs_lt.2; constructor <;> linarith

theorem U_cast_mono {a b : ℕ} (h : a < b) : (U a : ℚ) < U b := by exact_mod_cast U_mono h
theorem U_cast_le {a b : ℕ} (h : a ≤ b) : (U a : ℚ) ≤ U b := by exact_mod_cast U_mono.monotone h

theorem K_two : (2 : ℚ) ^ 1075 = 2 ^ 1074 * 2 := pow_succ 2 1074
theorem K_pos : (0 : ℚ) < 2 ^ 1074 := by positivity

/-- Of the doubles of the same sign, the one that `d` is near to is the nearest. -/
theorem near_mag {b c : ℕ} {d : ℚ} (hd : Near b d) (hb : 1 ≤ b) (hc : c ≠ b) :
    |d - U b / 2 ^ 1074| < |d - U c / 2 ^ 1074| ∨ (|d - U b / 2 ^ 1074| = |d - U c / 2 ^ 1074| ∧ b % 2 = 0 ∧ c % 2 = 1) := by
  have hK := K_pos
  rw [Near, K_two] at hd
  generalize (2 : ℚ) ^ 1074 = K at *
  have h2 : (0 : ℚ) < K * 2 := by linarith
  have hle : (U (b - 1) + U b : ℚ) / (K * 2) ≤ d ∧ d ≤ (U b + U (b + 1)) / (K * 2) := by
    split_ifs at hd
    · exact hd
    · exact ⟨hd.1.le, hd.2.le⟩
  rcases Nat.lt_or_gt_of_ne hc with hc | hc
  · rcases Nat.lt_or_ge c (b - 1) with h | h
    · left
      refine far_lt hK (U_cast_mono hc) (lt_of_lt_of_le (div_lt_div_of_pos_right ?_ h2) hle.1)
      have := U_cast_mono h; linarith
    · have e : c = b - 1 := by omega
      subst e
      by_cases h0 : b % 2 = 0
      · rcases hle.1.eq_or_lt with h' | h'
        · right; exact ⟨(near_eq hK h'.symm).symm, h0, by omega⟩
        · left; exact far_lt hK (U_cast_mono hc) h'
      · rw [if_neg h0] at hd
        left; exact far_lt hK (U_cast_mono hc) hd.1
  · rcases Nat.lt_or_ge (b + 1) c with h | h
    · left
      refine near_lt hK (U_cast_mono hc) (lt_of_le_of_lt hle.2 (div_lt_div_of_pos_right ?_ h2))
      have := U_cast_mono h; linarith
    · have e : c = b + 1 := by omega
      subst e
      by_cases h0 : b % 2 = 0
      · rcases hle.2.eq_or_lt with h' | h'
        · right; exact ⟨near_eq hK h', h0, by omega⟩
        · left; exact near_lt hK (U_cast_mono hc) h'
      · rw [if_neg h0] at hd
        left; exact near_lt hK (U_cast_mono hc) hd.2

theorem near_pos {b : ℕ} {d : ℚ} (hd : Near b d) (hb : 1 ≤ b) : U b / 2 ^ 1074 < 2 * d := by
  have hK := K_pos
  rw [Near, K_two] at hd
  generalize (2 : ℚ) ^ 1074 = K at *
  have h2 : (0 : ℚ) < K * 2 := by linarith
  have e : (U b : ℚ) / K = 2 * (U b / (K * 2)) := by field_simp
  rw [e]
  by_cases h0 : b % 2 = 0
  · rw [if_pos h0] at hd
    have h1 : (U 0 : ℚ) < U (b - 1) := U_cast_mono (by omega)
    rw [U_zero, Nat.cast_zero] at h1
    have : (U b : ℚ) / (K * 2) < (U (b - 1) + U b) / (K * 2) := div_lt_div_of_pos_right (by linarith) h2
    linarith [hd.1]
  · rw [if_neg h0] at hd
    have h1 : (U 0 : ℚ) ≤ U (b - 1) := U_cast_le (by omega)
    rw [U_zero, Nat.cast_zero] at h1
    have : (U b : ℚ) / (K * 2) ≤ (U (b - 1) + U b) / (K * 2) := div_le_div_of_nonneg_right (by linarith) h2.le
    linarith [hd.1]

theorem sg_ne {s t : Bool} (h : s ≠ t) : sg t = - sg s := by cases s <;> cases t <;> simp_all [sg]

theorem dist_same (s : Bool) (d a : ℚ) : |sg s * d - sg s * a| = |d - a| := by rw [← mul_sub, sg_abs]

/-- All doubles: the one that `d` is near to is the nearest. -/
theorem near_all {x y : F64} {d : ℚ} (hd : Near (mag x) d) (hb : 1 ≤ mag x) (hy : y ≠ x) :
    |sg (neg x) * d - val x| < |sg (neg x) * d - val y| ∨ (|sg (neg x) * d - val x| = |sg (neg x) * d - val y| ∧ mag x % 2 = 0 ∧ mag y % 2 = 1) := by
  rw [val_mag x, val_mag y, dist_same]
  by_cases hs : neg x = neg y
  · rw [← hs, dist_same]
    exact near_mag hd hb fun h => hy (ext_mag h hs.symm)
  · left
    rw [sg_ne hs, show sg (neg x) * d - -sg (neg x) * ((U (mag y) : ℚ) / 2 ^ 1074) = sg (neg x) * (d + (U (mag y) : ℚ) / 2 ^ 1074) by ring, sg_abs]
    have h1 := near_pos hd hb
    have h2 : (0 : ℚ) ≤ U (mag x) / 2 ^ 1074 := by positivity
    have h3 : (0 : ℚ) ≤ U (mag y) / 2 ^ 1074 := by positivity
    have h4 : (0 : ℚ) < U (mag x) / 2 ^ 1074 := by
      have : (U 0 : ℚ) < U (mag x) := U_cast_mono (by omega)
      rw [U_zero, Nat.cast_zero] at this
      positivity
    rw [abs_of_nonneg (by linarith : 0 ≤ d + (U (mag y) : ℚ) / 2 ^ 1074)]
    apply abs_lt.2; constructor <;> linarith

/-- The greatest finite double, and the number from which on rounding overflows. -/
theorem U_top : (U (2047 * 2 ^ 52 - 1) + U (2047 * 2 ^ 52) : ℚ) / 2 ^ 1075 = (2 ^ 54 - 1) * 2 ^ 970 := by
  have e1 : U (2047 * 2 ^ 52 - 1) = (2 ^ 53 - 1) * 2 ^ 2045 := by
    rw [U, show (2047 * 2 ^ 52 - 1) / 2 ^ 52 = 2046 from by norm_num, show (2047 * 2 ^ 52 - 1) % 2 ^ 52 = 2 ^ 52 - 1 from by norm_num, if_neg (by omega)]
    norm_num
  have e2 : U (2047 * 2 ^ 52) = 2 ^ 53 * 2 ^ 2045 := by
    rw [U, show (2047 * 2 ^ 52) / 2 ^ 52 = 2047 from by norm_num, show (2047 * 2 ^ 52) % 2 ^ 52 = 0 from by norm_num, if_neg (by omega), Nat.add_zero, show 2047 - 1 = 2045 + 1 from rfl, pow_succ 2 2045]
    ring
  rw [e1, e2]
  have e3 : (2 : ℚ) ^ 2045 = 2 ^ 970 * 2 ^ 1075 := by rw [← pow_add]
  rw [Nat.cast_mul, Nat.cast_mul, Nat.cast_pow 2 2045, Nat.cast_ofNat, e3, eq_comm, eq_div_iff (by positivity)]
  generalize (2 : ℚ) ^ 970 = a
  generalize (2 : ℚ) ^ 1075 = b
  norm_num; ring

theorem near_range {b : ℕ} {d : ℚ} (hd : Near b d) (hb : b < 2047 * 2 ^ 52) : d < (2 ^ 54 - 1) * 2 ^ 970 := by
  rw [← U_top]
  rw [Near] at hd
  have hK : (0 : ℚ) < 2 ^ 1075 := by positivity
  generalize (2 : ℚ) ^ 1075 = K at *
  rcases Nat.lt_or_ge b (2047 * 2 ^ 52 - 1) with h | h
  · have h1 := U_cast_mono h
    have h2 := U_cast_mono (show b + 1 < 2047 * 2 ^ 52 by omega)
    have h3 : d ≤ (U b + U (b + 1)) / K := by
      split_ifs at hd
      · exact hd.2
      · exact hd.2.le
    exact lt_of_le_of_lt h3 (div_lt_div_of_pos_right (by linarith) hK)
  · have e : b = 2047 * 2 ^ 52 - 1 := by omega
    rw [if_neg (by omega)] at hd
    rw [show 2047 * 2 ^ 52 = b + 1 by omega, Nat.add_sub_cancel]
    exact hd.2

/-- A number that is near to a double is rounded to it. -/
theorem near_rounds {x : F64} {d : ℚ} (hd : Near (mag x) d) (hb : 1 ≤ mag x) (hx : IsFinite x) : Rounds (sg (neg x) * d) x := by
  have h0 : 0 < d := by
    have h1 := near_pos hd hb
    have h2 : (0 : ℚ) ≤ U (mag x) / 2 ^ 1074 := by positivity
    linarith
  refine ⟨?_, hx, fun y _ => ?_⟩
  · rw [sg_abs, abs_of_pos h0]
    exact near_range hd ((finite_mag x).1 hx)
  · by_cases e : y = x
    · rw [e]; exact ⟨le_rfl, fun _ => .inl rfl⟩
    · rcases near_all hd hb e with h | ⟨h1, h2, -⟩
      · exact ⟨h.le, fun h' => absurd h' h.ne⟩
      · exact ⟨h1.le, fun _ => .inr (by rw [sig_mag, h2])⟩

theorem val_inj {x y : F64} (h : val x = val y) (hx : 1 ≤ mag x) : x = y := by
  by_contra hne
  have h0 : (0 : ℚ) < U (mag x) / 2 ^ 1074 := by
    have : (U 0 : ℚ) < U (mag x) := U_cast_mono (by omega)
    rw [U_zero, Nat.cast_zero] at this
    positivity
  have h3 : (0 : ℚ) ≤ U (mag y) / 2 ^ 1074 := by positivity
  rw [val_mag x, val_mag y] at h
  by_cases hs : neg x = neg y
  · rw [← hs] at h
    have h1 : (U (mag x) : ℚ) / 2 ^ 1074 = U (mag y) / 2 ^ 1074 := by
      have := congrArg (sg (neg x) * ·) h
      simpa only [← mul_assoc, sg_sq, one_mul] using this
    rw [div_left_inj' K_pos.ne'] at h1
    exact hne (ext_mag (U_mono.injective (by exact_mod_cast h1)) hs)
  · rw [sg_ne hs] at h
    have := congrArg (sg (neg x) * ·) h
    simp only [← mul_assoc, sg_sq, one_mul, mul_neg, neg_mul] at this
    linarith

/-- And to no other. -/
theorem near_only {x y : F64} {d : ℚ} (hd : Near (mag x) d) (hb : 1 ≤ mag x) (hx : IsFinite x) (hy : Rounds (sg (neg x) * d) y) : y = x := by
  by_contra e
  obtain ⟨-, -, h⟩ := hy
  obtain ⟨h1, h2⟩ := h x hx
  rcases near_all hd hb e with h' | ⟨h', -, h3⟩
  · linarith
  · rcases h2 h'.symm with h4 | h4
    · exact e (val_inj h4.symm hb).symm
    · rw [sig_mag] at h4; omega

theorem finite_lt {x : F64} (hx : IsFinite x) : mag x < 2047 * 2 ^ 52 := (finite_mag x).1 hx

/-- A number that is rounded to a double other than zero has its sign and is near to it. -/
theorem rounds_near {x : F64} {q : ℚ} (hb : 1 ≤ mag x) (h : Rounds q x) : ∃ d, q = sg (neg x) * d ∧ 0 < d ∧ Near (mag x) d := by
  obtain ⟨hr, hx, h⟩ := h
  have hl := finite_lt hx
  refine ⟨sg (neg x) * q, by rw [← mul_assoc, sg_sq, one_mul], ?_⟩
  have hq : q = sg (neg x) * (sg (neg x) * q) := by rw [← mul_assoc, sg_sq, one_mul]
  have hr' : |sg (neg x) * q| < (2 ^ 54 - 1) * 2 ^ 970 := by rw [sg_abs]; exact hr
  generalize sg (neg x) * q = d at *
  have key : ∀ c, c < 2047 * 2 ^ 52 → |d - U (mag x) / 2 ^ 1074| ≤ |d - U c / 2 ^ 1074| ∧ (|d - U (mag x) / 2 ^ 1074| = |d - U c / 2 ^ 1074| → mag x = c ∨ mag x % 2 = 0) := by
    intro c hc
    obtain ⟨y, hy, hs⟩ := mk_mag c (by omega) (neg x)
    obtain ⟨h1, h2⟩ := h y ((finite_mag y).2 (by omega))
    rw [hq, val_mag x, val_mag y, hs, hy, dist_same, dist_same] at h1
    refine ⟨h1, fun h3 => ?_⟩
    rcases h2 (by rw [hq, val_mag x, val_mag y, hs, hy, dist_same, dist_same]; exact h3) with h4 | h4
    · left; rw [val_inj h4 hb, hy]
    · right; rw [← sig_mag, h4]
  have hK := K_pos
  rw [Near, K_two]
  rw [← U_top, K_two] at hr'
  generalize (2 : ℚ) ^ 1074 = K at *
  have h0 : (0 : ℚ) < U (mag x) / K := by
    have : (U 0 : ℚ) < U (mag x) := U_cast_mono (by omega)
    rw [U_zero, Nat.cast_zero] at this
    positivity
  have hp : 0 < d := by
    by_contra hn
    have := (key 0 (by omega)).1
    rw [U_zero, Nat.cast_zero, zero_div, sub_zero, abs_of_nonpos (by linarith : d ≤ 0), abs_of_nonpos (by linarith : d - U (mag x) / K ≤ 0)] at this
    linarith
  refine ⟨hp, ?_⟩
  obtain ⟨k1, k2⟩ := key (mag x - 1) (by omega)
  have c1 := U_cast_mono (show mag x - 1 < mag x by omega)
  have c2 := U_cast_mono (show mag x < mag x + 1 by omega)
  have l1 : (U (mag x - 1) + U (mag x) : ℚ) / (K * 2) ≤ d := by
    by_contra hn
    have := near_lt hK c1 (not_le.1 hn)
    linarith
  have l2 : d ≤ (U (mag x) + U (mag x + 1) : ℚ) / (K * 2) ∧ (mag x % 2 ≠ 0 → d ≠ (U (mag x) + U (mag x + 1) : ℚ) / (K * 2)) := by
    rcases Nat.lt_or_ge (mag x + 1) (2047 * 2 ^ 52) with hm | hm
    · obtain ⟨k3, k4⟩ := key (mag x + 1) hm
      constructor
      · by_contra hn
        have := far_lt hK c2 (not_le.1 hn)
        linarith
      · intro ho he
        rcases k4 (near_eq hK he) with h5 | h5
        · omega
        · exact ho h5
    · rw [show 2047 * 2 ^ 52 = mag x + 1 by omega, Nat.add_sub_cancel, abs_of_pos hp] at hr'
      exact ⟨hr'.le, fun _ => hr'.ne⟩
  by_cases hev : mag x % 2 = 0
  · rw [if_pos hev]; exact ⟨l1, l2.1⟩
  · rw [if_neg hev]
    refine ⟨lt_of_le_of_ne l1 fun he => ?_, lt_of_le_of_ne l2.1 (l2.2 hev)⟩
    rcases k2 (near_eq hK he.symm).symm with h5 | h5
    · omega
    · exact hev h5

/-- Zero is rounded to zero. -/
theorem zero_rounds {x : F64} {d : ℚ} (hx : mag x = 0) (h0 : 0 ≤ d) (hd : d ≤ 1 / 2 ^ 1075) : Rounds (sg (neg x) * d) x := by
  have hK := K_pos
  have hf : IsFinite x := (finite_mag x).2 (by omega)
  rw [K_two] at hd
  refine ⟨?_, hf, fun y _ => ?_⟩
  · rw [sg_abs, abs_of_nonneg h0]
    refine lt_of_le_of_lt hd ?_
    rw [div_lt_iff₀ (by positivity)]
    have h1 : (1 : ℚ) ≤ 2 ^ 970 := one_le_pow₀ (by norm_num)
    have h2 : (1 : ℚ) ≤ 2 ^ 1074 := one_le_pow₀ (by norm_num)
    generalize (2 : ℚ) ^ 970 = a at *
    generalize (2 : ℚ) ^ 1074 = b at *
    have h3 : (1 : ℚ) ≤ a * b := by nlinarith
    have e : ((2 : ℚ) ^ 54 - 1) * a * (b * 2) = ((2 : ℚ) ^ 54 - 1) * 2 * (a * b) := by ring
    rw [e]; norm_num; linarith
  · refine ⟨?_, fun _ => .inr (by rw [sig_mag, hx])⟩
    rw [val_mag x, val_mag y, dist_same, hx, U_zero, Nat.cast_zero, zero_div, sub_zero, abs_of_nonneg h0]
    have h3 : (0 : ℚ) ≤ U (mag y) / 2 ^ 1074 := div_nonneg (Nat.cast_nonneg _) hK.le
    by_cases hs : neg x = neg y
    · rw [← hs, dist_same]
      by_cases hm : mag y = 0
      · rw [hm, U_zero, Nat.cast_zero, zero_div, sub_zero, abs_of_nonneg h0]
      · have h1 : (1 : ℚ) ≤ U (mag y) := by
          have := U_mono (show 0 < mag y by omega)
          rw [U_zero] at this
          exact_mod_cast this
        have h4 : 1 / 2 ^ 1074 ≤ (U (mag y) : ℚ) / 2 ^ 1074 := div_le_div_of_nonneg_right h1 hK.le
        have h5 : (1 : ℚ) / (2 ^ 1074 * 2) = 1 / 2 ^ 1074 / 2 := by field_simp
        rw [h5] at hd
        generalize (1 : ℚ) / 2 ^ 1074 = k at *
        rw [abs_of_nonpos (by linarith)]; linarith
    · rw [sg_ne hs, show sg (neg x) * d - -sg (neg x) * ((U (mag y) : ℚ) / 2 ^ 1074) = sg (neg x) * (d + (U (mag y) : ℚ) / 2 ^ 1074) by ring, sg_abs,
        abs_of_nonneg (by linarith)]
      linarith

/-- Every number in the range is rounded to a double. -/
theorem exists_rounds (q : ℚ) (h : |q| < (2 ^ 54 - 1) * 2 ^ 970) : ∃ x, Rounds q x := by
  obtain ⟨s, d, rfl, h0⟩ : ∃ s d, q = sg s * d ∧ 0 ≤ d := by
    rcases le_total 0 q with h' | h'
    · exact ⟨false, q, by simp [sg], h'⟩
    · exact ⟨true, -q, by simp [sg], by linarith⟩
  rw [sg_abs, abs_of_nonneg h0] at h
  have hex : ∃ b, d ≤ (U b + U (b + 1) : ℚ) / 2 ^ 1075 := by
    refine ⟨2047 * 2 ^ 52 - 1, ?_⟩
    rw [show 2047 * 2 ^ 52 - 1 + 1 = 2047 * 2 ^ 52 from by omega, U_top]; exact h.le
  classical
  have hmin : ∀ c, c < Nat.find hex → (U c + U (c + 1) : ℚ) / 2 ^ 1075 < d := fun c hc => not_le.1 (Nat.find_min hex hc)
  have hsp := Nat.find_spec hex
  have hlt : Nat.find hex ≤ 2047 * 2 ^ 52 - 1 := Nat.find_min' hex (by
    rw [show 2047 * 2 ^ 52 - 1 + 1 = 2047 * 2 ^ 52 from by omega, U_top]; exact h.le)
  generalize Nat.find hex = b at *
  by_cases hb : b = 0
  · obtain ⟨x, hx, hs⟩ := mk_mag 0 (by omega) s
    refine ⟨x, ?_⟩
    rw [← hs]
    refine zero_rounds hx h0 ?_
    rw [hb, U_zero, show U (0 + 1) = 1 by rw [U_succ, U_zero]; norm_num] at hsp
    simpa using hsp
  · have h1 := hmin (b - 1) (by omega)
    rw [show b - 1 + 1 = b by omega] at h1
    by_cases he : b % 2 = 1 ∧ d = (U b + U (b + 1) : ℚ) / 2 ^ 1075
    · obtain ⟨x, hx, hs⟩ := mk_mag (b + 1) (by omega) s
      have hne : b ≠ 2047 * 2 ^ 52 - 1 := by
        rintro rfl
        rw [show 2047 * 2 ^ 52 - 1 + 1 = 2047 * 2 ^ 52 from by omega, U_top] at he
        exact h.ne he.2
      refine ⟨x, ?_⟩
      rw [← hs]
      refine near_rounds ?_ (by omega) ((finite_mag x).2 (by omega))
      rw [hx, Near, if_pos (by omega), Nat.add_sub_cancel]
      refine ⟨he.2.ge, ?_⟩
      rw [he.2]
      have c1 := U_cast_mono (show b < b + 1 by omega)
      have c2 := U_cast_mono (show b + 1 < b + 1 + 1 by omega)
      exact div_le_div_of_nonneg_right (by linarith) (by positivity)
    · obtain ⟨x, hx, hs⟩ := mk_mag b (by omega) s
      refine ⟨x, ?_⟩
      rw [← hs]
      refine near_rounds ?_ (by omega) ((finite_mag x).2 (by omega))
      rw [hx, Near]
      split_ifs with hev
      · exact ⟨h1.le, hsp⟩
      · exact ⟨h1, lt_of_le_of_ne hsp fun h' => he ⟨by omega, h'⟩⟩

/-- There is a function that rounds, and it can be chosen to be `+0` at zero. -/
theorem exists_rounding : ∃ rnd, Rounding rnd ∧ rnd 0 = 0#64 := by
  classical
  have h0 : Rounds 0 0#64 := by
    have := zero_rounds (x := 0#64) (d := 0) (by decide) le_rfl (by positivity)
    rwa [mul_zero] at this
  refine ⟨fun q => if q = 0 then 0#64 else if h : |q| < (2 ^ 54 - 1) * 2 ^ 970 then (exists_rounds q h).choose else 0#64, fun q hq => ?_, by simp⟩
  by_cases hz : q = 0
  · simp only [if_pos hz]; rw [hz]; exact h0
  · simp only [if_neg hz, dif_pos hq]
    exact (exists_rounds q hq).choose_spec

end Tg.Double
