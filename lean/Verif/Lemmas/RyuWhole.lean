import Verif.Lemmas.RyuStep3
import Verif.Lemmas.RyuChars
import Verif.Lemmas.Double
import Mathlib.Algebra.Order.Floor.Semiring
import Mathlib.Data.Rat.Floor
/-! The decimal that Ryu finds for a double. -/
set_option linter.unusedSectionVars false
namespace Tg.Ryu
open Tg.Double

/-- `d` is in the interval. -/
def InQ (acc : Bool) (lo hi d : ℚ) : Prop := if acc then lo ≤ d ∧ d ≤ hi else lo < d ∧ d < hi

theorem InQ.le {acc : Bool} {lo hi d : ℚ} (h : InQ acc lo hi d) : lo ≤ d ∧ d ≤ hi := by
  unfold InQ at h
  split_ifs at h
  · exact h
  · exact ⟨h.1.le, h.2.le⟩

theorem InQ.of_lt {acc : Bool} {lo hi d : ℚ} (h1 : lo < d) (h2 : d < hi) : InQ acc lo hi d := by
  unfold InQ
  split_ifs
  · exact ⟨h1.le, h2.le⟩
  · exact ⟨h1, h2⟩

/-- The decimal `m * 10 ^ e` is in the interval, no shorter one is, and it is the closest to `v`. -/
structure BestQ (acc : Bool) (lo v hi : ℚ) (m : ℕ) (e : ℤ) : Prop where
  inside : InQ acc lo hi (m * 10 ^ e)
  shortest : ∀ (u : ℕ) (t : ℤ), e < t → ¬ InQ acc lo hi (u * 10 ^ t)
  closest : ∀ u : ℕ, InQ acc lo hi (u * 10 ^ e) → |(m : ℚ) * 10 ^ e - v| ≤ |(u : ℚ) * 10 ^ e - v|

section
variable {acc : Bool} {a b p A B out r : ℕ} {c t : ℚ} {q : ℤ} (hc : 0 < c) (hA : (A : ℚ) = c * t) (hB : (B : ℚ) = c * 10 ^ q)
include hc hA hB

theorem scale (u k : ℕ) : ((u * 10 ^ k * B : ℕ) : ℚ) = c * (u * 10 ^ (q + k)) := by
  push_cast
  rw [hB, zpow_add₀ (by norm_num), zpow_natCast]; ring

theorem scale' (a : ℕ) : ((a * A : ℕ) : ℚ) = c * (a * t) := by push_cast; rw [hA]; ring

theorem inside_iff (u k : ℕ) : Inside acc (a * A) (p * A) B (u * 10 ^ k) ↔ InQ acc (a * t) (p * t) (u * 10 ^ (q + k)) := by
  unfold Inside InQ
  rw [← Nat.cast_le (α := ℚ), ← Nat.cast_le (α := ℚ), ← Nat.cast_lt (α := ℚ), ← Nat.cast_lt (α := ℚ), scale hc hA hB, scale' hc hA hB, scale' hc hA hB,
    mul_le_mul_iff_right₀ hc, mul_le_mul_iff_right₀ hc, mul_lt_mul_iff_right₀ hc, mul_lt_mul_iff_right₀ hc]

theorem bestQ_of (h : Best acc (a * A) (b * A) (p * A) B out r) : BestQ acc (a * t) (b * t) (p * t) out (q + r) := by
  constructor
  · exact (inside_iff hc hA hB out r).1 h.inside
  · intro u k hk hu
    obtain ⟨n, rfl⟩ : ∃ n : ℕ, k = q + n := ⟨(k - q).toNat, by omega⟩
    exact h.shortest u n (by omega) ((inside_iff hc hA hB u n).2 hu)
  · intro u hu
    have := h.closest u ((inside_iff hc hA hB u r).2 hu)
    have h2 : |((out * 10 ^ r * B : ℕ) : ℚ) - ((b * A : ℕ) : ℚ)| ≤ |((u * 10 ^ r * B : ℕ) : ℚ) - ((b * A : ℕ) : ℚ)| := by exact_mod_cast this
    rw [scale hc hA hB, scale hc hA hB, scale' hc hA hB, ← mul_sub, ← mul_sub, abs_mul, abs_mul, abs_of_pos hc, mul_le_mul_iff_right₀ hc] at h2
    exact h2

end

theorem pow_cast (a k : ℕ) : ((a ^ k : ℕ) : ℚ) = (a : ℚ) ^ k := Nat.cast_pow a k

theorem lt_309 : (2 : ℚ) ^ 55 * 2 ^ 969 < 10 ^ (309 : ℤ) := by
  have h : 2 ^ 55 * 2 ^ 969 < 10 ^ 309 := by decide +kernel
  have h1 : ((2 ^ 55 * 2 ^ 969 : ℕ) : ℚ) < ((10 ^ 309 : ℕ) : ℚ) := Nat.cast_lt.2 h
  rw [Nat.cast_mul, pow_cast 2 55, pow_cast 2 969, pow_cast 10 309] at h1
  exact h1

theorem lt_324 : (10 : ℚ) ^ (-324 : ℤ) < 2 * (1 / 2 ^ 1076) := by
  have h : 2 ^ 1076 < 2 * 10 ^ 324 := by decide +kernel
  have h1 : ((2 ^ 1076 : ℕ) : ℚ) < ((2 * 10 ^ 324 : ℕ) : ℚ) := Nat.cast_lt.2 h
  rw [Nat.cast_mul, pow_cast 2 1076, pow_cast 10 324] at h1
  rw [zpow_neg, mul_one_div, inv_eq_one_div, div_lt_div_iff₀ (zpow_pos (by norm_num) _) (pow_pos (by norm_num) _), one_mul]
  exact h1

section
variable {m2 s : ℕ} {acc : Bool} {t v : ℚ} {m : ℕ} {e : ℤ} (hm : 1 ≤ m2) (hm' : m2 < 2 ^ 53) (hs : s = 1 ∨ (s = 0 ∧ m2 = 2 ^ 52)) (ht : 0 < t)
  (h : BestQ acc ((4 * m2 - 1 - s : ℕ) * t) v ((4 * m2 + 2 : ℕ) * t) m e)
include hm hm' hs ht h

theorem best_pos : 0 < m := by
  rcases Nat.eq_zero_or_pos m with h0 | h0
  · have h1 := h.inside.le.1
    rw [h0, Nat.cast_zero, zero_mul] at h1
    have h2 : (0 : ℚ) < (4 * m2 - 1 - s : ℕ) := by
      have : 0 < 4 * m2 - 1 - s := by omega
      exact_mod_cast this
    have := mul_pos h2 ht
    linarith
  · exact h0

/-- At most 17 digits are needed. -/
theorem best_17 : m < 10 ^ 17 := by
  by_contra hn
  have hn' : 10 ^ 17 ≤ m := by omega
  have hz : (0 : ℚ) < 10 ^ e := zpow_pos (by norm_num) _
  have h1 : (10 ^ 17 : ℚ) * 10 ^ e ≤ (4 * m2 + 2 : ℕ) * t := by
    refine le_trans (mul_le_mul_of_nonneg_right ?_ hz.le) h.inside.le.2
    exact_mod_cast hn'
  -- the interval is wider than ten times the last digit
  have h2 : ((4 * m2 - 1 - s : ℕ) : ℚ) * t + 10 ^ (e + 1) < (4 * m2 + 2 : ℕ) * t := by
    rw [zpow_add₀ (by norm_num), zpow_one]
    generalize (10 : ℚ) ^ e = z at *
    rcases hs with rfl | ⟨rfl, rfl⟩
    · have e1 : ((4 * m2 - 1 - 1 : ℕ) : ℚ) = (4 * m2 + 2 : ℕ) - 4 := by rw [Nat.sub_sub, Nat.cast_sub (by omega)]; push_cast; ring
      have e2 : ((4 * m2 + 2 : ℕ) : ℚ) ≤ 2 ^ 55 := by
        have : 4 * m2 + 2 ≤ 2 ^ 55 := by omega
        exact_mod_cast this
      have e3 := mul_le_mul_of_nonneg_right e2 ht.le
      rw [e1]
      generalize ((4 * m2 + 2 : ℕ) : ℚ) = X at *
      norm_num at *
      nlinarith
    · norm_num at *
      linarith
  have hz' : (0 : ℚ) < 10 ^ (e + 1) := zpow_pos (by norm_num) _
  have hlo : (0 : ℚ) ≤ ((4 * m2 - 1 - s : ℕ) : ℚ) * t := mul_nonneg (Nat.cast_nonneg _) ht.le
  generalize ((4 * m2 - 1 - s : ℕ) : ℚ) * t = lo at *
  refine h.shortest (⌊lo / 10 ^ (e + 1)⌋₊ + 1) (e + 1) (by omega) (InQ.of_lt ?_ ?_)
  · have := Nat.lt_floor_add_one (lo / (10 : ℚ) ^ (e + 1))
    rw [div_lt_iff₀ hz'] at this
    push_cast; exact this
  · have := Nat.floor_le (div_nonneg hlo hz'.le)
    rw [le_div_iff₀ hz'] at this
    rw [Nat.cast_add, Nat.cast_one, add_mul, one_mul]
    exact lt_of_le_of_lt (add_le_add_left this _) h2

/-- The exponent has at most three digits. -/
theorem best_exp (hlo : (1 : ℚ) / 2 ^ 1076 ≤ t) (hhi : t ≤ 2 ^ 969) (n : ℕ) (h1 : 10 ^ (n - 1) ≤ m) (h2 : m < 10 ^ n) (n1 : 1 ≤ n) : (e + n - 1).natAbs ≤ 324 := by
  obtain ⟨i1, i2⟩ := h.inside.le
  have hz : (0 : ℚ) < 10 ^ e := zpow_pos (by norm_num) _
  have a1 : (10 : ℚ) ^ (e + n - 1) < 10 ^ (309 : ℤ) := by
    have e1 : (10 : ℚ) ^ (e + n - 1) = 10 ^ (n - 1) * 10 ^ e := by
      clear hhi hlo
      rw [← zpow_natCast, ← zpow_add₀ (by norm_num)]
      congr 1; omega
    have e2 : (10 : ℚ) ^ (n - 1) * 10 ^ e ≤ m * 10 ^ e := mul_le_mul_of_nonneg_right (by exact_mod_cast h1) hz.le
    have e3 : ((4 * m2 + 2 : ℕ) : ℚ) * t ≤ 2 ^ 55 * 2 ^ 969 := by
      refine mul_le_mul ?_ hhi ht.le (pow_nonneg (by norm_num) _)
      have : 4 * m2 + 2 ≤ 2 ^ 55 := by omega
      exact_mod_cast this
    rw [e1]
    exact lt_of_le_of_lt e2 (lt_of_le_of_lt i2 (lt_of_le_of_lt e3 lt_309))
  have a2 : (10 : ℚ) ^ (-324 : ℤ) < 10 ^ (e + n) := by
    have e1 : (10 : ℚ) ^ (e + n) = 10 ^ n * 10 ^ e := by
      rw [zpow_add₀ (by norm_num), zpow_natCast]; ring
    have e2 : (m : ℚ) * 10 ^ e < 10 ^ n * 10 ^ e := mul_lt_mul_of_pos_right (by exact_mod_cast h2) hz
    have e3 : (2 : ℚ) * (1 / 2 ^ 1076) ≤ (4 * m2 - 1 - s : ℕ) * t := by
      refine mul_le_mul ?_ hlo (div_nonneg zero_le_one (pow_nonneg (by norm_num) _)) (Nat.cast_nonneg _)
      have : 2 ≤ 4 * m2 - 1 - s := by omega
      exact_mod_cast this
    rw [e1]
    exact lt_of_lt_of_le lt_324 (le_trans e3 (le_trans i1 e2.le))
  rw [zpow_lt_zpow_iff_right₀ (by norm_num)] at a1 a2
  omega

end

/-! ### `d2d` -/

theorem or_eq {man : ℕ} (h : man < 2 ^ 52) : (1 <<< 52) ||| man = 2 ^ 52 + man := by
  rw [← Nat.shiftLeft_add_eq_or_of_lt h]; rfl

theorem acc_iff (m : ℕ) : (m &&& 1 == 0) = true ↔ m % 2 = 0 := by rw [Nat.and_one_is_mod, beq_iff_eq]

/-- The significand and the width of the gap below, from the fields. -/
def sigOf (man ex : ℕ) : ℕ := if ex = 0 then man else 2 ^ 52 + man
def shiftOf (man ex : ℕ) : ℕ := if man ≠ 0 ∨ ex ≤ 1 then 1 else 0
/-- A quarter of the unit in the last place. -/
def quarter (ex : ℕ) : ℚ := 2 ^ ((ex - 1 : ℕ) : ℤ) / 2 ^ 1076

section
variable {man ex : ℕ} (hm : man < 2 ^ 52) (he : ex < 2047) (hz : man ≠ 0 ∨ ex ≠ 0)
include hm he hz

theorem sig_facts : 1 ≤ sigOf man ex ∧ sigOf man ex < 2 ^ 53 ∧ (shiftOf man ex = 1 ∨ (shiftOf man ex = 0 ∧ sigOf man ex = 2 ^ 52)) := by
  unfold sigOf shiftOf
  split_ifs <;> omega

theorem d2d_spec : ∃ m e, d2d man ex = some (m, e) ∧
    BestQ (sigOf man ex &&& 1 == 0) ((4 * sigOf man ex - 1 - shiftOf man ex : ℕ) * quarter ex) ((4 * sigOf man ex : ℕ) * quarter ex) ((4 * sigOf man ex + 2 : ℕ) * quarter ex) m e := by
  obtain ⟨f1, f2, f3⟩ := sig_facts hm he hz
  have hacc := acc_iff (sigOf man ex)
  have e2 : (if ex = 0 then (1 - 1023 - 52 - 2 : Int) else (ex : Int) - 1023 - 52 - 2) = ((ex - 1 : ℕ) : Int) - 1076 := by split_ifs <;> omega
  have em : (if ex = 0 then man else (1 <<< 52) ||| man) = sigOf man ex := by rw [sigOf, or_eq hm]
  have hd : d2d man ex = (if ((ex - 1 : ℕ) : Int) - 1076 ≥ 0 then step3pos (sigOf man ex) (((ex - 1 : ℕ) : Int) - 1076).toNat (shiftOf man ex) (sigOf man ex &&& 1 == 0)
      else step3neg (sigOf man ex) (-(((ex - 1 : ℕ) : Int) - 1076)).toNat (shiftOf man ex) (sigOf man ex &&& 1 == 0)).bind fun v =>
      (if v.vmTz || v.vrTz then step4gen v (sigOf man ex &&& 1 == 0) else step4com v).map fun o => (o.1, v.e10 + o.2) := by
    unfold d2d
    rw [e2, em]; rfl
  rw [hd]
  generalize hX : ex - 1 = X
  have hX' : X < 2046 := by omega
  have hq : quarter ex = 2 ^ (X : ℤ) / 2 ^ 1076 := by rw [quarter, hX]
  have hq0 : 0 < quarter ex := by rw [hq]; exact div_pos (zpow_pos (by norm_num) _) (pow_pos (by norm_num) _)
  generalize (sigOf man ex &&& 1 == 0) = acc at *
  generalize sigOf man ex = m2 at *
  generalize shiftOf man ex = s at *
  generalize quarter ex = t at *
  -- what step 4 makes of step 3
  have fin : ∀ (v : Vals) (A B : ℕ) (c : ℚ), 0 < c → (A : ℚ) = c * t → (B : ℚ) = c * 10 ^ v.e10 → Ready acc ((4 * m2 - 1 - s) * A) (4 * m2 * A) ((4 * m2 + 2) * A) B v →
      ∃ m e, (if v.vmTz || v.vrTz then step4gen v acc else step4com v).map (fun o => (o.1, v.e10 + o.2)) = some (m, e) ∧
        BestQ acc ((4 * m2 - 1 - s : ℕ) * t) ((4 * m2 : ℕ) * t) ((4 * m2 + 2 : ℕ) * t) m e := by
    intro v A B c hc hA hB hR
    have hfin : ∀ out r, Best acc ((4 * m2 - 1 - s) * A) (4 * m2 * A) ((4 * m2 + 2) * A) B out r →
        BestQ acc ((4 * m2 - 1 - s : ℕ) * t) ((4 * m2 : ℕ) * t) ((4 * m2 + 2 : ℕ) * t) (out % W64) (v.e10 + r) := by
      intro out r hb
      have h1 := bestQ_of hc hA hB hb
      have h2 := best_17 f1 f2 f3 hq0 h1
      have h3 : out % W64 = out := Nat.mod_eq_of_lt (lt_trans h2 (by decide +kernel))
      rw [h3]; exact h1
    by_cases htz : (v.vmTz || v.vrTz) = true
    · rw [if_pos htz]
      obtain ⟨out, r, g1, g2, -⟩ := hR.general
      rw [g1]
      exact ⟨_, _, rfl, hfin out r g2⟩
    · rw [if_neg htz]
      have htf : v.vmTz = false := by
        cases hvm : v.vmTz
        · rfl
        · rw [hvm, Bool.true_or] at htz; exact absurd rfl htz
      obtain ⟨out, r, g1, g2, -⟩ := hR.common htf
      rw [g1]
      exact ⟨_, _, rfl, hfin out r g2⟩
  by_cases hsg : (X : Int) - 1076 ≥ 0
  · rw [if_pos hsg]
    obtain ⟨k, hk⟩ : ∃ k : ℕ, X = k + 1076 := ⟨X - 1076, by omega⟩
    rw [show ((X : Int) - 1076).toNat = k by omega]
    obtain ⟨v, q, g1, g2, g3, g4⟩ := step3pos_spec f1 f2 f3 hacc (e2 := k) (by omega)
    rw [g1, Option.bind_some]
    refine fin v _ _ (1 / 2 ^ q) (by positivity) ?_ ?_ g4
    · rw [hq, hk, Nat.cast_add, zpow_add₀ (by norm_num), zpow_natCast]
      rw [show (2 : ℚ) ^ ((1076 : ℕ) : ℤ) = 2 ^ 1076 from zpow_natCast _ _, mul_div_cancel_right₀ _ (by positivity)]
      push_cast
      rw [← pow_sub_mul_pow (2 : ℚ) g2]
      field_simp
    · rw [g3, zpow_natCast, show (10 : ℚ) = 2 * 5 by norm_num, mul_pow]
      push_cast; field_simp
  · rw [if_neg hsg]
    obtain ⟨n, hn⟩ : ∃ n : ℕ, X + n = 1076 := ⟨1076 - X, by omega⟩
    rw [show (-((X : Int) - 1076)).toNat = n by omega]
    obtain ⟨v, q, g1, g2, g3, g4⟩ := step3neg_spec f1 f2 f3 hacc (n := n) (by omega) (by omega)
    rw [g1, Option.bind_some]
    have ht : t = 1 / 2 ^ n := by
      rw [hq, ← hn, zpow_natCast, pow_add]; field_simp
    refine fin v _ _ (5 ^ (n - q) * 2 ^ n) (by positivity) ?_ ?_ g4
    · rw [ht]; push_cast; field_simp
    · rw [g3, zpow_sub₀ (by norm_num), zpow_natCast, zpow_natCast, show (10 : ℚ) = 2 * 5 by norm_num, mul_pow, mul_pow, ← pow_sub_mul_pow (5 : ℚ) g2]
      push_cast; field_simp

end

/-! ### Small integers -/

theorem trimZeros_spec : ∀ f m e, 0 < m → m < 10 ^ f → ∃ k : ℕ, 10 ^ k ∣ m ∧ trimZeros f (m, e) = some (m / 10 ^ k, e + k) ∧ ¬ 10 ^ (k + 1) ∣ m := by
  intro f
  induction f with
  | zero => intro m e h0 h1; omega
  | succ f ih =>
    intro m e h0 h1
    rw [trimZeros, mod32_eq (by norm_num) (by norm_num)]
    by_cases hm : m % 10 = 0
    · rw [if_neg (by omega)]
      obtain ⟨k, k1, k2, k3⟩ := ih (m / 10) (e + 1) (by omega) (by rw [pow_succ] at h1; omega)
      have hd : m = 10 * (m / 10) := by omega
      refine ⟨k + 1, ?_, ?_, ?_⟩
      · rw [hd, pow_succ']; exact Nat.mul_dvd_mul_left 10 k1
      · rw [k2, Nat.div_div_eq_div_mul, ← pow_succ']
        push_cast
        rw [add_assoc, add_comm (1 : ℤ)]
      · rw [hd, pow_succ']; exact fun h => k3 (Nat.dvd_of_mul_dvd_mul_left (by norm_num) h)
    · rw [if_pos hm]
      exact ⟨0, by simp, by simp, by rw [zero_add, pow_one]; omega⟩

theorem int_best {acc : Bool} {f k : ℕ} {lo hi : ℚ} (h1 : (f : ℚ) - 1 / 2 ≤ lo) (h2 : hi ≤ (f : ℚ) + 1 / 2) (h3 : lo < f) (h4 : (f : ℚ) < hi) (hk : 10 ^ k ∣ f) (hk' : ¬ 10 ^ (k + 1) ∣ f) :
    BestQ acc lo f hi (f / 10 ^ k) (0 + k) := by
  have e : ((f / 10 ^ k : ℕ) : ℚ) * 10 ^ ((0 : ℤ) + k) = f := by
    rw [zero_add, zpow_natCast]
    exact_mod_cast Nat.div_mul_cancel hk
  constructor
  · rw [e]; exact InQ.of_lt h3 h4
  · intro u t ht hu
    obtain ⟨j, rfl⟩ : ∃ j : ℕ, t = ((k + 1 + j : ℕ) : ℤ) := ⟨(t - k - 1).toNat, by omega⟩
    obtain ⟨i1, i2⟩ := hu.le
    rw [zpow_natCast] at i1 i2
    have e2 : (u : ℚ) * 10 ^ (k + 1 + j) = ((u * 10 ^ (k + 1 + j) : ℕ) : ℚ) := by push_cast; ring
    rw [e2] at i1 i2
    have e3 : u * 10 ^ (k + 1 + j) = f := by
      generalize u * 10 ^ (k + 1 + j) = w at *
      rcases Nat.lt_trichotomy w f with h | h | h
      · have : (w : ℚ) + 1 ≤ f := by exact_mod_cast h
        linarith
      · exact h
      · have : (f : ℚ) + 1 ≤ w := by exact_mod_cast h
        linarith
    refine hk' ⟨u * 10 ^ j, ?_⟩
    rw [← e3, pow_add]; ring
  · intro u _
    rw [e, sub_self, abs_zero]; exact abs_nonneg _

section
variable {man ex : ℕ} (hm : man < 2 ^ 52) (he : ex < 2047) (hz : man ≠ 0 ∨ ex ≠ 0)
include hm he hz

/-- The decimal of `d2s_buffered_n`. -/
theorem decimal_spec : ∃ m e, (match d2dSmallInt man ex with
      | some m => trimZeros 64 (m, 0)
      | none => d2d man ex) = some (m, e) ∧
    BestQ (sigOf man ex &&& 1 == 0) ((4 * sigOf man ex - 1 - shiftOf man ex : ℕ) * quarter ex) ((4 * sigOf man ex : ℕ) * quarter ex) ((4 * sigOf man ex + 2 : ℕ) * quarter ex) m e := by
  cases hi : d2dSmallInt man ex with
  | none => exact d2d_spec hm he hz
  | some f =>
    dsimp only
    unfold d2dSmallInt at hi
    rw [or_eq hm] at hi
    dsimp only at hi
    by_cases c1 : (ex : Int) - 1023 - 52 > 0
    · rw [if_pos c1] at hi; exact absurd hi (by simp)
    rw [if_neg c1] at hi
    by_cases c2 : (ex : Int) - 1023 - 52 < -52
    · rw [if_pos c2] at hi; exact absurd hi (by simp)
    rw [if_neg c2] at hi
    obtain ⟨n, hn⟩ : ∃ n : ℕ, ex + n = 1075 := ⟨1075 - ex, by omega⟩
    rw [show (-((ex : Int) - 1023 - 52)).toNat = n by omega, Nat.one_shiftLeft, Nat.and_two_pow_sub_one_eq_mod, Nat.shiftRight_eq_div_pow] at hi
    by_cases c3 : (2 ^ 52 + man) % 2 ^ n = 0
    · rw [if_neg (by simpa using c3), Option.some.injEq] at hi
      obtain ⟨f1, f2, f3⟩ := sig_facts hm he hz
      have es : sigOf man ex = 2 ^ 52 + man := by rw [sigOf, if_neg (by omega)]
      have ef : f * 2 ^ n = sigOf man ex := by rw [es, ← hi]; exact Nat.div_mul_cancel (Nat.dvd_of_mod_eq_zero c3)
      have hp : 0 < 2 ^ n := Nat.two_pow_pos n
      have f0 : 0 < f := by
        rcases Nat.eq_zero_or_pos f with h0 | h0
        · rw [h0, zero_mul] at ef; omega
        · exact h0
      have f53 : f < 10 ^ 64 := by
        have : f ≤ f * 2 ^ n := Nat.le_mul_of_pos_right f hp
        omega
      have ht : quarter ex = 1 / 2 ^ (n + 2) := by
        have h1 : (2 : ℚ) ^ (ex - 1) * 2 ^ (n + 2) = 2 ^ 1076 := by rw [← pow_add]; congr 1; omega
        rw [quarter, zpow_natCast, ← h1, div_mul_eq_div_div, div_self (pow_ne_zero _ (by norm_num))]
      have hv : ((4 * sigOf man ex : ℕ) : ℚ) * quarter ex = f := by
        rw [ht, ← ef, pow_add]; push_cast; field_simp; norm_num
      have hq : 0 < quarter ex := by rw [ht]; positivity
      have hq' : quarter ex ≤ 1 / 4 := by
        rw [ht, pow_add]
        have : (1 : ℚ) ≤ 2 ^ n := one_le_pow₀ (by norm_num)
        exact one_div_le_one_div_of_le (by norm_num) (by linarith)
      obtain ⟨k, k1, k2, k3⟩ := trimZeros_spec 64 f 0 f0 f53
      refine ⟨_, _, k2, ?_⟩
      rw [hv]
      have hs : shiftOf man ex ≤ 1 := by omega
      have hs0 : (0 : ℚ) ≤ shiftOf man ex := Nat.cast_nonneg _
      have hs1 : (shiftOf man ex : ℚ) ≤ 1 := by exact_mod_cast hs
      have elo : ((4 * sigOf man ex - 1 - shiftOf man ex : ℕ) : ℚ) * quarter ex = f - (1 + shiftOf man ex) * quarter ex := by
        rw [← hv, Nat.sub_sub, Nat.cast_sub (by omega)]; push_cast; ring
      have ehi : ((4 * sigOf man ex + 2 : ℕ) : ℚ) * quarter ex = f + 2 * quarter ex := by
        rw [← hv]; push_cast; ring
      rw [elo, ehi]
      exact int_best (by nlinarith) (by linarith) (by nlinarith) (by linarith) k1 k3
    · rw [if_pos (by simpa using c3)] at hi; exact absurd hi (by simp)

/-- The interval is that of the numbers that are rounded to the double. -/
theorem near_iff (d : ℚ) : Near (ex * 2 ^ 52 + man) d ↔
    InQ (sigOf man ex &&& 1 == 0) ((4 * sigOf man ex - 1 - shiftOf man ex : ℕ) * quarter ex) ((4 * sigOf man ex + 2 : ℕ) * quarter ex) d := by
  obtain ⟨f1, f2, f3⟩ := sig_facts hm he hz
  have d1 : (ex * 2 ^ 52 + man) / 2 ^ 52 = ex := by omega
  have d2 : (ex * 2 ^ 52 + man) % 2 ^ 52 = man := by omega
  have u0 : U (ex * 2 ^ 52 + man) = sigOf man ex * 2 ^ (ex - 1) := by rw [U, d1, d2]; rfl
  have u1 : U (ex * 2 ^ 52 + man + 1) = sigOf man ex * 2 ^ (ex - 1) + 2 ^ (ex - 1) := by rw [U_succ, d1, u0]
  have um := U_succ (ex * 2 ^ 52 + man - 1)
  rw [show ex * 2 ^ 52 + man - 1 + 1 = ex * 2 ^ 52 + man by omega, u0] at um
  have K : (2 : ℚ) ^ 1076 = 2 ^ 1075 * 2 := pow_succ 2 1075
  have hK : (0 : ℚ) < 2 ^ 1075 := pow_pos (by norm_num) _
  have hq : quarter ex = 2 ^ (ex - 1) / (2 ^ 1075 * 2) := by rw [quarter, zpow_natCast, K]
  have ehi : ((U (ex * 2 ^ 52 + man) : ℚ) + U (ex * 2 ^ 52 + man + 1)) / 2 ^ 1075 = (4 * sigOf man ex + 2 : ℕ) * quarter ex := by
    rw [hq, u0, u1]
    generalize (2 : ℚ) ^ 1075 = K at *
    push_cast
    field_simp; ring
  have elo : ((U (ex * 2 ^ 52 + man - 1) : ℚ) + U (ex * 2 ^ 52 + man)) / 2 ^ 1075 = (4 * sigOf man ex - 1 - shiftOf man ex : ℕ) * quarter ex := by
    have um' : (sigOf man ex * 2 ^ (ex - 1) : ℚ) = U (ex * 2 ^ 52 + man - 1) + 2 ^ ((ex * 2 ^ 52 + man - 1) / 2 ^ 52 - 1) := by exact_mod_cast um
    have hg : (2 : ℚ) * 2 ^ ((ex * 2 ^ 52 + man - 1) / 2 ^ 52 - 1) = (1 + shiftOf man ex) * 2 ^ (ex - 1) := by
      unfold shiftOf
      by_cases h : man ≠ 0 ∨ ex ≤ 1
      · rw [if_pos h]
        have : (ex * 2 ^ 52 + man - 1) / 2 ^ 52 - 1 = ex - 1 := by omega
        rw [this]; push_cast; ring
      · rw [if_neg h]
        have : (ex * 2 ^ 52 + man - 1) / 2 ^ 52 - 1 + 1 = ex - 1 := by omega
        rw [← this, pow_succ]; push_cast; ring
    have hc : ((4 * sigOf man ex - 1 - shiftOf man ex : ℕ) : ℚ) = 4 * sigOf man ex - (1 + shiftOf man ex) := by
      rw [Nat.sub_sub, Nat.cast_sub (by omega)]; push_cast; ring
    rw [hq, u0, hc, show (U (ex * 2 ^ 52 + man - 1) : ℚ) = sigOf man ex * 2 ^ (ex - 1) - 2 ^ ((ex * 2 ^ 52 + man - 1) / 2 ^ 52 - 1) by linarith, sub_mul, mul_div_assoc',
      mul_div_assoc', ← hg]
    generalize (2 : ℚ) ^ 1075 = K at *
    generalize (2 : ℚ) ^ ((ex * 2 ^ 52 + man - 1) / 2 ^ 52 - 1) = G at *
    push_cast
    field_simp; ring
  have hpar : (ex * 2 ^ 52 + man) % 2 = 0 ↔ (sigOf man ex &&& 1 == 0) = true := by
    rw [acc_iff]; unfold sigOf; split_ifs <;> omega
  unfold Near InQ
  rw [ehi, elo]
  by_cases hp : (ex * 2 ^ 52 + man) % 2 = 0
  · rw [if_pos hp, if_pos (hpar.1 hp)]
  · rw [if_neg hp, if_neg (fun h => hp (hpar.2 h))]

theorem quarter_pos : 0 < quarter ex := div_pos (zpow_pos (by norm_num) _) (pow_pos (by norm_num) _)

theorem quarter_lo : (1 : ℚ) / 2 ^ 1076 ≤ quarter ex := by
  rw [quarter, zpow_natCast]
  exact div_le_div_of_nonneg_right (one_le_pow₀ (by norm_num)) (pow_nonneg (by norm_num) _)

theorem quarter_hi : quarter ex ≤ 2 ^ 969 := by
  rw [quarter, zpow_natCast, div_le_iff₀ (pow_pos (by norm_num) _), ← pow_add]
  exact pow_le_pow_right₀ (by norm_num) (by omega)

theorem value_eq : ((4 * sigOf man ex : ℕ) : ℚ) * quarter ex = U (ex * 2 ^ 52 + man) / 2 ^ 1074 := by
  have d1 : (ex * 2 ^ 52 + man) / 2 ^ 52 = ex := by omega
  have d2 : (ex * 2 ^ 52 + man) % 2 ^ 52 = man := by omega
  have u0 : U (ex * 2 ^ 52 + man) = sigOf man ex * 2 ^ (ex - 1) := by rw [U, d1, d2]; rfl
  have K : (2 : ℚ) ^ 1076 = 2 ^ 1074 * 4 := by rw [show 1076 = 1074 + 2 from rfl, pow_add]; norm_num
  have hK : (0 : ℚ) < 2 ^ 1074 := pow_pos (by norm_num) _
  rw [quarter, zpow_natCast, K, u0]
  generalize (2 : ℚ) ^ 1074 = K at *
  push_cast
  field_simp

end

/-! ### The text -/

/-- The decimal that is printed for a double. -/
structure Shown (x : F64) (t : List Byte) (m n : ℕ) (e : ℤ) : Prop where
  m0 : 0 < m
  n1 : 1 ≤ n
  n17 : n ≤ 17
  lo : 10 ^ (n - 1) ≤ m
  hi : m < 10 ^ n
  text : t = sciText (Spec.Double.neg x) m n e
  exp : (e + n - 1).natAbs ≤ 324
  near : Near (mag x) (m * 10 ^ e)
  shortest : ∀ (u : ℕ) (k : ℤ), e < k → ¬ Near (mag x) (u * 10 ^ k)
  closest : ∀ u : ℕ, Near (mag x) (u * 10 ^ e) → |(m : ℚ) * 10 ^ e - U (mag x) / 2 ^ 1074| ≤ |(u : ℚ) * 10 ^ e - U (mag x) / 2 ^ 1074|

theorem fields (x : F64) : x.toNat &&& (1 <<< 52 - 1) = Spec.Double.frac x ∧ (x.toNat >>> 52) &&& (1 <<< 11 - 1) = Spec.Double.expo x ∧
    ((x.toNat >>> 63) &&& 1 != 0) = Spec.Double.neg x := by
  refine ⟨?_, ?_, ?_⟩
  · rw [Nat.one_shiftLeft, Nat.and_two_pow_sub_one_eq_mod]; rfl
  · rw [Nat.one_shiftLeft, Nat.and_two_pow_sub_one_eq_mod, Nat.shiftRight_eq_div_pow]; rfl
  · have := x.isLt
    rw [Nat.and_one_is_mod, Nat.shiftRight_eq_div_pow, Spec.Double.neg]
    by_cases h : 2 ^ 63 ≤ x.toNat
    · rw [decide_eq_true h, bne_iff_ne]; omega
    · rw [decide_eq_false h, bne_eq_false_iff_eq]; omega

theorem mag_fields (x : F64) : mag x = Spec.Double.expo x * 2 ^ 52 + Spec.Double.frac x := by
  simp only [mag, Spec.Double.expo, Spec.Double.frac]; omega

theorem bufferedN_eq (x : F64) (buf : List Byte) : d2sBufferedN x buf =
    if Spec.Double.expo x = 2047 ∨ (Spec.Double.expo x = 0 ∧ Spec.Double.frac x = 0) then copySpecial (Spec.Double.neg x) (Spec.Double.expo x != 0) (Spec.Double.frac x != 0) buf
    else (match d2dSmallInt (Spec.Double.frac x) (Spec.Double.expo x) with
      | some m => trimZeros 64 (m, 0)
      | none => d2d (Spec.Double.frac x) (Spec.Double.expo x)).bind fun v => toChars64 v.1 v.2 (Spec.Double.neg x) buf := by
  obtain ⟨g1, g2, g3⟩ := fields x
  unfold d2sBufferedN
  extract_lets bits sign man ex
  rw [show man = Spec.Double.frac x from g1, show ex = Spec.Double.expo x from g2, show sign = Spec.Double.neg x from g3, show 1 <<< 11 - 1 = 2047 from rfl]
  split_ifs <;> rfl

theorem digits_unique {m n k : ℕ} (h1 : 10 ^ (n - 1) ≤ m) (h2 : m < 10 ^ n) (h3 : 10 ^ (k - 1) ≤ m) (h4 : m < 10 ^ k) (hn : 1 ≤ n) (hk : 1 ≤ k) : n = k := by
  have a1 := (Nat.pow_lt_pow_iff_right (show 1 < 10 by norm_num)).1 (lt_of_le_of_lt h1 h4)
  have a2 := (Nat.pow_lt_pow_iff_right (show 1 < 10 by norm_num)).1 (lt_of_le_of_lt h3 h2)
  omega

/-- What `d2s_buffered` leaves in its buffer. -/
theorem d2s_spec (x : F64) (hx : Spec.Double.IsFinite x) (h0 : 1 ≤ mag x) :
    ∃ t m n e, Shown x t m n e ∧ ∀ buf : List Byte, 25 ≤ buf.length → ∃ b, d2sBuffered x buf = some b ∧ b.length = buf.length ∧ b.takeWhile (· != 0#8) = t ∧ t.length < 25 := by
  have hm : Spec.Double.frac x < 2 ^ 52 := Nat.mod_lt _ (by norm_num)
  have hmag := mag_fields x
  have hz : Spec.Double.frac x ≠ 0 ∨ Spec.Double.expo x ≠ 0 := by omega
  unfold Spec.Double.IsFinite at hx
  have hN : ∀ buf, d2sBufferedN x buf = (match d2dSmallInt (Spec.Double.frac x) (Spec.Double.expo x) with
      | some m => trimZeros 64 (m, 0)
      | none => d2d (Spec.Double.frac x) (Spec.Double.expo x)).bind fun v => toChars64 v.1 v.2 (Spec.Double.neg x) buf := by
    intro buf
    rw [bufferedN_eq]
    exact if_neg (by omega)
  obtain ⟨m, e, d1, d2⟩ := decimal_spec hm hx hz
  obtain ⟨f1, f2, f3⟩ := sig_facts hm hx hz
  have hq := quarter_pos hm hx hz
  have b0 := best_pos f1 f2 f3 hq d2
  have b17 := best_17 f1 f2 f3 hq d2
  have bexp := best_exp f1 f2 f3 hq d2 (quarter_lo hm hx hz) (quarter_hi hm hx hz)
  obtain ⟨n, -, n1, n17, hlo, hhi⟩ := decimalLength_spec b0 b17
  refine ⟨_, m, n, e, ⟨b0, n1, n17, hlo, hhi, rfl, bexp n hlo hhi n1, ?_, ?_, ?_⟩, ?_⟩
  · rw [hmag]; exact (near_iff hm hx hz _).2 d2.inside
  · intro u k hk hu
    rw [hmag] at hu
    exact d2.shortest u k hk ((near_iff hm hx hz _).1 hu)
  · intro u hu
    rw [hmag] at hu ⊢
    rw [← value_eq hm hx hz]
    exact d2.closest u ((near_iff hm hx hz _).1 hu)
  · intro buf hb
    obtain ⟨k, b, k1, k17, klo, khi, -, t1, t2, t3⟩ := toChars64_spec (sign := Spec.Double.neg x) b0 b17 bexp hb
    obtain rfl := digits_unique hlo hhi klo khi n1 k1
    have hlen := sciText_length (neg := Spec.Double.neg x) (e := e) n1 hlo hhi n17
    obtain ⟨b', p1, p2, p3⟩ := terminated t3 (by omega) (sciText_nul n1 hlo hhi)
    refine ⟨b', ?_, by omega, p3, by omega⟩
    rw [d2sBuffered, hN, d1, Option.bind_some, t1, Option.bind_some]; exact p1

/-! ### NaN, the infinities and zero -/

theorem putAll_next : ∀ (s t buf : List Byte), Begins t buf → t.length + s.length ≤ buf.length → ∃ buf', putAll t.length s buf = some buf' ∧ buf'.length = buf.length ∧ Begins (t ++ s) buf' := by
  intro s
  induction s with
  | nil => intro t buf h _; exact ⟨buf, rfl, rfl, by rw [List.append_nil]; exact h⟩
  | cons c s ih =>
    intro t buf h hl
    rw [List.length_cons] at hl
    obtain ⟨b1, p1, p2, p3⟩ := put_next (b := c) h (by omega)
    obtain ⟨b2, q1, q2, q3⟩ := ih (t ++ [c]) b1 p3 (by rw [List.length_append, List.length_singleton]; omega)
    refine ⟨b2, ?_, by omega, by rw [List.append_assoc] at q3; exact q3⟩
    rw [putAll, p1, Option.bind_some]
    rw [List.length_append, List.length_singleton] at q1
    exact q1

/-- The text of a special value. -/
def specialText (neg inf nan : Bool) : List Byte := if nan then txt "NaN" else (if neg then [0x2D#8] else []) ++ (if inf then txt "Infinity" else txt "0E0")

theorem copySpecial_spec (neg inf nan : Bool) (buf : List Byte) (hb : 25 ≤ buf.length) :
    ∃ b, copySpecial neg inf nan buf = some (b, (specialText neg inf nan).length) ∧ b.length = buf.length ∧ Begins (specialText neg inf nan) b := by
  have hnil : Begins [] buf := by simp [Begins]
  have l1 : (txt "NaN").length = 3 := by decide
  have l2 : (txt "Infinity").length = 8 := by decide
  have l3 : (txt "0E0").length = 3 := by decide
  unfold copySpecial specialText
  cases nan with
  | true =>
    obtain ⟨b, p1, p2, p3⟩ := putAll_next (txt "NaN") [] buf hnil (by rw [l1, List.length_nil]; omega)
    refine ⟨b, ?_, p2, p3⟩
    rw [if_pos rfl, if_pos rfl, l1]
    rw [List.length_nil] at p1
    rw [p1]; rfl
  | false =>
    rw [if_neg Bool.false_ne_true, if_neg Bool.false_ne_true]
    obtain ⟨b1, c1, c2, c3⟩ : ∃ b1, (if neg then put 0 0x2D#8 buf else some buf) = some b1 ∧ b1.length = buf.length ∧ Begins (if neg then [0x2D#8] else []) b1 := by
      cases neg with
      | true =>
        obtain ⟨b1, c1, c2, c3⟩ := put_next (b := 0x2D#8) hnil (by rw [List.length_nil]; omega)
        exact ⟨b1, c1, c2, c3⟩
      | false => exact ⟨buf, rfl, rfl, hnil⟩
    have hl : (if neg then [0x2D#8] else [] : List Byte).length = if neg then 1 else 0 := by cases neg <;> rfl
    have hl1 : (if neg then 1 else 0 : ℕ) ≤ 1 := by cases neg <;> decide
    rw [c1, Option.bind_some]
    cases inf with
    | true =>
      obtain ⟨b, p1, p2, p3⟩ := putAll_next (txt "Infinity") _ b1 c3 (by rw [hl, l2]; omega)
      refine ⟨b, ?_, by omega, p3⟩
      rw [if_pos rfl, if_pos rfl, List.length_append, hl, l2]
      rw [hl] at p1
      rw [p1]; rfl
    | false =>
      obtain ⟨b, p1, p2, p3⟩ := putAll_next (txt "0E0") _ b1 c3 (by rw [hl, l3]; omega)
      refine ⟨b, ?_, by omega, p3⟩
      rw [if_neg Bool.false_ne_true, if_neg Bool.false_ne_true, List.length_append, hl, l3]
      rw [hl] at p1
      rw [p1]; rfl

theorem d2s_special (x : F64) (hx : Spec.Double.expo x = 2047 ∨ mag x = 0) (buf : List Byte) (hb : 25 ≤ buf.length) :
    ∃ b, d2sBuffered x buf = some b ∧ b.length = buf.length ∧ b.takeWhile (· != 0#8) = specialText (Spec.Double.neg x) (Spec.Double.expo x != 0) (Spec.Double.frac x != 0) := by
  have hmag := mag_fields x
  obtain ⟨b, p1, p2, p3⟩ := copySpecial_spec (Spec.Double.neg x) (Spec.Double.expo x != 0) (Spec.Double.frac x != 0) buf hb
  have hN : d2sBufferedN x buf = some (b, (specialText (Spec.Double.neg x) (Spec.Double.expo x != 0) (Spec.Double.frac x != 0)).length) := by
    rw [bufferedN_eq, if_pos (by omega)]; exact p1
  have hall : ∀ a b c, (specialText a b c).length ≤ 9 ∧ ∀ d ∈ specialText a b c, d ≠ 0#8 := by decide
  obtain ⟨s1, s2⟩ := hall (Spec.Double.neg x) (Spec.Double.expo x != 0) (Spec.Double.frac x != 0)
  obtain ⟨b', q1, q2, q3⟩ := terminated p3 (by omega) s2
  refine ⟨b', ?_, by omega, q3⟩
  rw [d2sBuffered, hN, Option.bind_some]; exact q1

/-! ### Digits -/

theorem sci_digits {m n : ℕ} (n1 : 1 ≤ n) (hlo : 10 ^ (n - 1) ≤ m) (hhi : m < 10 ^ n) : Spec.digitsVal (digit (m / 10 ^ (n - 1)) :: decs (n - 1) m) = m := by
  have h1 : ∀ (ds : List Byte) (a : ℕ), ds.foldl (fun a b => a * 10 + (b.toNat - 48)) a = a * 10 ^ ds.length + Spec.digitsVal ds := by
    intro ds
    induction ds with
    | nil => intro a; simp [Spec.digitsVal]
    | cons d ds ih =>
      intro a
      rw [Spec.digitsVal, List.foldl_cons, List.foldl_cons, ih, ih, List.length_cons, pow_succ]; ring
  rw [Spec.digitsVal, List.foldl_cons, h1, decs_val, decs_length, digit_toNat (lead_lt n1 hlo hhi)]
  have := Nat.div_add_mod m (10 ^ (n - 1))
  rw [mul_comm] at this
  rw [zero_mul, zero_add, Nat.add_sub_cancel_left]; exact this

/-- Fewer digits are not enough. -/
theorem Shown.digits {x : F64} {t : List Byte} {m n : ℕ} {e : ℤ} (h : Shown x t m n e) (h0 : 1 ≤ mag x) {c : ℕ} {k : ℤ} (hc : Near (mag x) (c * 10 ^ k)) : 10 ^ (n - 1) ≤ c := by
  by_contra hn
  have hn' : c < 10 ^ (n - 1) := by omega
  by_cases hk : e < k
  · exact h.shortest c k hk hc
  -- the power of ten with as many digits is in between
  have hz : (0 : ℚ) < 10 ^ e := zpow_pos (by norm_num) _
  have h1 : (c : ℚ) * 10 ^ k ≤ ((10 ^ (n - 1) : ℕ) : ℚ) * 10 ^ e := by
    refine mul_le_mul ?_ (zpow_le_zpow_right₀ (by norm_num) (by omega)) (zpow_pos (by norm_num) _).le (Nat.cast_nonneg _)
    exact_mod_cast hn'.le
  have h2 : ((10 ^ (n - 1) : ℕ) : ℚ) * 10 ^ e ≤ m * 10 ^ e := mul_le_mul_of_nonneg_right (by exact_mod_cast h.lo) hz.le
  have hin : Near (mag x) (((10 ^ (n - 1) : ℕ) : ℚ) * 10 ^ e) := by
    have a1 := hc
    have a2 := h.near
    unfold Near at a1 a2 ⊢
    split_ifs at a1 a2 ⊢
    · exact ⟨le_trans a1.1 h1, le_trans h2 a2.2⟩
    · exact ⟨lt_of_lt_of_le a1.1 h1, lt_of_le_of_lt h2 a2.2⟩
  by_cases hn1 : n = 1
  · rw [hn1] at hn'
    have : c = 0 := by simpa using hn'
    rw [this, Nat.cast_zero, zero_mul] at hc
    have b1 := near_pos hc h0
    have b2 : (0 : ℚ) ≤ U (mag x) / 2 ^ 1074 := div_nonneg (Nat.cast_nonneg _) (pow_nonneg (by norm_num) _)
    rw [mul_zero] at b1
    exact absurd b1 (not_lt.2 b2)
  · have := h.n1
    refine h.shortest 1 (e + (n - 1 : ℕ)) (by omega) ?_
    rw [zpow_add₀ (by norm_num), zpow_natCast, Nat.cast_one, one_mul, mul_comm]
    rw [pow_cast 10 (n - 1)] at hin
    exact hin

end Tg.Ryu
