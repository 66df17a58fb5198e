import Verif.Lemmas.Shared
import Verif.Lemmas.IeeeRing
/-! Stripes with doubles of any size. -/
set_option linter.unusedSectionVars false
namespace Tg.S.Sh

open Tg.Spec.Double Tg.Double

variable {F : Fp} (hF : F.Ok)

theorem isD_scaled {q : ℚ} (h : IsD q) : ∃ m : ℤ, q = m / 2 ^ 1074 := by
  obtain ⟨x, -, rfl⟩ := h
  rw [val_mag]
  unfold sg
  split_ifs
  · exact ⟨-(U (mag x) : ℤ), by push_cast; ring⟩
  · exact ⟨(U (mag x) : ℤ), by push_cast; ring⟩

/-- The two ends of the range of a ring. -/
structure Ends (lo hi : ℚ) : Prop where
  lt : lo < hi
  dlo : IsD lo
  dhi : IsD hi
  blo : |lo| ≤ 2 ^ 990
  bhi : |hi| ≤ 2 ^ 990

theorem Ends.inR {lo hi : ℚ} (h : Ends lo hi) {z : ℚ} (z1 : lo ≤ z) (z2 : z ≤ hi) : InR (z - lo) := by
  refine inR_of ?_
  rw [abs_of_nonneg (sub_nonneg.2 z1)]
  have a := (abs_le.1 h.blo).1
  have b := (abs_le.1 h.bhi).2
  have c : (2 : ℚ) ^ 990 + 2 ^ 990 ≤ 2 ^ 1020 := by
    rw [← two_mul, ← pow_succ']
    exact pow_le_pow_right₀ (by norm_num) (by norm_num)
  generalize (2 : ℚ) ^ 990 = u at a b c
  generalize (2 : ℚ) ^ 1020 = w at c ⊢
  linarith

include hF

theorem height {lo hi : ℚ} (h : Ends lo hi) : 0 < F.sub hi lo := by
  obtain ⟨m, hm⟩ := isD_scaled h.dhi
  obtain ⟨n, hn⟩ := isD_scaled h.dlo
  have k0 : (0 : ℚ) < 2 ^ 1074 := K_pos
  have hmn : n + 1 ≤ m := by
    have := h.lt
    rw [hm, hn, div_lt_div_iff_of_pos_right k0] at this
    exact_mod_cast this
  have hle : ((1 : ℤ) : ℚ) * 2 ^ (-1074 : ℤ) ≤ hi - lo := by
    rw [hm, hn, ← sub_div, zpow_neg, Int.cast_one, one_mul, le_div_iff₀ k0]
    rw [show (2 : ℚ) ^ (1074 : ℤ) = 2 ^ 1074 from zpow_natCast _ _, inv_mul_cancel₀ k0.ne']
    have : ((n + 1 : ℤ) : ℚ) ≤ m := by exact_mod_cast hmn
    push_cast at this
    linarith
  have hsmall : InR (((1 : ℤ) : ℚ) * 2 ^ (-1074 : ℤ)) := by
    refine inR_of ?_
    rw [Int.cast_one, one_mul, abs_of_pos (zpow_pos (by norm_num) _), ← zpow_natCast]
    exact zpow_le_zpow_right₀ (by norm_num) (by norm_num)
  have := F.fl_mono hF hsmall (h.inR h.lt.le le_rfl) hle
  rw [F.fl_int hF (by norm_num) (by norm_num) (by norm_num)] at this
  refine lt_of_lt_of_le ?_ this
  rw [Int.cast_one, one_mul]
  exact zpow_pos (by norm_num) _

/-- The position of a height in the ring, between 0 and 1. -/
theorem ratio {lo hi : ℚ} (h : Ends lo hi) {y y' : ℚ} (hy : lo ≤ y) (hyy : y ≤ y') (hy' : y' ≤ hi) :
    0 ≤ F.div (F.sub y lo) (F.sub hi lo) ∧ F.div (F.sub y lo) (F.sub hi lo) ≤ F.div (F.sub y' lo) (F.sub hi lo) ∧
      F.div (F.sub y' lo) (F.sub hi lo) ≤ 1 := by
  have hp := height hF h
  have b : ∀ z, lo ≤ z → z ≤ hi → 0 ≤ F.sub z lo ∧ F.sub z lo ≤ F.sub hi lo := fun z z1 z2 =>
    ⟨F.fl_nonneg hF (h.inR z1 z2) (sub_nonneg.2 z1), F.fl_mono hF (h.inR z1 z2) (h.inR h.lt.le le_rfl) (sub_le_sub_right z2 lo)⟩
  have m : F.sub y lo ≤ F.sub y' lo := F.fl_mono hF (h.inR hy (hyy.trans hy')) (h.inR (hy.trans hyy) hy') (sub_le_sub_right hyy lo)
  have b1 := b y hy (hyy.trans hy')
  have b2 := b y' (hy.trans hyy) hy'
  have q : ∀ z, 0 ≤ z → z ≤ F.sub hi lo → 0 ≤ z / F.sub hi lo ∧ z / F.sub hi lo ≤ 1 ∧ InR (z / F.sub hi lo) := fun z z1 z2 => by
    have a := div_nonneg z1 hp.le
    have c : z / F.sub hi lo ≤ 1 := (div_le_one hp).2 z2
    refine ⟨a, c, inR_small ?_⟩
    rw [abs_of_nonneg a]
    exact c.trans (one_le_pow₀ (by norm_num))
  unfold Fp.div
  simp only [if_neg hp.ne']
  obtain ⟨q1, q2, q3⟩ := q _ b1.1 b1.2
  obtain ⟨r1, r2, r3⟩ := q _ b2.1 b2.2
  refine ⟨F.fl_nonneg hF q3 q1, F.fl_mono hF q3 r3 (div_le_div_of_nonneg_right m hp.le), ?_⟩
  have := F.fl_mono hF r3 inR_one r2
  rwa [F.fl_one hF] at this

theorem stripe_val {lo hi : ℚ} (h : Ends lo hi) {n : ℕ} (hn : n < 2 ^ 31) {y : ℚ} (hy : lo ≤ y) (hy' : y ≤ hi) :
    F.stripe lo hi n y = some ⌊F.mul (F.div (F.sub y lo) (F.sub hi lo)) (F.fl n)⌋ := by
  obtain ⟨r1, -, r3⟩ := ratio hF h hy le_rfl hy'
  obtain ⟨s1, -, s3⟩ := pos_grid hF hn r1 le_rfl r3
  unfold Fp.stripe
  dsimp only
  rw [if_neg (height hF h).ne']
  have ht : truncInt (F.mul (F.div (F.sub y lo) (F.sub hi lo)) (F.fl n)) = ⌊F.mul (F.div (F.sub y lo) (F.sub hi lo)) (F.fl n)⌋ := by
    unfold truncInt
    rw [if_pos s1]
  rw [ht]
  have f0 : 0 ≤ ⌊F.mul (F.div (F.sub y lo) (F.sub hi lo)) (F.fl n)⌋ := Int.floor_nonneg.2 s1
  have f1 : ⌊F.mul (F.div (F.sub y lo) (F.sub hi lo)) (F.fl n)⌋ ≤ n := by
    rw [← Int.floor_natCast (R := ℚ) n]
    exact Int.floor_mono s3
  rw [if_pos ⟨by omega, by omega⟩]

/-- The stripe numbers are defined and grow with `y`. -/
theorem stripe_law {lo hi : ℚ} (h : Ends lo hi) {n : ℕ} (hn : n < 2 ^ 31) : StripeOk F.arith lo hi n := by
  refine ⟨fun y a b => ⟨_, stripe_val hF h hn a b⟩, fun y j a b e => ?_, fun y y' j j' a b c e e' => ?_⟩
  · rw [show F.arith.stripe = F.stripe from rfl, stripe_val hF h hn a b] at e
    cases e
    obtain ⟨r1, -, r3⟩ := ratio hF h a le_rfl b
    exact Int.floor_nonneg.2 (pos_grid hF hn r1 le_rfl r3).1
  · rw [show F.arith.stripe = F.stripe from rfl, stripe_val hF h hn a (b.trans c)] at e
    rw [show F.arith.stripe = F.stripe from rfl, stripe_val hF h hn (a.trans b) c] at e'
    cases e
    cases e'
    obtain ⟨r1, r2, r3⟩ := ratio hF h a b c
    exact Int.floor_mono (pos_grid hF hn r1 r2 r3).2.1

/-- A height that is below the top by a millionth of the height of the ring is in a stripe. -/
theorem stripe_below {lo hi : ℚ} (h : Ends lo hi) (ht : 2 ^ (-900 : ℤ) ≤ hi - lo) {n : ℕ} (n0 : 0 < n) (hn : n < 2 ^ 31) {y : ℚ} (hy : lo ≤ y)
    (hy' : y ≤ hi - (hi - lo) / 2 ^ 20) {j : ℤ} (hj : F.arith.stripe lo hi n y = some j) : j < n := by
  have hp := height hF h
  have d0 : 0 < hi - lo := sub_pos.2 h.lt
  have yhi : y ≤ hi := hy'.trans (by linarith [div_pos d0 (by norm_num : (0 : ℚ) < 2 ^ 20)])
  rw [show F.arith.stripe = F.stripe from rfl, stripe_val hF h hn hy yhi] at hj
  cases hj
  rw [Int.floor_lt]
  obtain ⟨r1, -, r3⟩ := ratio hF h hy le_rfl yhi
  have big : hi - lo ≤ 2 ^ (1000 : ℤ) := by
    have a := (abs_le.1 h.blo).1
    have b := (abs_le.1 h.bhi).2
    have c : (2 : ℚ) ^ 990 + 2 ^ 990 ≤ 2 ^ (1000 : ℤ) := by
      rw [← two_mul, ← pow_succ', show (2 : ℚ) ^ (1000 : ℤ) = 2 ^ 1000 from zpow_natCast _ _]
      exact pow_le_pow_right₀ (by norm_num) (by norm_num)
    generalize (2 : ℚ) ^ 990 = u at a b c
    generalize (2 : ℚ) ^ (1000 : ℤ) = w at c ⊢
    linarith
  have small : (2 : ℚ) ^ (-1000 : ℤ) * 2 ≤ hi - lo := by
    refine le_trans ?_ ht
    rw [← zpow_add_one₀ (by norm_num)]
    exact zpow_le_zpow_right₀ (by norm_num) (by norm_num)
  have e1 := F.fl_err hF (q := hi - lo) (by
    rw [abs_of_pos d0]
    have : (0 : ℚ) < 2 ^ (-1000 : ℤ) := zpow_pos (by norm_num) _
    generalize (2 : ℚ) ^ (-1000 : ℤ) = u at small this ⊢
    clear big ht
    linarith) (le_of_eq_of_le (abs_of_pos d0) big)
  have dpos : 0 < (hi - lo) * (1 - 1 / 2 ^ 20) := mul_pos d0 (by norm_num)
  have e2 := F.fl_err hF (q := (hi - lo) * (1 - 1 / 2 ^ 20)) (by
    rw [abs_of_pos dpos]
    have : (0 : ℚ) < 2 ^ (-1000 : ℤ) := zpow_pos (by norm_num) _
    generalize (2 : ℚ) ^ (-1000 : ℤ) = u at small this ⊢
    generalize hi - lo = d at small d0 ⊢
    clear big ht e1 dpos
    have : d / 2 ≤ d * (1 - 1 / 2 ^ 20) := by nlinarith
    linarith) (by
    rw [abs_of_pos dpos]
    refine le_trans ?_ big
    exact mul_le_of_le_one_right d0.le (by norm_num))
  have m1 : F.sub y lo ≤ F.fl ((hi - lo) * (1 - 1 / 2 ^ 20)) := by
    refine F.fl_mono hF (h.inR hy yhi) ?_ ?_
    · have := h.inR (z := lo + (hi - lo) * (1 - 1 / 2 ^ 20)) (by linarith) (by
        have : (hi - lo) * (1 - 1 / 2 ^ 20) ≤ hi - lo := mul_le_of_le_one_right d0.le (by norm_num)
        linarith)
      rwa [add_sub_cancel_left] at this
    · have : (hi - lo) * (1 - 1 / 2 ^ 20) = hi - lo - (hi - lo) / 2 ^ 20 := by ring
      linarith
  rw [abs_of_pos d0] at e1
  rw [abs_of_pos dpos] at e2
  have f1 := (abs_le.1 e1).2
  have f2 := (abs_le.1 e2).1
  have quo : F.sub y lo / F.sub hi lo ≤ ((2 ^ 21 - 1 : ℤ) : ℚ) * 2 ^ (-21 : ℤ) := by
    rw [div_le_iff₀ hp]
    have g : (hi - lo) - (hi - lo) / 2 ^ 53 ≤ F.sub hi lo := by
      have : F.sub hi lo = F.fl (hi - lo) := rfl
      linarith
    generalize F.sub hi lo = H at g hp ⊢
    generalize F.sub y lo = Y at m1 ⊢
    generalize F.fl ((hi - lo) * (1 - 1 / 2 ^ 20)) = Z at m1 f2
    clear e1 e2 f1 big small ht hy' r1 r3
    generalize hi - lo = d at g f2 d0 dpos
    have : ((2 ^ 21 - 1 : ℤ) : ℚ) * 2 ^ (-21 : ℤ) = 1 - 1 / 2 ^ 21 := by norm_num
    rw [this]
    norm_num at *
    nlinarith
  have cle : ((2 ^ 21 - 1 : ℤ) : ℚ) * 2 ^ (-21 : ℤ) ≤ 1 := by norm_num
  have c0 : (0 : ℚ) ≤ ((2 ^ 21 - 1 : ℤ) : ℚ) * 2 ^ (-21 : ℤ) := by norm_num
  have ic : InR (((2 ^ 21 - 1 : ℤ) : ℚ) * 2 ^ (-21 : ℤ)) := inR_small (by
    rw [abs_of_nonneg c0]
    exact cle.trans (one_le_pow₀ (by norm_num)))
  have b0 : 0 ≤ F.sub y lo := F.fl_nonneg hF (h.inR hy yhi) (sub_nonneg.2 hy)
  have rle : F.div (F.sub y lo) (F.sub hi lo) ≤ ((2 ^ 21 - 1 : ℤ) : ℚ) * 2 ^ (-21 : ℤ) := by
    unfold Fp.div
    rw [if_neg hp.ne']
    have q0 := div_nonneg b0 hp.le
    have := F.fl_mono hF (inR_small (by
      rw [abs_of_nonneg q0]
      exact (quo.trans cle).trans (one_le_pow₀ (by norm_num)))) ic quo
    rwa [F.fl_int hF (by norm_num) (by norm_num) (by norm_num)] at this
  have p := (pos_grid hF hn r1 rle cle).2.1
  refine lt_of_le_of_lt p ?_
  unfold Fp.mul
  rw [fl_nat hF hn]
  have nq : (n : ℚ) < 2 ^ 31 := by exact_mod_cast hn
  have ni : (n : ℤ) < 2 ^ 31 := by exact_mod_cast hn
  have : ((2 ^ 21 - 1 : ℤ) : ℚ) * 2 ^ (-21 : ℤ) * (n : ℚ) = (((2 ^ 21 - 1) * n : ℤ) : ℚ) * 2 ^ (-21 : ℤ) := by
    push_cast
    ring
  rw [this, F.fl_int hF (by rw [abs_of_nonneg (by positivity)]; norm_num; norm_num at ni; omega) (by norm_num) (by norm_num), ← this]
  have n1 : (0 : ℚ) < n := by exact_mod_cast n0
  have : ((2 ^ 21 - 1 : ℤ) : ℚ) * 2 ^ (-21 : ℤ) < 1 := by norm_num
  rw [Int.cast_natCast]
  exact mul_lt_of_lt_one_left n1 this

end Tg.S.Sh
