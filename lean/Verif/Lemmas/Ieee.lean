import Verif.Lemmas.Fp
import Verif.Spec.Grid
import Verif.Lemmas.PlaneRing
import Verif.Props.Plane
/-! The arithmetic with doubles on fixed-point coordinates gives the answers of exact arithmetic. -/
set_option linter.unusedSectionVars false
namespace Tg.S

open Tg.Spec.Double Tg.Double

/-! ### Exact operations -/

/-- A multiple of `2 ^ j` by an integer up to `B`. -/
def Ex (B j : ℤ) (x : ℚ) : Prop := ∃ n : ℤ, |n| ≤ B ∧ x = n * 2 ^ j

theorem Ex.mono {B C j : ℤ} {x : ℚ} (h : Ex B j x) (hc : B ≤ C) : Ex C j x := by
  obtain ⟨n, h1, h2⟩ := h
  exact ⟨n, h1.trans hc, h2⟩

theorem Ex.sub {B C j : ℤ} {x y : ℚ} (hx : Ex B j x) (hy : Ex C j y) : Ex (B + C) j (x - y) := by
  obtain ⟨n, h1, rfl⟩ := hx
  obtain ⟨m, h2, rfl⟩ := hy
  exact ⟨n - m, (abs_sub n m).trans (add_le_add h1 h2), by push_cast; ring⟩

theorem Ex.add {B C j : ℤ} {x y : ℚ} (hx : Ex B j x) (hy : Ex C j y) : Ex (B + C) j (x + y) := by
  obtain ⟨n, h1, rfl⟩ := hx
  obtain ⟨m, h2, rfl⟩ := hy
  exact ⟨n + m, (abs_add_le n m).trans (add_le_add h1 h2), by push_cast; ring⟩

theorem Ex.mul {B C i j : ℤ} {x y : ℚ} (hx : Ex B i x) (hy : Ex C j y) : Ex (B * C) (i + j) (x * y) := by
  obtain ⟨n, h1, rfl⟩ := hx
  obtain ⟨m, h2, rfl⟩ := hy
  refine ⟨n * m, ?_, by rw [zpow_add₀ (by norm_num)]; push_cast; ring⟩
  rw [abs_mul]
  exact mul_le_mul h1 h2 (abs_nonneg _) ((abs_nonneg _).trans h1)

theorem Ex.abs_le {B j : ℤ} {x : ℚ} (h : Ex B j x) : |x| ≤ B * 2 ^ j := by
  obtain ⟨n, h1, rfl⟩ := h
  rw [abs_mul, abs_of_pos (zpow_pos (by norm_num : (0 : ℚ) < 2) j), ← Int.cast_abs]
  exact mul_le_mul_of_nonneg_right (by exact_mod_cast h1) (zpow_nonneg (by norm_num) _)

theorem Ex.le_abs {B j : ℤ} {x : ℚ} (h : Ex B j x) (h0 : x ≠ 0) : 2 ^ j ≤ |x| := by
  obtain ⟨n, h1, rfl⟩ := h
  have hn : n ≠ 0 := by rintro rfl; simp at h0
  have h2 : 1 ≤ |n| := Int.one_le_abs hn
  rw [abs_mul, abs_of_pos (zpow_pos (by norm_num : (0 : ℚ) < 2) j), ← Int.cast_abs]
  exact le_mul_of_one_le_left (zpow_nonneg (by norm_num) _) (by exact_mod_cast h2)

variable {F : Fp} (hF : F.Ok)
include hF

theorem Ex.fl {B j : ℤ} {x : ℚ} (h : Ex B j x) (hB : B ≤ 2 ^ 53) (h1 : -1074 ≤ j) (h2 : j ≤ 960) : F.fl x = x := by
  obtain ⟨n, h3, rfl⟩ := h
  exact F.fl_int hF (h3.trans hB) h1 h2

/-! ### The next double -/

omit hF in
/-- The step to the next double. -/
theorem step_le (b : ℕ) : (2 : ℚ) ^ (b / 2 ^ 52 - 1) / 2 ^ 1074 ≤ max ((U b / 2 ^ 1074 : ℚ) / 2 ^ 52) (1 / 2 ^ 1074) := by
  have hK := K_pos
  by_cases h : b / 2 ^ 52 ≤ 1
  · refine le_trans ?_ (le_max_right _ _)
    rw [show b / 2 ^ 52 - 1 = 0 by omega, pow_zero]
  · refine le_trans ?_ (le_max_left _ _)
    have : 2 ^ 52 * 2 ^ (b / 2 ^ 52 - 1) ≤ U b := by
      rw [U, if_neg (by omega)]
      exact Nat.mul_le_mul_right _ (by omega)
    have : (2 ^ 52 * 2 ^ (b / 2 ^ 52 - 1) : ℚ) ≤ U b := by exact_mod_cast this
    rw [div_div, mul_comm (2 ^ 1074 : ℚ), ← div_div]
    refine div_le_div_of_nonneg_right ?_ hK.le
    rw [le_div_iff₀ (by norm_num), mul_comm]
    exact this

omit hF in
theorem bitsUp_val {x : F64} (hf : IsFinite x) : val x < val (bitsUp x) ∧ val (bitsUp x) ≤ val x + max (|val x| / 2 ^ 52) (1 / 2 ^ 1074) := by
  have hK := K_pos
  have hx := x.isLt
  have habs : |val x| = U (mag x) / 2 ^ 1074 := by
    rw [val_mag, sg_abs, abs_of_nonneg (div_nonneg (Nat.cast_nonneg _) hK.le)]
  rw [habs]
  unfold bitsUp
  by_cases h0 : x.toNat % 2 ^ 63 = 0
  · rw [if_pos h0]
    have hm : mag x = 0 := h0
    have h1 : val (1#64) = 1 / 2 ^ 1074 := by
      rw [val_mag, show mag 1#64 = 1 from by decide +kernel, show neg 1#64 = false from by decide +kernel]
      have : U 1 = 1 := by rw [← Nat.zero_add 1, U_succ, U_zero]; norm_num
      rw [this, sg]
      simp
    rw [h1, val_mag, hm, U_zero, Nat.cast_zero, zero_div, mul_zero, zero_add]
    exact ⟨div_pos one_pos hK, le_max_right _ _⟩
  · rw [if_neg h0]
    by_cases hn : neg x = true
    · rw [if_pos hn]
      have hn' : 2 ^ 63 ≤ x.toNat := by simpa [neg] using hn
      have e : (x - 1#64).toNat = x.toNat - 1 := by
        rw [BitVec.toNat_sub, BitVec.toNat_ofNat]
        omega
      have e1 : mag (x - 1#64) = mag x - 1 := by
        simp only [mag, e]; omega
      have e2 : neg (x - 1#64) = true := by
        simp only [neg, e, decide_eq_true_eq]; omega
      have hm : 1 ≤ mag x := by simp only [mag]; omega
      have hU : U (mag x) = U (mag x - 1) + 2 ^ ((mag x - 1) / 2 ^ 52 - 1) := by
        rw [← U_succ, Nat.sub_add_cancel hm]
      have hs := step_le (mag x - 1)
      have hle : (U (mag x - 1) : ℚ) ≤ U (mag x) := U_cast_le (by omega)
      have hlt : (U (mag x - 1) : ℚ) < U (mag x) := U_cast_mono (by omega)
      have hU' : (U (mag x) : ℚ) = U (mag x - 1) + 2 ^ ((mag x - 1) / 2 ^ 52 - 1) := by rw [hU]; push_cast; rfl
      have hmax : max ((U (mag x - 1) / 2 ^ 1074 : ℚ) / 2 ^ 52) (1 / 2 ^ 1074) ≤ max ((U (mag x) / 2 ^ 1074 : ℚ) / 2 ^ 52) (1 / 2 ^ 1074) :=
        max_le_max_right _ (div_le_div_of_nonneg_right (div_le_div_of_nonneg_right hle hK.le) (by norm_num))
      have hs := hs.trans hmax
      rw [val_mag x, val_mag (x - 1#64), e1, e2, hn]
      simp only [sg, if_true]
      have hd : (U (mag x) / 2 ^ 1074 : ℚ) = U (mag x - 1) / 2 ^ 1074 + 2 ^ ((mag x - 1) / 2 ^ 52 - 1) / 2 ^ 1074 := by
        conv_lhs => rw [hU']
        rw [add_div]
      have hdlt := div_lt_div_of_pos_right hlt hK
      clear hU hU' hle hlt hmax
      generalize max ((U (mag x) / 2 ^ 1074 : ℚ) / 2 ^ 52) (1 / 2 ^ 1074) = M at *
      constructor
      · linarith only [hdlt]
      · linarith only [hd, hs]
    · rw [if_neg hn]
      have hn' : neg x = false := by simpa using hn
      have hlt : x.toNat < 2 ^ 63 := by simpa [neg] using hn
      have hov := (finite_mag x).1 hf
      rw [mag] at hov
      have e : (x + 1#64).toNat = x.toNat + 1 := by
        rw [BitVec.toNat_add, BitVec.toNat_ofNat]
        omega
      have e1 : mag (x + 1#64) = mag x + 1 := by
        simp only [mag, e]; omega
      have e2 : neg (x + 1#64) = false := by
        simp only [neg, e, decide_eq_false_iff_not]; omega
      have hs := step_le (mag x)
      have hU' : (U (mag x + 1) : ℚ) = U (mag x) + 2 ^ (mag x / 2 ^ 52 - 1) := by rw [U_succ]; push_cast; rfl
      have hd : (U (mag x + 1) / 2 ^ 1074 : ℚ) = U (mag x) / 2 ^ 1074 + 2 ^ (mag x / 2 ^ 52 - 1) / 2 ^ 1074 := by
        rw [hU', add_div]
      have hdlt := div_lt_div_of_pos_right (U_cast_mono (show mag x < mag x + 1 by omega)) hK
      rw [val_mag x, val_mag (x + 1#64), e1, e2, hn']
      simp only [sg, Bool.false_eq_true, if_false, one_mul]
      clear hU'
      generalize max ((U (mag x) / 2 ^ 1074 : ℚ) / 2 ^ 52) (1 / 2 ^ 1074) = M at *
      constructor
      · linarith only [hdlt]
      · linarith only [hd, hs]

/-! ### Grid -/

variable {k : ℤ} (h1 : -400 ≤ k) (h2 : k ≤ 400)
include h1 h2

omit hF h1 h2 in
theorem grid_ex {x : ℚ} (h : OnGrid k x) : Ex (2 ^ 24) k x := h

theorem grid_sub {x y : ℚ} (hx : OnGrid k x) (hy : OnGrid k y) : F.sub x y = x - y ∧ Ex (2 ^ 25) k (x - y) := by
  have e := (grid_ex hx).sub (grid_ex hy)
  exact ⟨e.fl hF (by norm_num) (by omega) (by omega), e.mono (by norm_num)⟩

theorem diff_mul {x y : ℚ} (hx : Ex (2 ^ 25) k x) (hy : Ex (2 ^ 25) k y) : F.mul x y = x * y ∧ Ex (2 ^ 50) (k + k) (x * y) := by
  have e := hx.mul hy
  exact ⟨e.fl hF (by norm_num) (by omega) (by omega), e.mono (by norm_num)⟩

theorem prod_sub {x y : ℚ} (hx : Ex (2 ^ 50) (k + k) x) (hy : Ex (2 ^ 50) (k + k) y) : F.sub x y = x - y ∧ Ex (2 ^ 51) (k + k) (x - y) := by
  have e := hx.sub hy
  exact ⟨e.fl hF (by norm_num) (by omega) (by omega), e.mono (by norm_num)⟩

/-- A product divided by a factor. -/
theorem prod_div {x y : ℚ} (hx : Ex (2 ^ 25) k x) (hy : y ≠ 0) : F.div (x * y) y = x := by
  rw [Fp.div, if_neg hy, mul_div_cancel_right₀ _ hy]
  exact hx.fl hF (by norm_num) (by omega) (by omega)

theorem cross0_grid (ε : ℚ) {a b p : Pt ℚ} (ha : GridPt k a) (hb : GridPt k b) (hp : GridPt k p) (hx : b.x ≠ a.x) (hy : b.y ≠ a.y) :
    F.cross0 a b p = exactCross0 ε a b p := by
  obtain ⟨c1, d1⟩ := grid_sub hF h1 h2 hp.1 ha.1
  obtain ⟨c2, d2⟩ := grid_sub hF h1 h2 hp.2 ha.2
  obtain ⟨c3, d3⟩ := grid_sub hF h1 h2 hb.1 ha.1
  obtain ⟨c4, d4⟩ := grid_sub hF h1 h2 hb.2 ha.2
  obtain ⟨c5, d5⟩ := diff_mul hF h1 h2 d1 d4
  obtain ⟨c6, d6⟩ := diff_mul hF h1 h2 d2 d3
  have n3 : b.x - a.x ≠ 0 := sub_ne_zero.2 hx
  have n4 : b.y - a.y ≠ 0 := sub_ne_zero.2 hy
  have hz : F.sub (p.x - a.x) (p.x - a.x) = 0 := by rw [Fp.sub, sub_self, F.fl_zero hF]
  have hz' : F.sub (p.y - a.y) (p.y - a.y) = 0 := by rw [Fp.sub, sub_self, F.fl_zero hF]
  simp only [Fp.cross0, exactCross0, c1, c2, c3, c4, c5, c6, prod_div hF h1 h2 d1 n4, prod_div hF h1 h2 d2 n3, hz, hz', mul_div_cancel_right₀ _ n4,
    mul_div_cancel_right₀ _ n3, sub_self, lt_irrefl, gt_iff_lt, if_false, (prod_sub hF h1 h2 d5 d6).1]

theorem collinear_grid (ε : ℚ) (ns : List (Pt ℚ) → Nat) {a b p : Pt ℚ} (ha : GridPt k a) (hb : GridPt k b) (hp : GridPt k p) :
    collinear F.arith a b p = collinear (exact ε ns) a b p := by
  unfold collinear
  by_cases hx : feq a.x b.x = true
  · rw [if_pos hx, if_pos hx]
  · rw [if_neg hx, if_neg hx]
    by_cases hy : feq a.y b.y = true
    · rw [if_pos hy, if_pos hy]
    · rw [if_neg hy, if_neg hy]
      rw [show F.arith.cross0 a b p = F.cross0 a b p from rfl, show (exact ε ns).cross0 a b p = exactCross0 ε a b p from rfl,
        cross0_grid hF h1 h2 ε ha hb hp (fun h => hx (by rw [h]; simp [feq])) (fun h => hy (by rw [h]; simp [feq]))]

/-- Quotients of grid differences that differ keep their order. -/
theorem quot_lt {x y u v : ℚ} (hx : Ex (2 ^ 25) k x) (hy : Ex (2 ^ 25) k y) (hu : Ex (2 ^ 25) k u) (hv : Ex (2 ^ 25) k v) (y0 : y ≠ 0) (v0 : v ≠ 0)
    (h : x / y < u / v) : F.div x y < F.div u v := by
  have key : ∀ {x y : ℚ}, Ex (2 ^ 25) k x → Ex (2 ^ 25) k y → y ≠ 0 → |x / y - F.fl (x / y)| ≤ |x / y| / 2 ^ 53 := by
    intro x y hx hy y0
    by_cases x0 : x = 0
    · rw [x0, zero_div, F.fl_zero hF]; simp
    have hw : (0 : ℚ) < 2 ^ k := zpow_pos (by norm_num) _
    have a1 := hx.abs_le
    have a2 := hx.le_abs x0
    have a3 := hy.abs_le
    have a4 := hy.le_abs y0
    have b1 : |x / y| ≤ 2 ^ 25 := by
      rw [abs_div, div_le_iff₀ (lt_of_lt_of_le hw a4)]
      push_cast at a1
      nlinarith
    have b2 : 1 / 2 ^ 25 ≤ |x / y| := by
      rw [abs_div, le_div_iff₀ (lt_of_lt_of_le hw a4)]
      push_cast at a3
      linarith
    refine F.fl_err hF (le_trans ?_ b2) (b1.trans ?_)
    · rw [show (1 / 2 ^ 25 : ℚ) = 2 ^ (-25 : ℤ) by norm_num]
      exact zpow_le_zpow_right₀ (by norm_num) (by norm_num)
    · rw [← zpow_natCast]
      exact zpow_le_zpow_right₀ (by norm_num) (by norm_num)
  have k1 := key hx hy y0
  have k2 := key hu hv v0
  rw [Fp.div, if_neg y0, Fp.div, if_neg v0]
  rw [abs_le] at k1 k2
  have gap : (|x / y| + |u / v|) / 2 ^ 53 < u / v - x / y := by
    obtain ⟨n, n1, rfl⟩ := hx
    obtain ⟨m, m1, rfl⟩ := hy
    obtain ⟨s, s1, rfl⟩ := hu
    obtain ⟨t, t1, rfl⟩ := hv
    have hw : (2 : ℚ) ^ k ≠ 0 := (zpow_pos (by norm_num) _).ne'
    have m0 : m ≠ 0 := by rintro rfl; simp at y0
    have t0 : t ≠ 0 := by rintro rfl; simp at v0
    rw [mul_div_mul_right _ _ hw, mul_div_mul_right _ _ hw] at h ⊢
    have hm : (0 : ℚ) < |(m : ℚ)| := abs_pos.2 (by exact_mod_cast m0)
    have ht : (0 : ℚ) < |(t : ℚ)| := abs_pos.2 (by exact_mod_cast t0)
    have e1 : (s / t - n / m : ℚ) = (s * m - n * t : ℤ) / (m * t : ℤ) := by
      have hm' : (m : ℚ) ≠ 0 := by exact_mod_cast m0
      have ht' : (t : ℚ) ≠ 0 := by exact_mod_cast t0
      push_cast
      field_simp
    have e2 : (s / t - n / m : ℚ) = |(s * m - n * t : ℤ)| / (|m| * |t| : ℤ) := by
      rw [← abs_of_pos (sub_pos.2 h), e1, abs_div]
      push_cast
      rw [abs_mul]
    have hz : s * m - n * t ≠ 0 := by
      intro hz
      rw [hz] at e1
      rw [Int.cast_zero, zero_div] at e1
      linarith
    have hz : (1 : ℚ) ≤ |(s * m - n * t : ℤ)| := by exact_mod_cast Int.one_le_abs hz
    rw [e2, abs_div, abs_div]
    push_cast at hz ⊢
    have n1' : |(n : ℚ)| ≤ 2 ^ 25 := by exact_mod_cast n1
    have m1' : |(m : ℚ)| ≤ 2 ^ 25 := by exact_mod_cast m1
    have s1' : |(s : ℚ)| ≤ 2 ^ 25 := by exact_mod_cast s1
    have t1' : |(t : ℚ)| ≤ 2 ^ 25 := by exact_mod_cast t1
    rw [lt_div_iff₀ (mul_pos hm ht)]
    refine lt_of_lt_of_le ?_ hz
    have : (|(n : ℚ)| / |(m : ℚ)| + |(s : ℚ)| / |(t : ℚ)|) / 2 ^ 53 * (|(m : ℚ)| * |(t : ℚ)|) = (|(n : ℚ)| * |(t : ℚ)| + |(s : ℚ)| * |(m : ℚ)|) / 2 ^ 53 := by
      field_simp
    rw [this, div_lt_one (by norm_num)]
    have p1 : |(n : ℚ)| * |(t : ℚ)| ≤ 2 ^ 25 * 2 ^ 25 := mul_le_mul n1' t1' ht.le (by norm_num)
    have p2 : |(s : ℚ)| * |(m : ℚ)| ≤ 2 ^ 25 * 2 ^ 25 := mul_le_mul s1' m1' hm.le (by norm_num)
    refine lt_of_le_of_lt (add_le_add p1 p2) (by norm_num)
  rw [add_div] at gap
  linarith [k1.1, k2.2]

/-- The comparison of slopes. -/
theorem slope_grid {a b p : Pt ℚ} (ha : GridPt k a) (hb : GridPt k b) (hp : GridPt k p) (hpx : p.x ≠ a.x) (hbx : b.x ≠ a.x)
    (hne : (p.y - a.y) / (p.x - a.x) ≠ (b.y - a.y) / (b.x - a.x)) : F.slopeGe p a b = exactSlopeGe p a b := by
  obtain ⟨c1, d1⟩ := grid_sub hF h1 h2 hp.1 ha.1
  obtain ⟨c2, d2⟩ := grid_sub hF h1 h2 hp.2 ha.2
  obtain ⟨c3, d3⟩ := grid_sub hF h1 h2 hb.1 ha.1
  obtain ⟨c4, d4⟩ := grid_sub hF h1 h2 hb.2 ha.2
  rw [Fp.slopeGe, exactSlopeGe, c1, c2, c3, c4, decide_eq_decide]
  rcases lt_or_gt_of_ne hne with h | h
  · have := quot_lt hF h1 h2 d2 d1 d4 d3 (sub_ne_zero.2 hpx) (sub_ne_zero.2 hbx) h
    exact iff_of_false (not_le.2 this) (not_le.2 h)
  · have := quot_lt hF h1 h2 d4 d3 d2 d1 (sub_ne_zero.2 hbx) (sub_ne_zero.2 hpx) h
    exact iff_of_true this.le h.le

/-- The step to the next double is small on the grid. -/
theorem up_grid {y : ℚ} (hy : OnGrid k y) : y < F.up y ∧ F.up y ≤ y + 2 ^ k / 2 ^ 28 := by
  have hfl : F.fl y = y := (grid_ex hy).fl hF (by norm_num) (by omega) (by omega)
  have hab := (grid_ex hy).abs_le
  have hw : (0 : ℚ) < 2 ^ k := zpow_pos (by norm_num) _
  have hr : InR y := by
    refine inR_of (hab.trans ?_)
    have : (2 : ℚ) ^ k ≤ 2 ^ (400 : ℤ) := zpow_le_zpow_right₀ (by norm_num) h2
    have e := two_split 400 620
    rw [show (400 : ℤ) + ((620 : ℕ) : ℤ) = ((1020 : ℕ) : ℤ) by norm_num, zpow_natCast] at e
    rw [e]
    refine mul_le_mul ?_ this hw.le (pow_nonneg (by norm_num) _)
    rw [Int.cast_pow, Int.cast_ofNat]
    exact pow_le_pow_right₀ one_le_two (by norm_num)
  have := bitsUp_val (hF _ hr).2.1
  rw [show val (F.rnd y) = y from hfl] at this
  refine ⟨this.1, this.2.trans (add_le_add le_rfl (max_le ?_ ?_))⟩
  · rw [div_le_div_iff₀ (by norm_num) (by norm_num)]
    push_cast at hab
    linarith
  · have : (2 : ℚ) ^ (-400 : ℤ) ≤ 2 ^ k := zpow_le_zpow_right₀ (by norm_num) h1
    refine le_trans ?_ (div_le_div_of_nonneg_right this (by norm_num))
    rw [div_le_div_iff₀ (pow_pos (by norm_num) _) (by norm_num), one_mul, ← zpow_natCast, ← zpow_natCast, ← zpow_add₀ (by norm_num)]
    exact zpow_le_zpow_right₀ (by norm_num) (by norm_num)

omit hF h1 h2 in
theorem inR_small {q : ℚ} (h : |q| ≤ 2 ^ 60) : InR q := inR_of (h.trans (pow_le_pow_right₀ (by norm_num) (by norm_num)))

/-- The quotient of a small number. -/
theorem small_div {d x : ℚ} (hd0 : 0 ≤ d) (hd : d ≤ 2 ^ k / 2 ^ 28) (hx : Ex (2 ^ 25) k x) (x0 : x ≠ 0) :
    |F.div d x| ≤ 1 / 2 ^ 28 := by
  have hw : (0 : ℚ) < 2 ^ k := zpow_pos (by norm_num) _
  have a4 := hx.le_abs x0
  have hq : |d / x| ≤ 1 / 2 ^ 28 := by
    rw [abs_div, abs_of_nonneg hd0, div_le_iff₀ (lt_of_lt_of_le hw a4)]
    linarith
  have e1 : F.fl (1 / 2 ^ 28) = 1 / 2 ^ 28 := by
    have := F.fl_int hF (n := 1) (j := -28) (by norm_num) (by norm_num) (by norm_num)
    rwa [show ((1 : ℤ) : ℚ) * 2 ^ (-28 : ℤ) = 1 / 2 ^ 28 by norm_num] at this
  have e2 : F.fl (-(1 / 2 ^ 28)) = -(1 / 2 ^ 28) := by
    have := F.fl_int hF (n := -1) (j := -28) (by norm_num) (by norm_num) (by norm_num)
    rwa [show ((-1 : ℤ) : ℚ) * 2 ^ (-28 : ℤ) = -(1 / 2 ^ 28) by norm_num] at this
  have r0 : InR (d / x) := inR_small (hq.trans (by norm_num))
  rw [abs_le] at hq
  rw [Fp.div, if_neg x0, abs_le]
  constructor
  · have := F.fl_mono hF (inR_small (by norm_num [abs_le])) r0 hq.1
    rwa [e2] at this
  · have := F.fl_mono hF r0 (inR_small (by norm_num [abs_le])) hq.2
    rwa [e1] at this

/-- The quotient of grid differences is not small. -/
theorem large_div {u v : ℚ} (hu : Ex (2 ^ 25) k u) (hv : Ex (2 ^ 25) k v) (u0 : 0 < u) (v0 : v ≠ 0) :
    (0 < v → 1 / 2 ^ 25 ≤ F.div u v) ∧ (v < 0 → F.div u v ≤ -(1 / 2 ^ 25)) := by
  have hw : (0 : ℚ) < 2 ^ k := zpow_pos (by norm_num) _
  have a1 := hu.abs_le
  have a2 := hu.le_abs u0.ne'
  have a3 := hv.abs_le
  have a4 := hv.le_abs v0
  rw [abs_of_pos u0] at a1 a2
  push_cast at a1 a3
  have hr : InR (u / v) := by
    refine inR_small ?_
    rw [abs_div, abs_of_pos u0, div_le_iff₀ (lt_of_lt_of_le hw a4)]
    nlinarith
  have e1 : F.fl (1 / 2 ^ 25) = 1 / 2 ^ 25 := by
    have := F.fl_int hF (n := 1) (j := -25) (by norm_num) (by norm_num) (by norm_num)
    rwa [show ((1 : ℤ) : ℚ) * 2 ^ (-25 : ℤ) = 1 / 2 ^ 25 by norm_num] at this
  have e2 : F.fl (-(1 / 2 ^ 25)) = -(1 / 2 ^ 25) := by
    have := F.fl_int hF (n := -1) (j := -25) (by norm_num) (by norm_num) (by norm_num)
    rwa [show ((-1 : ℤ) : ℚ) * 2 ^ (-25 : ℤ) = -(1 / 2 ^ 25) by norm_num] at this
  rw [Fp.div, if_neg v0]
  constructor
  · intro hv0
    rw [abs_of_pos hv0] at a3
    rw [← e1]
    refine F.fl_mono hF (inR_small (by norm_num [abs_le])) hr ?_
    rw [le_div_iff₀ hv0]
    linarith
  · intro hv0
    rw [abs_of_neg hv0] at a3
    rw [← e2]
    refine F.fl_mono hF hr (inR_small (by norm_num [abs_le])) ?_
    rw [div_le_iff_of_neg hv0]
    linarith

/-- At the height of the lower end. -/
theorem slope_low {a b : Pt ℚ} {px : ℚ} (ha : GridPt k a) (hb : GridPt k b) (hp : OnGrid k px) (hpx : px ≠ a.x) (hbx : b.x ≠ a.x) (hab : a.y < b.y) :
    F.slopeGe ⟨px, F.up a.y⟩ a b = decide (b.x < a.x) := by
  obtain ⟨c1, d1⟩ := grid_sub hF h1 h2 hp ha.1
  obtain ⟨c3, d3⟩ := grid_sub hF h1 h2 hb.1 ha.1
  obtain ⟨c4, d4⟩ := grid_sub hF h1 h2 hb.2 ha.2
  obtain ⟨g1, g2⟩ := up_grid hF h1 h2 ha.2
  have hw : (0 : ℚ) < 2 ^ k := zpow_pos (by norm_num) _
  have hwd : F.fl (2 ^ k / 2 ^ 28) = 2 ^ k / 2 ^ 28 := by
    have := F.fl_int hF (n := 1) (j := k - 28) (by norm_num) (by omega) (by omega)
    rw [Int.cast_one, one_mul, zpow_sub₀ (by norm_num)] at this
    exact_mod_cast this
  have hr : InR (2 ^ k / 2 ^ 28) := by
    refine inR_of ?_
    rw [abs_of_pos (div_pos hw (by norm_num))]
    have : (2 : ℚ) ^ k ≤ 2 ^ ((1020 : ℕ) : ℤ) := zpow_le_zpow_right₀ (by norm_num) (by push_cast; omega)
    rw [zpow_natCast] at this
    exact (div_le_self hw.le (by norm_num)).trans this
  have hr' : InR (F.up a.y - a.y) := by
    refine lt_of_le_of_lt ?_ hr
    rw [abs_of_pos (by linarith), abs_of_pos (div_pos hw (by norm_num))]
    linarith
  have s0 : 0 ≤ F.sub (F.up a.y) a.y := F.fl_nonneg hF hr' (by linarith)
  have s1 : F.sub (F.up a.y) a.y ≤ 2 ^ k / 2 ^ 28 := by
    rw [← hwd]
    exact F.fl_mono hF hr' hr (by linarith)
  have k1 := abs_le.1 (small_div hF h1 h2 s0 s1 d1 (sub_ne_zero.2 hpx))
  have k2 := large_div hF h1 h2 d4 d3 (sub_pos.2 hab) (sub_ne_zero.2 hbx)
  rw [Fp.slopeGe, decide_eq_decide]
  dsimp only
  rw [c1, c3, c4]
  rcases lt_or_gt_of_ne hbx with h | h
  · have := k2.2 (sub_neg.2 h)
    refine iff_of_true ?_ h
    have : (-(1 / 2 ^ 25) : ℚ) ≤ -(1 / 2 ^ 28) := by norm_num
    linarith [k1.1]
  · have := k2.1 (sub_pos.2 h)
    refine iff_of_false (not_le.2 ?_) (not_lt.2 h.le)
    have : (1 / 2 ^ 28 : ℚ) < 1 / 2 ^ 25 := by norm_num
    linarith [k1.2]

/-- Small enough a step for all of the grid. -/
theorem small_grid {ε : ℚ} (he : ε ≤ 2 ^ k / 2 ^ 28) {s : Seg ℚ} {p : Pt ℚ} (hs : GridSeg k s) (hp : GridPt k p) : Small ε s p := by
  have hw : (0 : ℚ) < 2 ^ k := zpow_pos (by norm_num) _
  intro a b hab hlt
  obtain ⟨ha, hb⟩ : GridPt k a ∧ GridPt k b := by
    rcases hab with ⟨rfl, rfl⟩ | ⟨rfl, rfl⟩
    · exact hs
    · exact hs.symm
  have d1 := (grid_sub hF h1 h2 hp.1 ha.1).2
  have d3 := (grid_sub hF h1 h2 hb.1 ha.1).2
  have d4 := (grid_sub hF h1 h2 hb.2 ha.2).2
  have a4 := d4.le_abs (sub_pos.2 hlt).ne'
  rw [abs_of_pos (sub_pos.2 hlt)] at a4
  refine ⟨by linarith, fun hx => ?_⟩
  have a1 := d1.le_abs (sub_ne_zero.2 hx)
  have a3 := d3.abs_le
  push_cast at a3
  have hm : (2 : ℚ) ^ k * 2 ^ k ≤ (b.y - a.y) * |p.x - a.x| := mul_le_mul a4 a1 hw.le (sub_pos.2 hlt).le
  refine lt_of_lt_of_le ?_ hm
  calc ε * |b.x - a.x| ≤ 2 ^ k / 2 ^ 28 * (2 ^ 25 * 2 ^ k) := mul_le_mul he a3 (abs_nonneg _) (div_pos hw (by norm_num)).le
    _ = 2 ^ k * 2 ^ k / 2 ^ 3 := by ring
    _ < 2 ^ k * 2 ^ k := div_lt_self (mul_pos hw hw) (by norm_num)

theorem tail_grid {ε : ℚ} (e0 : 0 < ε) (he : ε ≤ 2 ^ k / 2 ^ 28) (ns : List (Pt ℚ) → Nat) {a b p : Pt ℚ} (ha : GridPt k a) (hb : GridPt k b)
    (hp : GridPt k p) (hab : a.y ≤ b.y) (hpa : p ≠ a) (hc : (p.x - a.x) * (b.y - a.y) ≠ (p.y - a.y) * (b.x - a.x)) (hy1 : a.y ≤ p.y) (hy2 : p.y ≤ b.y) :
    raycastTail F.arith a b p = raycastTail (exact ε ns) a b p := by
  have hw : (0 : ℚ) < 2 ^ k := zpow_pos (by norm_num) _
  rcases eq_or_lt_of_le hy2 with e2 | l2
  · -- at the upper end
    have g := (up_grid hF h1 h2 hb.2).1
    unfold raycastTail
    dsimp only
    have hcond : p.y = a.y ∨ p.y = b.y := .inr e2
    rw [if_pos hcond, if_pos hcond]
    rw [show F.arith.next p.y = F.up p.y from rfl, show (exact ε ns).next p.y = p.y + ε from rfl]
    dsimp only
    rw [if_pos (.inr (by rw [e2]; exact g)), if_pos (.inr (by rw [e2]; linarith))]
  rcases eq_or_lt_of_le hy1 with e1 | l1
  · -- at the lower end
    have hlt : a.y < b.y := e1 ▸ l2
    obtain ⟨g1, g2⟩ := up_grid hF h1 h2 ha.2
    have d4 := (grid_sub hF h1 h2 hb.2 ha.2).2.le_abs (sub_pos.2 hlt).ne'
    rw [abs_of_pos (sub_pos.2 hlt)] at d4
    have hpx : p.x ≠ a.x := fun h => hpa (Pt.ext h e1.symm)
    have hw28 : (2 : ℚ) ^ k / 2 ^ 28 ≤ 2 ^ k := div_le_self hw.le (by norm_num)
    obtain ⟨s1, s2⟩ := small_grid hF h1 h2 he (s := ⟨a, b⟩) ⟨ha, hb⟩ hp a b (.inl ⟨rfl, rfl⟩) hlt
    have s2 := s2 hpx
    unfold raycastTail
    dsimp only
    have hcond : p.y = a.y ∨ p.y = b.y := .inl e1.symm
    rw [if_pos hcond, if_pos hcond]
    rw [show F.arith.next p.y = F.up p.y from rfl, show (exact ε ns).next p.y = p.y + ε from rfl]
    dsimp only
    rw [if_neg (show ¬ (F.up p.y < a.y ∨ F.up p.y > b.y) by
        rw [← e1, not_or, not_lt, gt_iff_lt, not_lt]; exact ⟨g1.le, by linarith⟩),
      if_neg (show ¬ (p.y + ε < a.y ∨ p.y + ε > b.y) by
        rw [← e1, not_or, not_lt, gt_iff_lt, not_lt]; exact ⟨by linarith, by linarith⟩)]
    rw [show F.arith.slopeGe ⟨p.x, F.up p.y⟩ a b = F.slopeGe ⟨p.x, F.up p.y⟩ a b from rfl,
      show (exact ε ns).slopeGe ⟨p.x, p.y + ε⟩ a b = decide ((p.y + ε - a.y) / (p.x - a.x) ≥ (b.y - a.y) / (b.x - a.x)) from rfl, ← e1, add_sub_cancel_left]
    by_cases hx2 : a.x > b.x
    · rw [if_pos hx2, if_pos hx2]
      by_cases c1 : p.x ≥ a.x
      · rw [if_pos c1, if_pos c1]
      rw [if_neg c1, if_neg c1]
      by_cases c2 : p.x ≤ b.x
      · rw [if_pos c2, if_pos c2]
      rw [if_neg c2, if_neg c2, slope_low hF h1 h2 ha hb hp.1 hpx hx2.ne hlt]
      have : ε / (p.x - a.x) ≥ (b.y - a.y) / (b.x - a.x) := by
        rw [ge_iff_le, div_le_div_neg (by linarith) (by linarith)]
        rw [abs_of_neg (by linarith), abs_of_neg (by linarith)] at s2
        nlinarith
      rw [decide_eq_true this, decide_eq_true hx2]
    · rw [if_neg hx2, if_neg hx2]
      by_cases c1 : p.x ≥ b.x
      · rw [if_pos c1, if_pos c1]
      rw [if_neg c1, if_neg c1]
      by_cases c2 : p.x ≤ a.x
      · rw [if_pos c2, if_pos c2]
      rw [if_neg c2, if_neg c2]
      rw [not_le] at c2
      rw [ge_iff_le, not_le] at c1
      rw [slope_low hF h1 h2 ha hb hp.1 hpx (by linarith : a.x < b.x).ne' hlt]
      have : ¬ (ε / (p.x - a.x) ≥ (b.y - a.y) / (b.x - a.x)) := by
        rw [ge_iff_le, div_le_div_iff₀ (by linarith) (by linarith), not_le]
        rw [abs_of_pos (by linarith), abs_of_pos (by linarith)] at s2
        nlinarith
      rw [decide_eq_false this, decide_eq_false hx2]
  · -- between
    unfold raycastTail
    dsimp only
    have hcond : ¬ (p.y = a.y ∨ p.y = b.y) := by
      rw [not_or]; exact ⟨l1.ne', l2.ne⟩
    rw [if_neg hcond, if_neg hcond]
    have hslope : p.x ≠ a.x → b.x ≠ a.x → F.arith.slopeGe p a b = (exact ε ns).slopeGe p a b := by
      intro k1 k2
      refine slope_grid hF h1 h2 ha hb hp k1 k2 fun h => hc ?_
      rw [div_eq_div_iff (sub_ne_zero.2 k1) (sub_ne_zero.2 k2)] at h
      linarith
    by_cases hx2 : a.x > b.x
    · rw [if_pos hx2, if_pos hx2]
      by_cases c1 : p.x ≥ a.x
      · rw [if_pos c1, if_pos c1]
      rw [if_neg c1, if_neg c1, hslope (fun h => c1 h.ge) hx2.ne]
    · rw [if_neg hx2, if_neg hx2]
      by_cases c1 : p.x ≥ b.x
      · rw [if_pos c1, if_pos c1]
      rw [if_neg c1, if_neg c1]
      by_cases c2 : p.x ≤ a.x
      · rw [if_pos c2, if_pos c2]
      rw [if_neg c2, if_neg c2]
      rw [not_le] at c2
      rw [ge_iff_le, not_le] at c1
      rw [hslope c2.ne' (by linarith : a.x < b.x).ne']

theorem mid_grid {ε : ℚ} (e0 : 0 < ε) (he : ε ≤ 2 ^ k / 2 ^ 28) (ns : List (Pt ℚ) → Nat) (r : Rect ℚ) {a b p : Pt ℚ} (ha : GridPt k a) (hb : GridPt k b)
    (hp : GridPt k p) (hab : a.y ≤ b.y) (hy1 : a.y ≤ p.y) (hy2 : p.y ≤ b.y) : raycastMid F.arith r a b p = raycastMid (exact ε ns) r a b p := by
  unfold raycastMid
  by_cases c1 : (pteq p a || pteq p b) = true
  · rw [if_pos c1, if_pos c1]
  rw [if_neg c1, if_neg c1]
  by_cases c2 : a.y = b.y ∧ a.x = b.x
  · rw [if_pos c2, if_pos c2]
  rw [if_neg c2, if_neg c2]
  by_cases c3 : a.y = b.y ∧ p.y = b.y ∧ ¬ (p.x < r.lo.x ∨ p.x > r.hi.x)
  · rw [if_pos c3, if_pos c3]
  rw [if_neg c3, if_neg c3]
  by_cases c4 : a.x = b.x ∧ p.x = b.x ∧ p.y ≥ a.y ∧ p.y ≤ b.y
  · rw [if_pos c4, if_pos c4]
  rw [if_neg c4, if_neg c4, collinear_grid hF h1 h2 ε ns ha hb hp]
  by_cases c5 : collinear (exact ε ns) a b p = true
  · rw [if_pos c5, if_pos c5]
  rw [if_neg c5, if_neg c5]
  have hne : a ≠ b := by rintro rfl; exact c2 ⟨rfl, rfl⟩
  refine tail_grid hF h1 h2 e0 he ns ha hb hp hab ?_ ?_ hy1 hy2
  · rintro rfl
    exact c1 (by simp [pteq, feq])
  · intro h
    exact c5 ((exactCollinear_iff (ε := ε) hne).2 h)

theorem ray_grid {ε : ℚ} (e0 : 0 < ε) (he : ε ≤ 2 ^ k / 2 ^ 28) (ns : List (Pt ℚ) → Nat) {s : Seg ℚ} {p : Pt ℚ} (hs : GridSeg k s) (hp : GridPt k p) :
    raycast F.arith s p = raycast (exact ε ns) s p := by
  unfold raycast
  dsimp only
  by_cases c1 : p.y < s.rect.lo.y ∨ p.y > s.rect.hi.y
  · rw [if_pos c1, if_pos c1]
  rw [if_neg c1, if_neg c1]
  rw [not_or, not_lt, gt_iff_lt, not_lt] at c1
  have m1 : min s.a.y s.b.y ≤ p.y := c1.1
  have m2 : p.y ≤ max s.a.y s.b.y := c1.2
  by_cases c4 : s.b.y < s.a.y
  · rw [if_pos c4, if_pos c4, mid_grid hF h1 h2 e0 he ns s.rect hs.2 hs.1 hp c4.le (by rwa [min_eq_right c4.le] at m1) (by rwa [max_eq_left c4.le] at m2)]
  · rw [if_neg c4, if_neg c4, mid_grid hF h1 h2 e0 he ns s.rect hs.1 hs.2 hp (not_lt.1 c4) (by rwa [min_eq_left (not_lt.1 c4)] at m1)
      (by rwa [max_eq_right (not_lt.1 c4)] at m2)]

/-! ### Segments -/

theorem onSeg_grid (ε : ℚ) {s : Seg ℚ} {p : Pt ℚ} (hs : GridSeg k s) (hp : GridPt k p) : F.onSeg p s = exactOnSeg ε p s := by
  unfold Fp.onSeg exactOnSeg
  rw [show F.collinear s.a s.b p = collinear F.arith s.a s.b p from rfl, show exactCollinear ε s.a s.b p = collinear (exact ε fun _ => 0) s.a s.b p from rfl,
    collinear_grid hF h1 h2 ε _ hs.1 hs.2 hp]

/-- The position of the crossing: `t` and `u` of the code. -/
theorem param_grid {c m : ℚ} (hc : Ex (2 ^ 51) (k + k) c) (hm : Ex (2 ^ 51) (k + k) m) (m0 : m ≠ 0) :
    (F.mul c (F.div 1 m) ≥ 0 ↔ c * (1 / m) ≥ 0) ∧ (F.mul c (F.div 1 m) ≤ 1 ↔ c * (1 / m) ≤ 1) := by
  have hw : (0 : ℚ) < 2 ^ (k + k) := zpow_pos (by norm_num) _
  have a1 := hc.abs_le
  have a3 := hm.abs_le
  have a4 := hm.le_abs m0
  push_cast at a1 a3
  have hmp : 0 < |m| := lt_of_lt_of_le hw a4
  have herr : |1 / m - F.fl (1 / m)| ≤ |1 / m| / 2 ^ 53 := by
    have b1 : |1 / m| ≤ 2 ^ (-(k + k)) := by
      rw [abs_div, abs_one, zpow_neg, ← one_div]
      exact one_div_le_one_div_of_le hw a4
    have b2 : 2 ^ (-(k + k)) / 2 ^ 51 ≤ |1 / m| := by
      rw [abs_div, abs_one, zpow_neg, ← one_div, div_div, mul_comm]
      exact one_div_le_one_div_of_le hmp a3
    refine F.fl_err hF (le_trans ?_ b2) (b1.trans (zpow_le_zpow_right₀ (by norm_num) (by omega)))
    have : (2 : ℚ) ^ (-(k + k)) / 2 ^ 51 = 2 ^ (-(k + k) - 51) := by
      rw [zpow_sub₀ (by norm_num)]
      norm_cast
    rw [this]
    exact zpow_le_zpow_right₀ (by norm_num) (by omega)
  rw [Fp.div, if_neg m0, Fp.mul]
  set r := F.fl (1 / m)
  have hprod : |c * (1 / m) - c * r| ≤ |c * (1 / m)| / 2 ^ 53 := by
    rw [← mul_sub, abs_mul, abs_mul, mul_div_assoc]
    exact mul_le_mul_of_nonneg_left herr (abs_nonneg _)
  have hrho : |c * (1 / m)| ≤ 2 ^ 51 := by
    rw [abs_mul, abs_div, abs_one, mul_one_div, div_le_iff₀ hmp]
    nlinarith
  have hgap : c * (1 / m) < 0 → c * (1 / m) ≤ -(1 / 2 ^ 51) := by
    intro h
    have c0 : c ≠ 0 := by rintro rfl; simp at h
    have a2 := hc.le_abs c0
    have : 1 / 2 ^ 51 ≤ |c * (1 / m)| := by
      rw [abs_mul, abs_div, abs_one, mul_one_div, le_div_iff₀ hmp]
      linarith
    rw [abs_of_neg h] at this
    linarith
  have hgap1 : 1 < c * (1 / m) → 1 + 1 / 2 ^ 51 ≤ c * (1 / m) := by
    intro h
    have h' : |c * (1 / m)| = c * (1 / m) := abs_of_pos (by linarith)
    obtain ⟨n, n1, rfl⟩ := hc
    obtain ⟨d, d1, rfl⟩ := hm
    have hd : (0 : ℚ) < |(d : ℚ)| := abs_pos.2 fun h => m0 (by rw [h]; simp)
    have e : |(n : ℚ) * 2 ^ (k + k) * (1 / (d * 2 ^ (k + k)))| = |(n : ℚ)| / |(d : ℚ)| := by
      rw [← abs_div]
      congr 1
      field_simp
    rw [← h', e] at h ⊢
    rw [lt_div_iff₀ hd, one_mul] at h
    have h3 : |d| < |n| := by exact_mod_cast h
    have h4 : |(d : ℚ)| + 1 ≤ |(n : ℚ)| := by exact_mod_cast h3
    have h5 : |(d : ℚ)| ≤ 2 ^ 51 := by exact_mod_cast d1
    rw [le_div_iff₀ hd]
    linarith
  have hrc : |c * r| ≤ 2 ^ 60 := by
    have := abs_sub_abs_le_abs_sub (c * r) (c * (1 / m))
    rw [abs_sub_comm] at this
    have : |c * (1 / m)| / 2 ^ 53 ≤ 2 ^ 51 / 2 ^ 53 := div_le_div_of_nonneg_right hrho (by norm_num)
    have : (2 ^ 51 + 2 ^ 51 / 2 ^ 53 : ℚ) ≤ 2 ^ 60 := by norm_num
    linarith
  have hin : InR (c * r) := inR_small hrc
  have hab := abs_le.1 hprod
  constructor
  · constructor
    · intro h
      by_contra hn
      have hn := hgap (not_le.1 hn)
      rw [abs_of_nonpos (by linarith [show (0 : ℚ) < 1 / 2 ^ 51 by norm_num])] at hab
      have hle : c * r ≤ -(1 / 2 ^ 52) := by
        have := hab.1
        have : (1 : ℚ) / 2 ^ 51 * (1 - 1 / 2 ^ 53) ≥ 1 / 2 ^ 52 := by norm_num
        have : c * r ≤ c * (1 / m) * (1 - 1 / 2 ^ 53) := by linarith
        nlinarith
      have e : F.fl (-(1 / 2 ^ 52)) = -(1 / 2 ^ 52) := by
        have := F.fl_int hF (n := -1) (j := -52) (by norm_num) (by norm_num) (by norm_num)
        rwa [show ((-1 : ℤ) : ℚ) * 2 ^ (-52 : ℤ) = -(1 / 2 ^ 52) by norm_num] at this
      have := F.fl_mono hF hin (inR_small (by norm_num [abs_le])) hle
      rw [e] at this
      have : (0 : ℚ) < 1 / 2 ^ 52 := by norm_num
      linarith
    · intro h
      rw [abs_of_nonneg h] at hab
      refine F.fl_nonneg hF hin ?_
      have : c * (1 / m) / 2 ^ 53 ≤ c * (1 / m) := div_le_self h (by norm_num)
      linarith [hab.2]
  · constructor
    · intro h
      by_contra hn
      have hn := hgap1 (not_le.1 hn)
      rw [abs_of_nonneg (by linarith [show (0 : ℚ) < 1 / 2 ^ 51 by norm_num])] at hab
      have hle : 1 + 1 / 2 ^ 52 ≤ c * r := by
        have := hab.2
        have : (1 + 1 / 2 ^ 51 : ℚ) * (1 - 1 / 2 ^ 53) ≥ 1 + 1 / 2 ^ 52 := by norm_num
        have : c * (1 / m) * (1 - 1 / 2 ^ 53) ≤ c * r := by linarith
        nlinarith
      have e : F.fl (1 + 1 / 2 ^ 52) = 1 + 1 / 2 ^ 52 := by
        have := F.fl_int hF (n := 2 ^ 52 + 1) (j := -52) (by norm_num) (by norm_num) (by norm_num)
        rwa [show ((2 ^ 52 + 1 : ℤ) : ℚ) * 2 ^ (-52 : ℤ) = 1 + 1 / 2 ^ 52 by norm_num] at this
      have := F.fl_mono hF (inR_small (by norm_num [abs_le])) hin hle
      rw [e] at this
      have : (0 : ℚ) < 1 / 2 ^ 52 := by norm_num
      linarith
    · intro h
      rcases le_or_gt 0 (c * (1 / m)) with h0 | h0
      · rw [abs_of_nonneg h0] at hab
        rw [← F.fl_tie hF]
        refine F.fl_mono hF hin (inR_small (by norm_num [abs_le])) ?_
        have : c * (1 / m) / 2 ^ 53 ≤ 1 / 2 ^ 53 := div_le_div_of_nonneg_right h (by norm_num)
        linarith [hab.1]
      · rw [abs_of_neg h0] at hab
        refine (F.fl_nonpos hF hin ?_).trans zero_le_one
        have : -(c * (1 / m)) / 2 ^ 53 ≤ -(c * (1 / m)) := div_le_self (by linarith) (by norm_num)
        linarith [hab.1]

theorem segX_grid (ε : ℚ) {s t : Seg ℚ} (hs : GridSeg k s) (ht : GridSeg k t) : F.segX s t = exactSegX ε s t := by
  obtain ⟨⟨sax, say⟩, ⟨sbx, sby⟩⟩ := hs
  obtain ⟨⟨tax, tay⟩, ⟨tbx, tby⟩⟩ := ht
  obtain ⟨c1, d1⟩ := grid_sub hF h1 h2 tax sax
  obtain ⟨c2, d2⟩ := grid_sub hF h1 h2 tay say
  obtain ⟨c3, d3⟩ := grid_sub hF h1 h2 sbx sax
  obtain ⟨c4, d4⟩ := grid_sub hF h1 h2 sby say
  obtain ⟨c5, d5⟩ := grid_sub hF h1 h2 tbx tax
  obtain ⟨c6, d6⟩ := grid_sub hF h1 h2 tby tay
  obtain ⟨c7, -⟩ := grid_sub hF h1 h2 tax sbx
  obtain ⟨c8, -⟩ := grid_sub hF h1 h2 tay sby
  obtain ⟨m1, n1⟩ := diff_mul hF h1 h2 d1 d4
  obtain ⟨m2, n2⟩ := diff_mul hF h1 h2 d2 d3
  obtain ⟨m3, n3⟩ := diff_mul hF h1 h2 d3 d6
  obtain ⟨m4, n4⟩ := diff_mul hF h1 h2 d4 d5
  obtain ⟨m5, n5⟩ := diff_mul hF h1 h2 d1 d6
  obtain ⟨m6, n6⟩ := diff_mul hF h1 h2 d2 d5
  obtain ⟨p1, q1⟩ := prod_sub hF h1 h2 n1 n2
  obtain ⟨p2, q2⟩ := prod_sub hF h1 h2 n3 n4
  obtain ⟨p3, q3⟩ := prod_sub hF h1 h2 n5 n6
  unfold Fp.segX exactSegX
  dsimp only
  rw [c1, c2, c3, c4, c5, c6, c7, c8, m1, m2, m3, m4, m5, m6, p1, p2, p3]
  rw [onSeg_grid hF h1 h2 ε ⟨⟨sax, say⟩, ⟨sbx, sby⟩⟩ ⟨tax, tay⟩, onSeg_grid hF h1 h2 ε ⟨⟨sax, say⟩, ⟨sbx, sby⟩⟩ ⟨tbx, tby⟩,
    onSeg_grid hF h1 h2 ε ⟨⟨tax, tay⟩, ⟨tbx, tby⟩⟩ ⟨sax, say⟩, onSeg_grid hF h1 h2 ε ⟨⟨tax, tay⟩, ⟨tbx, tby⟩⟩ ⟨sbx, sby⟩]
  by_cases e1 : feq ((t.a.x - s.a.x) * (s.b.y - s.a.y) - (t.a.y - s.a.y) * (s.b.x - s.a.x)) 0 = true
  · rw [if_pos e1, if_pos e1]
  rw [if_neg e1, if_neg e1]
  by_cases e2 : feq ((s.b.x - s.a.x) * (t.b.y - t.a.y) - (s.b.y - s.a.y) * (t.b.x - t.a.x)) 0 = true
  · rw [if_pos e2, if_pos e2]
  rw [if_neg e2, if_neg e2]
  have hne : (s.b.x - s.a.x) * (t.b.y - t.a.y) - (s.b.y - s.a.y) * (t.b.x - t.a.x) ≠ 0 := fun h => e2 (by rw [h]; simp [feq])
  obtain ⟨u1, u2⟩ := param_grid hF h1 h2 q3 q2 hne
  obtain ⟨u3, u4⟩ := param_grid hF h1 h2 q1 q2 hne
  rw [decide_eq_decide.2 u1, decide_eq_decide.2 u2, decide_eq_decide.2 u3, decide_eq_decide.2 u4]

end Tg.S
