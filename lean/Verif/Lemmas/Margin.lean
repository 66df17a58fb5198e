import Verif.Spec.Margin
import Verif.Lemmas.FpNear
import Verif.Lemmas.Ieee
import Verif.Lemmas.PlaneRing
/-! Rounding errors of the predicates on segments for coordinates that are any doubles of usual size. -/
set_option linter.unusedSectionVars false
namespace Tg.S

open Tg.Spec.Double Tg.Double

/-- `x'` is `x` but for a relative error of `k`. -/
def Ap (k x' x : ℚ) : Prop := ∃ δ : ℚ, |δ| ≤ k ∧ x' = x * (1 + δ)

theorem Ap.abs_sub {k x' x : ℚ} (h : Ap k x' x) : |x' - x| ≤ k * |x| := by
  obtain ⟨δ, h1, rfl⟩ := h
  rw [show x * (1 + δ) - x = δ * x by ring, abs_mul]
  exact mul_le_mul_of_nonneg_right h1 (abs_nonneg _)

theorem ap_of {k x' x : ℚ} (h : |x' - x| ≤ k * |x|) (k0 : 0 ≤ k) : Ap k x' x := by
  by_cases hx : x = 0
  · rw [hx, abs_zero, mul_zero, sub_zero, abs_nonpos_iff] at h
    exact ⟨0, by rwa [abs_zero], by rw [h, hx, zero_mul]⟩
  · refine ⟨(x' - x) / x, ?_, by field_simp; ring⟩
    rw [abs_div, div_le_iff₀ (abs_pos.2 hx)]
    exact h

theorem Ap.abs_le {k x' x : ℚ} (h : Ap k x' x) : |x'| ≤ (1 + k) * |x| := by
  obtain ⟨δ, h1, rfl⟩ := h
  rw [abs_mul, mul_comm]
  refine mul_le_mul_of_nonneg_right ?_ (abs_nonneg _)
  refine (abs_add_le _ _).trans ?_
  rw [abs_one]
  linarith

theorem Ap.le_abs {k x' x : ℚ} (h : Ap k x' x) : (1 - k) * |x| ≤ |x'| := by
  have h1 := h.abs_sub
  have h2 := abs_sub_abs_le_abs_sub x x'
  rw [abs_sub_comm] at h2
  linarith

theorem Ap.mono {k l x' x : ℚ} (h : Ap k x' x) (hl : k ≤ l) : Ap l x' x := by
  obtain ⟨δ, h1, h2⟩ := h
  exact ⟨δ, h1.trans hl, h2⟩

theorem Ap.mul {k l m x' x y' y : ℚ} (hx : Ap k x' x) (hy : Ap l y' y) (hm : k + l + k * l ≤ m) : Ap m (x' * y') (x * y) := by
  obtain ⟨δ, h1, rfl⟩ := hx
  obtain ⟨γ, h2, rfl⟩ := hy
  refine ⟨δ + γ + δ * γ, ?_, by ring⟩
  refine (abs_add_le _ _).trans (le_trans ?_ hm)
  rw [abs_mul]
  have := abs_add_le δ γ
  have := mul_le_mul h1 h2 (abs_nonneg _) ((abs_nonneg _).trans h1)
  linarith

theorem Ap.inv {k m x' x : ℚ} (hx : Ap k x' x) (hk : k < 1) (hm : k ≤ m * (1 - k)) : Ap m x'⁻¹ x⁻¹ := by
  obtain ⟨δ, h1, rfl⟩ := hx
  have h2 := _root_.abs_le.1 h1
  have hp : 0 < 1 + δ := by linarith
  refine ⟨-δ / (1 + δ), ?_, ?_⟩
  · rw [abs_div, abs_neg, abs_of_pos hp, div_le_iff₀ hp]
    have m0 : 0 ≤ m := by
      by_contra hc
      have := mul_neg_of_neg_of_pos (not_le.1 hc) (by linarith : 0 < 1 - k)
      linarith [abs_nonneg δ]
    refine h1.trans (hm.trans (mul_le_mul_of_nonneg_left (by linarith) m0))
  · rw [mul_inv]
    congr 1
    field_simp
    ring

theorem Ap.trans {k l m z y x : ℚ} (hz : Ap k z y) (hy : Ap l y x) (hm : k + l + k * l ≤ m) : Ap m z x := by
  obtain ⟨δ, h1, rfl⟩ := hz
  obtain ⟨γ, h2, rfl⟩ := hy
  refine ⟨δ + γ + δ * γ, ?_, by ring⟩
  refine (abs_add_le _ _).trans (le_trans ?_ hm)
  rw [abs_mul]
  have := abs_add_le δ γ
  have := mul_le_mul h1 h2 (abs_nonneg _) ((abs_nonneg _).trans h1)
  linarith

/-- Between `2 ^ -e` and `2 ^ e` in absolute value. -/
def Mid (e : ℤ) (q : ℚ) : Prop := 2 ^ (-e) ≤ |q| ∧ |q| ≤ 2 ^ e

theorem Mid.ne {e : ℤ} {q : ℚ} (h : Mid e q) : q ≠ 0 := by
  rintro rfl
  have := h.1
  rw [abs_zero] at this
  exact absurd (zpow_pos (by norm_num : (0 : ℚ) < 2) (-e)) (not_lt.2 this)

theorem Mid.mono {e f : ℤ} {q : ℚ} (h : Mid e q) (hf : e ≤ f) : Mid f q :=
  ⟨(zpow_le_zpow_right₀ (by norm_num) (by omega)).trans h.1, h.2.trans (zpow_le_zpow_right₀ (by norm_num) hf)⟩

theorem Mid.mul {e f : ℤ} {x y : ℚ} (hx : Mid e x) (hy : Mid f y) : Mid (e + f) (x * y) := by
  have p1 : (0 : ℚ) < 2 ^ (-f) := zpow_pos (by norm_num) _
  have p2 : (0 : ℚ) < 2 ^ e := zpow_pos (by norm_num) _
  unfold Mid
  rw [abs_mul, neg_add, zpow_add₀ (by norm_num), zpow_add₀ (by norm_num)]
  exact ⟨mul_le_mul hx.1 hy.1 p1.le (abs_nonneg _), mul_le_mul hx.2 hy.2 (abs_nonneg _) p2.le⟩

theorem Mid.inv {e : ℤ} {x : ℚ} (hx : Mid e x) : Mid e x⁻¹ := by
  have p1 : (0 : ℚ) < 2 ^ (-e) := zpow_pos (by norm_num) _
  unfold Mid
  rw [abs_inv]
  refine ⟨?_, ?_⟩
  · rw [zpow_neg]
    exact inv_anti₀ (abs_pos.2 hx.ne) hx.2
  · rw [← inv_inv ((2 : ℚ) ^ e), ← zpow_neg]
    exact inv_anti₀ p1 hx.1

theorem Mid.ap {e : ℤ} {k x' x : ℚ} (hx : Mid e x) (h : Ap k x' x) (hk : k ≤ 1 / 2) : Mid (e + 1) x' := by
  have h1 := h.abs_le
  have h2 := h.le_abs
  have ha := abs_nonneg x
  have e1 : (2 : ℚ) ^ (e + 1) = 2 * 2 ^ e := by rw [zpow_add₀ (by norm_num), zpow_one, mul_comm]
  have e2 : (2 : ℚ) ^ (-e) = 2 * 2 ^ (-(e + 1)) := by
    rw [show -e = -(e + 1) + 1 by ring, zpow_add₀ (by norm_num), zpow_one, mul_comm]
  constructor
  · have := hx.1
    rw [e2] at this
    nlinarith
  · have := hx.2
    rw [e1]
    nlinarith

variable {F : Fp} (hF : F.Ok)
include hF

theorem Mid.fl {e : ℤ} {q : ℚ} (h : Mid e q) (he : e ≤ 1000) : Ap (1 / 2 ^ 53) (F.fl q) q := by
  refine ap_of ?_ (by norm_num)
  have := F.fl_err hF ((h.mono he).1) ((h.mono he).2)
  rw [abs_sub_comm] at this
  rw [one_div, inv_mul_eq_div]
  exact this

omit hF in
theorem Mid.inR {e : ℤ} {q : ℚ} (h : Mid e q) (he : e ≤ 1000) : InR q := by
  refine inR_of (((h.mono he).2).trans ?_)
  rw [← zpow_natCast]
  exact zpow_le_zpow_right₀ (by norm_num) (by norm_num)

theorem Mid.isD {e : ℤ} {q : ℚ} (h : Mid e q) (he : e ≤ 1000) : IsD (F.fl q) := ⟨_, (hF q (h.inR he)).2.1, rfl⟩

theorem Mid.fl_fl {e : ℤ} {q : ℚ} (h : Mid e q) (he : e ≤ 999) : F.fl (F.fl q) = F.fl q :=
  F.fl_isD hF ((h.ap (h.fl hF (he.trans (by norm_num))) (by norm_num)).inR (by omega)) (h.isD hF (he.trans (by norm_num)))

/-- The step to the next double. -/
theorem up_ap {y : ℚ} (hy : Mid 900 y) (h : F.fl y = y) : Ap (1 / 2 ^ 50) (F.up y) y := by
  refine ap_of ?_ (by norm_num)
  have k := bitsUp_val (hF y (hy.inR (by norm_num))).2.1
  rw [show val (F.rnd y) = y from h] at k
  rw [show F.up y = val (bitsUp (F.rnd y)) from rfl, abs_of_pos (sub_pos.2 k.1)]
  have : max (|y| / 2 ^ 52) (1 / 2 ^ 1074) ≤ 1 / 2 ^ 50 * |y| := by
    refine max_le ?_ ?_
    · have := abs_nonneg y
      rw [div_le_iff₀ (by norm_num)]
      linarith
    · have h1 := mul_le_mul_of_nonneg_left hy.1 (by norm_num : (0 : ℚ) ≤ 1 / 2 ^ 50)
      refine le_trans ?_ h1
      rw [one_div, one_div, ← zpow_natCast, ← zpow_natCast, ← zpow_neg, ← zpow_neg, ← zpow_add₀ (by norm_num)]
      exact zpow_le_zpow_right₀ (by norm_num) (by norm_num)
  linarith [k.2]

theorem down_ap {y : ℚ} (hy : Mid 900 y) (h : F.fl y = y) : Ap (1 / 2 ^ 50) (F.down y) y := by
  refine ap_of ?_ (by norm_num)
  obtain ⟨k1, k2⟩ := F.down_spec hF (hy.inR (by norm_num)) h
  have y0 : 0 < |y| := abs_pos.2 hy.ne
  have hq : Ap (1 / 2 ^ 51) (y - |y| / 2 ^ 51) y := by
    refine ap_of ?_ (by norm_num)
    rw [sub_sub_cancel_left, abs_neg, abs_of_pos (div_pos y0 (by norm_num))]
    exact le_of_eq (by ring)
  have hm := hy.ap hq (by norm_num)
  have e1 := (hm.fl hF (by norm_num)).abs_sub
  have e2 := hq.abs_le
  have e3 := abs_le.1 e1
  have hlt : F.fl (y - |y| / 2 ^ 51) < y := by
    have : (1 + 1 / 2 ^ 51 : ℚ) * |y| / 2 ^ 53 < |y| / 2 ^ 51 := by
      rw [div_lt_div_iff₀ (by norm_num) (by norm_num)]
      nlinarith
    have : (1 / 2 ^ 53 : ℚ) * |y - |y| / 2 ^ 51| ≤ (1 + 1 / 2 ^ 51 : ℚ) * |y| / 2 ^ 53 := by
      rw [le_div_iff₀ (by norm_num)]
      linarith
    linarith [e3.2]
  have k3 := k2 _ hlt
  rw [show val (F.rnd (y - |y| / 2 ^ 51)) = F.fl (y - |y| / 2 ^ 51) from rfl] at k3
  rw [abs_sub_comm, abs_of_pos (sub_pos.2 k1)]
  linarith [e3.1]

/-! ### Differences -/

omit hF in
theorem usual_mult {M x : ℚ} (h : Usual M x) : ∃ m : ℤ, x = m * 2 ^ (-152 : ℤ) := by
  rcases h.2.1 with h0 | h1
  · exact ⟨0, by rw [h0]; norm_num⟩
  · refine isD_mult (j := -152) h.1 (by norm_num) ?_
    refine le_trans (le_of_eq ?_) h1
    norm_num

omit hF in
theorem diff_mid {M x y : ℚ} (hM : M ≤ 2 ^ 100) (hx : Usual M x) (hy : Usual M y) (hne : x ≠ y) : Mid 152 (x - y) := by
  constructor
  · obtain ⟨m, hm⟩ := usual_mult hx
    obtain ⟨n, hn⟩ := usual_mult hy
    rw [hm, hn, ← sub_mul, abs_mul, abs_of_pos (zpow_pos (by norm_num : (0 : ℚ) < 2) (-152))]
    refine le_mul_of_one_le_left (zpow_nonneg (by norm_num) _) ?_
    have : m ≠ n := by rintro rfl; exact hne (by rw [hm, hn])
    have : 1 ≤ |m - n| := Int.one_le_abs (sub_ne_zero.2 this)
    exact_mod_cast this
  · have := (abs_sub x y).trans (add_le_add hx.2.2 hy.2.2)
    refine this.trans ((add_le_add hM hM).trans ?_)
    norm_num

variable {M : ℚ} (hM : M ≤ 2 ^ 100)
include hM

theorem sub_ap {x y : ℚ} (hx : Usual M x) (hy : Usual M y) : Ap (1 / 2 ^ 53) (F.sub x y) (x - y) := by
  by_cases h : x = y
  · rw [h, Fp.sub, sub_self, F.fl_zero hF]
    exact ⟨0, by rw [abs_zero]; norm_num, by rw [zero_mul]⟩
  · exact (diff_mid hM hx hy h).fl hF (by norm_num)

omit hM in
/-- The product of two rounded numbers. -/
theorem mul_ap {x y x' y' : ℚ} (hx : x ≠ 0 → Mid 152 x) (hy : y ≠ 0 → Mid 152 y) (ax : Ap (1 / 2 ^ 53) x' x) (ay : Ap (1 / 2 ^ 53) y' y) :
    Ap (1 / 2 ^ 51) (F.mul x' y') (x * y) := by
  have h := ax.mul ay (m := 1 / 2 ^ 52 + 1 / 2 ^ 60) (by norm_num)
  by_cases h0 : x * y = 0
  · have : x' * y' = 0 := by
      obtain ⟨δ, -, h⟩ := h
      rw [h, h0, zero_mul]
    rw [h0, Fp.mul, this, F.fl_zero hF]
    exact ⟨0, by rw [abs_zero]; norm_num, by rw [zero_mul]⟩
  · have := ((hx (left_ne_zero_of_mul h0)).mul (hy (right_ne_zero_of_mul h0))).ap h (by norm_num)
    exact (this.fl hF (by norm_num)).trans h (by norm_num)

omit hM in
theorem div_ap {x y x' y' : ℚ} (hx : x ≠ 0 → Mid 152 x) (hy : Mid 152 y) (ax : Ap (1 / 2 ^ 53) x' x) (ay : Ap (1 / 2 ^ 53) y' y) :
    Ap (1 / 2 ^ 51) (F.div x' y') (x / y) := by
  have y0 : y' ≠ 0 := (hy.ap ay (by norm_num)).ne
  have h := ax.mul (ay.inv (m := 1 / 2 ^ 53 + 1 / 2 ^ 60) (by norm_num) (by norm_num)) (m := 1 / 2 ^ 52 + 1 / 2 ^ 59) (by norm_num)
  rw [Fp.div, if_neg y0, div_eq_mul_inv x' y', div_eq_mul_inv x y]
  by_cases h0 : x = 0
  · have : x' = 0 := by
      obtain ⟨δ, -, h⟩ := ax
      rw [h, h0, zero_mul]
    rw [h0, this, zero_mul, zero_mul, F.fl_zero hF]
    exact ⟨0, by rw [abs_zero]; norm_num, by rw [zero_mul]⟩
  · have := ((hx h0).mul hy.inv).ap h (by norm_num)
    exact (this.fl hF (by norm_num)).trans h (by norm_num)


/-! ### The test for three points in a line -/

omit hM in
/-- The product and its correction by a step. -/
theorem nudge_ap {x y x' y' : ℚ} (hx : x ≠ 0 → Mid 152 x) (hy : Mid 152 y) (ax : Ap (1 / 2 ^ 53) x' x) (ay : Ap (1 / 2 ^ 53) y' y) :
    Ap (1 / 2 ^ 49) (if F.sub (F.div (F.mul x' y') y') x' < 0 then F.down (F.mul x' y') else
      if F.sub (F.div (F.mul x' y') y') x' > 0 then F.up (F.mul x' y') else F.mul x' y') (x * y) := by
  have hm := mul_ap hF hx (fun _ => hy) ax ay
  by_cases h0 : x = 0
  · have e1 : x' = 0 := by
      obtain ⟨δ, -, h⟩ := ax
      rw [h, h0, zero_mul]
    have y0 : y' ≠ 0 := (hy.ap ay (by norm_num)).ne
    have e2 : F.mul x' y' = 0 := by rw [Fp.mul, e1, zero_mul, F.fl_zero hF]
    have e3 : F.sub (F.div (F.mul x' y') y') x' = 0 := by
      rw [e2, e1, Fp.div, if_neg y0, zero_div, F.fl_zero hF, Fp.sub, sub_zero, F.fl_zero hF]
    rw [e3, if_neg (lt_irrefl _), if_neg (lt_irrefl _)]
    exact hm.mono (by norm_num)
  · have mm := ((hx h0).mul hy).ap hm (by norm_num)
    have hq := ((hx h0).mul hy).ap (ax.mul ay (m := 1 / 2 ^ 52 + 1 / 2 ^ 60) (by norm_num)) (by norm_num)
    have ff : F.fl (F.mul x' y') = F.mul x' y' := hq.fl_fl hF (by norm_num)
    split_ifs
    · exact (down_ap hF (mm.mono (by norm_num)) ff).trans hm (by norm_num)
    · exact (up_ap hF (mm.mono (by norm_num)) ff).trans hm (by norm_num)
    · exact hm.mono (by norm_num)

/-- The two products of the test. -/
def prodA (a b p : Pt ℚ) : ℚ := (p.x - a.x) * (b.y - a.y)
def prodB (a b p : Pt ℚ) : ℚ := (p.y - a.y) * (b.x - a.x)

/-- The products differ by more than rounding may change them. -/
def Far (a b p : Pt ℚ) : Prop := (|prodA a b p| + |prodB a b p|) / 2 ^ 47 < |prodA a b p - prodB a b p|

omit hF hM in
theorem Far.ne {a b p : Pt ℚ} (h : Far a b p) : prodA a b p ≠ prodB a b p := by
  intro e
  unfold Far at h
  rw [e, sub_self, abs_zero] at h
  have := div_nonneg (add_nonneg (abs_nonneg (prodB a b p)) (abs_nonneg (prodB a b p))) (by norm_num : (0 : ℚ) ≤ 2 ^ 47)
  linarith

theorem cross0_far {a b p : Pt ℚ} (ha : UsualPt M a) (hb : UsualPt M b) (hp : UsualPt M p) (hx : b.x ≠ a.x) (hy : b.y ≠ a.y) (h : Far a b p) :
    F.cross0 a b p = false := by
  have d1 := sub_ap hF hM hp.1 ha.1
  have d2 := sub_ap hF hM hp.2 ha.2
  have d3 := sub_ap hF hM hb.1 ha.1
  have d4 := sub_ap hF hM hb.2 ha.2
  have m1 : p.x - a.x ≠ 0 → Mid 152 (p.x - a.x) := fun h => diff_mid hM hp.1 ha.1 (sub_ne_zero.1 h)
  have m2 : p.y - a.y ≠ 0 → Mid 152 (p.y - a.y) := fun h => diff_mid hM hp.2 ha.2 (sub_ne_zero.1 h)
  have m3 := diff_mid hM hb.1 ha.1 hx
  have m4 := diff_mid hM hb.2 ha.2 hy
  have n1 := (nudge_ap hF m1 m4 d1 d4).abs_sub
  have n2 := (nudge_ap hF m2 m3 d2 d3).abs_sub
  unfold Fp.cross0
  dsimp only
  generalize (if F.sub (F.div (F.mul (F.sub p.x a.x) (F.sub b.y a.y)) (F.sub b.y a.y)) (F.sub p.x a.x) < 0 then F.down (F.mul (F.sub p.x a.x) (F.sub b.y a.y)) else
      if F.sub (F.div (F.mul (F.sub p.x a.x) (F.sub b.y a.y)) (F.sub b.y a.y)) (F.sub p.x a.x) > 0 then F.up (F.mul (F.sub p.x a.x) (F.sub b.y a.y)) else
        F.mul (F.sub p.x a.x) (F.sub b.y a.y)) = u at n1 ⊢
  generalize (if F.sub (F.div (F.mul (F.sub p.y a.y) (F.sub b.x a.x)) (F.sub b.x a.x)) (F.sub p.y a.y) < 0 then F.down (F.mul (F.sub p.y a.y) (F.sub b.x a.x)) else
      if F.sub (F.div (F.mul (F.sub p.y a.y) (F.sub b.x a.x)) (F.sub b.x a.x)) (F.sub p.y a.y) > 0 then F.up (F.mul (F.sub p.y a.y) (F.sub b.x a.x)) else
        F.mul (F.sub p.y a.y) (F.sub b.x a.x)) = v at n2 ⊢
  change |u - prodA a b p| ≤ _ * |prodA a b p| at n1
  change |v - prodB a b p| ≤ _ * |prodB a b p| at n2
  have mA : prodA a b p ≠ 0 → Mid 304 (prodA a b p) := fun h => (m1 (left_ne_zero_of_mul h)).mul m4
  have mB : prodB a b p ≠ 0 → Mid 304 (prodB a b p) := fun h => (m2 (left_ne_zero_of_mul h)).mul m3
  unfold Far at h
  have hne := Far.ne h
  generalize prodA a b p = A at *
  generalize prodB a b p = B at *
  have hA := abs_nonneg A
  have hB := abs_nonneg B
  have big : ∀ z : ℚ, (z ≠ 0 → Mid 304 z) → |z| ≤ 2 ^ (304 : ℤ) := by
    intro z hz
    by_cases h0 : z = 0
    · rw [h0, abs_zero]; exact zpow_nonneg (by norm_num) _
    · exact (hz h0).2
  have hsum : 2 ^ (-304 : ℤ) ≤ |A| + |B| := by
    by_cases h0 : A = 0
    · have : B ≠ 0 := fun hb => hne (by rw [h0, hb])
      linarith [(mB this).1]
    · linarith [(mA h0).1]
  have tri : |A - B| ≤ |u - v| + |u - A| + |v - B| := by
    have h1 := abs_add_le (A - u) (u - v)
    have h2 := abs_add_le (A - v) (v - B)
    rw [sub_add_sub_cancel] at h1 h2
    rw [abs_sub_comm A u] at h1
    linarith
  have tri' : |u - v| ≤ |A| + |B| + |u - A| + |v - B| := by
    have h1 := abs_add_le (u - A) (A - v)
    have h2 := abs_add_le (A - B) (B - v)
    rw [sub_add_sub_cancel] at h1 h2
    rw [abs_sub_comm B v] at h2
    have := abs_sub A B
    linarith
  have hmid : Mid 360 (u - v) := by
    constructor
    · have : (2 : ℚ) ^ (-360 : ℤ) = 2 ^ (-304 : ℤ) / 2 ^ 56 := by
        have := two_split (-360) 56
        rw [eq_div_iff (by norm_num), mul_comm, ← this]
        rfl
      rw [this, div_le_iff₀ (by norm_num)]
      generalize (2 : ℚ) ^ (-304 : ℤ) = w at hsum ⊢
      linarith
    · have b1 := big A mA
      have b2 := big B mB
      have : (2 : ℚ) ^ (360 : ℤ) = 2 ^ (304 : ℤ) * 2 ^ 56 := by
        have := two_split 304 56
        rw [mul_comm, ← this]
        rfl
      rw [this]
      generalize (2 : ℚ) ^ (304 : ℤ) = w at b1 b2 ⊢
      linarith
  have : F.sub u v ≠ 0 := (hmid.ap (hmid.fl hF (by norm_num)) (by norm_num)).ne
  rw [← Bool.not_eq_true, feq_iff]
  exact this

/-! ### The slopes -/

theorem slope_far {a b p : Pt ℚ} (ha : UsualPt M a) (hb : UsualPt M b) (hp : UsualPt M p) (hpx : p.x ≠ a.x) (hbx : b.x ≠ a.x) (h : Far a b p) :
    F.slopeGe p a b = exactSlopeGe p a b := by
  have m1 := diff_mid hM hp.1 ha.1 hpx
  have m3 := diff_mid hM hb.1 ha.1 hbx
  have q1 := (div_ap hF (fun h => diff_mid hM hp.2 ha.2 (sub_ne_zero.1 h)) m1 (sub_ap hF hM hp.2 ha.2) (sub_ap hF hM hp.1 ha.1)).abs_sub
  have q2 := (div_ap hF (fun h => diff_mid hM hb.2 ha.2 (sub_ne_zero.1 h)) m3 (sub_ap hF hM hb.2 ha.2) (sub_ap hF hM hb.1 ha.1)).abs_sub
  have gap : (|(p.y - a.y) / (p.x - a.x)| + |(b.y - a.y) / (b.x - a.x)|) / 2 ^ 47 < |(p.y - a.y) / (p.x - a.x) - (b.y - a.y) / (b.x - a.x)| := by
    have hd : 0 < |(p.x - a.x) * (b.x - a.x)| := abs_pos.2 (mul_ne_zero m1.ne m3.ne)
    have e1 : (p.y - a.y) / (p.x - a.x) = prodB a b p / ((p.x - a.x) * (b.x - a.x)) := by
      unfold prodB; rw [mul_div_mul_right _ _ m3.ne]
    have e2 : (b.y - a.y) / (b.x - a.x) = prodA a b p / ((p.x - a.x) * (b.x - a.x)) := by
      unfold prodA; rw [mul_div_mul_left _ _ m1.ne]
    rw [e1, e2, ← sub_div, abs_div, abs_div, abs_div, ← add_div, div_div, mul_comm, ← div_div, div_lt_div_iff_of_pos_right hd, abs_sub_comm, add_comm]
    exact h
  rw [Fp.slopeGe, exactSlopeGe, decide_eq_decide]
  generalize (p.y - a.y) / (p.x - a.x) = x at *
  generalize (b.y - a.y) / (b.x - a.x) = y at *
  have hx := abs_nonneg x
  have hy := abs_nonneg y
  rw [abs_le] at q1 q2
  rcases abs_cases (x - y) with ⟨e, h0⟩ | ⟨e, h0⟩ <;> rw [e] at gap
  · exact iff_of_true (by linarith) (by linarith)
  · exact iff_of_false (by rw [ge_iff_le, not_le]; linarith) (by linarith)


omit hM in
theorem fl_le_two {x B : ℚ} (hx : InR x) (hB : Mid 900 B) (h0 : 0 < B) (h : |x| ≤ B) : |F.fl x| ≤ 2 * B := by
  have hr := hB.inR (by norm_num)
  have hr' : InR (-B) := by unfold InR at *; rwa [abs_neg]
  have k := abs_le.1 h
  have a1 := F.fl_mono hF hx hr k.2
  have a2 := F.fl_mono hF hr' hx k.1
  have b1 := (hB.fl hF (by norm_num)).abs_le
  have hB' : Mid 900 (-B) := by unfold Mid; rw [abs_neg]; exact hB
  have b2 := (hB'.fl hF (by norm_num)).abs_le
  rw [abs_neg, abs_of_pos h0] at b2
  rw [abs_of_pos h0] at b1
  rw [abs_le]
  have c1 := le_abs_self (F.fl B)
  have c2 := neg_abs_le (F.fl (-B))
  constructor <;> linarith

/-- The step up from the lower end does not carry the point over the segment. -/
theorem slope_step {a b : Pt ℚ} {px : ℚ} (ha : UsualPt M a) (hb : UsualPt M b) (hp : Usual M px) (hpx : px ≠ a.x) (hbx : b.x ≠ a.x) (hab : a.y < b.y)
    (h : M * |b.x - a.x| / 2 ^ 46 < (b.y - a.y) * |px - a.x|) : F.slopeGe ⟨px, F.up a.y⟩ a b = decide (b.x < a.x) := by
  have m1 := diff_mid hM hp ha.1 hpx
  have m3 := diff_mid hM hb.1 ha.1 hbx
  have m4 := diff_mid hM hb.2 ha.2 hab.ne'
  have a1 := sub_ap hF hM hp ha.1
  have q2 := div_ap hF (fun _ => m4) m3 (sub_ap hF hM hb.2 ha.2) (sub_ap hF hM hb.1 ha.1)
  -- the bounds on `M`
  have M0 : 2 ^ (-153 : ℤ) ≤ M := by
    have := m1.1.trans ((abs_sub _ _).trans (add_le_add hp.2.2 ha.1.2.2))
    have e := two_split (-153) 1
    rw [show (-153 : ℤ) + ((1 : ℕ) : ℤ) = -152 by norm_num] at e
    rw [e] at this
    linarith
  have Mp : 0 < M := lt_of_lt_of_le (zpow_pos (by norm_num) _) M0
  have mB : Mid 205 (M / 2 ^ 52) := by
    unfold Mid
    rw [abs_of_pos (div_pos Mp (by norm_num))]
    constructor
    · rw [le_div_iff₀ (by norm_num)]
      refine le_trans (le_of_eq ?_) M0
      have := two_split (-205) 52
      rw [mul_comm, ← this]
      rfl
    · refine (div_le_self Mp.le (by norm_num)).trans (hM.trans ?_)
      rw [← zpow_natCast]
      exact zpow_le_zpow_right₀ (by norm_num) (by norm_num)
  -- the step
  have fa : F.fl a.y = a.y := F.fl_isD hF (inR_of (ha.2.2.2.trans (hM.trans (pow_le_pow_right₀ (by norm_num) (by norm_num))))) ha.2.1
  have hr : InR a.y := inR_of (ha.2.2.2.trans (hM.trans (pow_le_pow_right₀ (by norm_num) (by norm_num))))
  have k := bitsUp_val (hF a.y hr).2.1
  rw [show val (F.rnd a.y) = a.y from fa] at k
  have s0 : 0 < F.up a.y - a.y := sub_pos.2 k.1
  have s1 : F.up a.y - a.y ≤ M / 2 ^ 52 := by
    have : max (|a.y| / 2 ^ 52) (1 / 2 ^ 1074) ≤ M / 2 ^ 52 := by
      refine max_le (div_le_div_of_nonneg_right ha.2.2.2 (by norm_num)) ?_
      have := mB.1
      rw [abs_of_pos (div_pos Mp (by norm_num))] at this
      refine le_trans ?_ this
      rw [one_div, ← zpow_natCast, ← zpow_neg]
      exact zpow_le_zpow_right₀ (by norm_num) (by norm_num)
    have k2 := k.2
    rw [show val (bitsUp (F.rnd a.y)) = F.up a.y from rfl] at k2
    linarith
  generalize hη : F.up a.y - a.y = η at s0 s1
  have rη : InR η := by
    refine inR_of ?_
    rw [abs_of_pos s0]
    refine s1.trans ((div_le_self Mp.le (by norm_num)).trans (hM.trans ?_))
    exact pow_le_pow_right₀ (by norm_num) (by norm_num)
  have e1 := fl_le_two hF rη (mB.mono (by norm_num)) (div_pos Mp (by norm_num)) (by rwa [abs_of_pos s0])
  have e0 : 0 ≤ F.fl η := F.fl_nonneg hF rη s0.le
  rw [abs_of_nonneg e0] at e1
  -- the quotient
  have x0 : 0 < |px - a.x| := abs_pos.2 m1.ne
  have X := m1.ap a1 (by norm_num)
  have xl := a1.le_abs
  have X0 : 0 < |F.sub px a.x| := abs_pos.2 X.ne
  have mC : Mid 400 (M / 2 ^ 52 * 4 * (px - a.x)⁻¹) := by
    have m4 : Mid 2 (4 : ℚ) := by unfold Mid; norm_num
    exact ((mB.mul m4).mul m1.inv).mono (by norm_num)
  have mC' : Mid 400 (M / 2 ^ 52 * 4 * |px - a.x|⁻¹) := by
    unfold Mid at mC ⊢
    rwa [abs_mul, abs_inv, abs_abs, ← abs_inv, ← abs_mul]
  have w1 : |F.fl η / F.sub px a.x| ≤ M / 2 ^ 52 * 4 * |px - a.x|⁻¹ := by
    rw [abs_div, abs_of_nonneg e0, div_le_iff₀ X0]
    have h1 : (1 / 2 : ℚ) * |px - a.x| ≤ |F.sub px a.x| := le_trans (mul_le_mul_of_nonneg_right (by norm_num) x0.le) xl
    have h2 := mul_le_mul_of_nonneg_left h1 (mul_nonneg (mul_nonneg (div_pos Mp (by norm_num : (0 : ℚ) < 2 ^ 52)).le (by norm_num : (0 : ℚ) ≤ 4)) (inv_pos.2 x0).le)
    refine le_trans ?_ h2
    have : M / 2 ^ 52 * 4 * |px - a.x|⁻¹ * (1 / 2 * |px - a.x|) = 2 * (M / 2 ^ 52) := by field_simp; norm_num
    rw [this]
    exact e1
  have rw' : InR (F.fl η / F.sub px a.x) := by
    refine inR_of (w1.trans ?_)
    have := mC'.2
    rw [abs_of_nonneg (mul_nonneg (mul_nonneg (div_pos Mp (by norm_num : (0 : ℚ) < 2 ^ 52)).le (by norm_num)) (inv_pos.2 x0).le)] at this
    refine this.trans ?_
    rw [← zpow_natCast]
    exact zpow_le_zpow_right₀ (by norm_num) (by norm_num)
  have w2 := fl_le_two hF rw' (mC'.mono (by norm_num)) (mul_pos (mul_pos (div_pos Mp (by norm_num)) (by norm_num)) (inv_pos.2 x0)) w1
  -- the slope of the segment
  have g : M / 2 ^ 52 * 4 * |px - a.x|⁻¹ * 2 < |(b.y - a.y) / (b.x - a.x)| / 2 := by
    have b0 : 0 < |b.x - a.x| := abs_pos.2 m3.ne
    rw [abs_div, abs_of_pos (sub_pos.2 hab), ← div_eq_mul_inv, div_div, div_mul_eq_mul_div, div_lt_div_iff₀ x0 (mul_pos b0 two_pos)]
    have : M / 2 ^ 52 * 4 * 2 * (|b.x - a.x| * 2) = M * |b.x - a.x| / 2 ^ 48 := by ring
    rw [this]
    refine lt_of_le_of_lt ?_ h
    exact div_le_div_of_nonneg_left (mul_nonneg Mp.le b0.le) (by norm_num) (by norm_num)
  have l2 := q2.le_abs
  rw [Fp.slopeGe]
  dsimp only
  rw [decide_eq_decide, Fp.sub, hη]
  have hdiv : F.div (F.fl η) (F.sub px a.x) = F.fl (F.fl η / F.sub px a.x) := by rw [Fp.div, if_neg X.ne]
  rw [hdiv]
  have w3 := abs_le.1 w2
  obtain ⟨δ, d1, d2⟩ := q2
  have hδ : 0 < 1 + δ := by have := (abs_le.1 d1).1; linarith
  rw [d2]
  rcases lt_or_gt_of_ne hbx with hl | hl
  · refine iff_of_true ?_ hl
    have neg : (b.y - a.y) / (b.x - a.x) < 0 := div_neg_of_pos_of_neg (sub_pos.2 hab) (sub_neg.2 hl)
    have c1 : (b.y - a.y) / (b.x - a.x) * (1 + δ) ≤ (b.y - a.y) / (b.x - a.x) * (1 / 2) :=
      mul_le_mul_of_nonpos_left (by have := (abs_le.1 d1).1; linarith) neg.le
    rw [abs_of_neg neg] at g
    linarith [w3.1]
  · refine iff_of_false ?_ (not_lt.2 hl.le)
    have pos : 0 < (b.y - a.y) / (b.x - a.x) := div_pos (sub_pos.2 hab) (sub_pos.2 hl)
    have c1 : (b.y - a.y) / (b.x - a.x) * (1 / 2) ≤ (b.y - a.y) / (b.x - a.x) * (1 + δ) :=
      mul_le_mul_of_nonneg_left (by have := (abs_le.1 d1).1; linarith) pos.le
    rw [abs_of_pos pos] at g
    rw [ge_iff_le, not_le]
    linarith [w3.2]

/-! ### The ray -/

omit hF hM in
theorem prod_cross (a b p : Pt ℚ) : prodA a b p - prodB a b p = -cross ⟨a, b⟩ p := by
  unfold prodA prodB cross
  ring

omit hF hM in
theorem off_swap {s : Seg ℚ} {p : Pt ℚ} (h : Off M s p) : Off M ⟨s.b, s.a⟩ p := by
  have e : cross ⟨s.b, s.a⟩ p = -cross s p := by unfold cross; ring
  unfold Off at *
  rw [e, abs_neg]
  dsimp only
  rwa [abs_sub_comm s.a.x, abs_sub_comm s.a.y]

omit hF hM in
theorem diff_le {x y : ℚ} (hx : Usual M x) (hy : Usual M y) : |x - y| ≤ 2 * M := by
  have := (abs_sub x y).trans (add_le_add hx.2.2 hy.2.2)
  linarith

omit hF hM in
theorem Off.far {a b p : Pt ℚ} (ha : UsualPt M a) (hp : UsualPt M p) (h : Off M ⟨a, b⟩ p) : Far a b p := by
  unfold Far
  rw [prod_cross, abs_neg]
  refine lt_of_le_of_lt ?_ h
  dsimp only
  have h1 : |prodA a b p| ≤ 2 * M * |b.y - a.y| := by
    unfold prodA
    rw [abs_mul]
    exact mul_le_mul_of_nonneg_right (diff_le hp.1 ha.1) (abs_nonneg _)
  have h2 : |prodB a b p| ≤ 2 * M * |b.x - a.x| := by
    unfold prodB
    rw [abs_mul]
    exact mul_le_mul_of_nonneg_right (diff_le hp.2 ha.2) (abs_nonneg _)
  rw [div_le_div_iff₀ (by norm_num) (by norm_num)]
  linarith

omit hF hM in
theorem Off.ends {s : Seg ℚ} {p : Pt ℚ} (h : Off M s p) (hs : UsualSeg M s) : s.a ≠ s.b := by
  intro e
  unfold Off cross at h
  rw [e] at h
  simp at h

theorem up_usual {y : ℚ} (hy : Usual M y) : y < F.up y ∧ ∀ z, Usual M z → y < z → F.up y ≤ z := by
  have hr : InR y := inR_of (hy.2.2.trans (hM.trans (pow_le_pow_right₀ (by norm_num) (by norm_num))))
  obtain ⟨h1, h2⟩ := F.up_spec hF hr (F.fl_isD hF hr hy.1)
  refine ⟨h1, fun z hz hlt => ?_⟩
  obtain ⟨d, -, e⟩ := hz.1
  rw [← e] at hlt ⊢
  exact h2 d hlt

theorem tail_far {ε : ℚ} (e0 : 0 < ε) (ns : List (Pt ℚ) → Nat) {a b p : Pt ℚ} (ha : UsualPt M a) (hb : UsualPt M b) (hp : UsualPt M p)
    (hs : Small ε ⟨a, b⟩ p) (hpa : p ≠ a) (hy1 : a.y ≤ p.y) (hy2 : p.y ≤ b.y)
    (hoff : min a.x b.x < p.x → p.x < max a.x b.x → a.y < b.y → Off M ⟨a, b⟩ p) : raycastTail F.arith a b p = raycastTail (exact ε ns) a b p := by
  rcases eq_or_lt_of_le hy2 with e2 | l2
  · have g := (up_usual hF hM hb.2).1
    unfold raycastTail
    dsimp only
    have hcond : p.y = a.y ∨ p.y = b.y := .inr e2
    rw [if_pos hcond, if_pos hcond]
    rw [show F.arith.next p.y = F.up p.y from rfl, show (exact ε ns).next p.y = p.y + ε from rfl]
    dsimp only
    rw [if_pos (.inr (by rw [e2]; exact g)), if_pos (.inr (by rw [e2]; linarith))]
  rcases eq_or_lt_of_le hy1 with e1 | l1
  · have hlt : a.y < b.y := e1 ▸ l2
    obtain ⟨g1, g2⟩ := up_usual hF hM ha.2
    have g2 := g2 _ hb.2 hlt
    have hpx : p.x ≠ a.x := fun h => hpa (Pt.ext h e1.symm)
    obtain ⟨s1, s2⟩ := hs a b (.inl ⟨rfl, rfl⟩) hlt
    have s2 := s2 hpx
    have low : Off M ⟨a, b⟩ p → M * |b.x - a.x| / 2 ^ 46 < (b.y - a.y) * |p.x - a.x| := by
      intro h
      unfold Off cross at h
      dsimp only at h
      rw [← e1, sub_self, mul_zero, zero_sub, abs_neg, abs_mul, abs_of_pos (sub_pos.2 hlt)] at h
      refine lt_of_le_of_lt ?_ h
      refine div_le_div_of_nonneg_right ?_ (by norm_num)
      have M0 : 0 ≤ M := (abs_nonneg _).trans hp.1.2.2
      exact mul_le_mul_of_nonneg_left (by linarith [sub_pos.2 hlt]) M0
    unfold raycastTail
    dsimp only
    have hcond : p.y = a.y ∨ p.y = b.y := .inl e1.symm
    rw [if_pos hcond, if_pos hcond]
    rw [show F.arith.next p.y = F.up p.y from rfl, show (exact ε ns).next p.y = p.y + ε from rfl]
    dsimp only
    rw [if_neg (show ¬ (F.up p.y < a.y ∨ F.up p.y > b.y) by
        rw [← e1, not_or, not_lt, gt_iff_lt, not_lt]; exact ⟨g1.le, g2⟩),
      if_neg (show ¬ (p.y + ε < a.y ∨ p.y + ε > b.y) by
        rw [← e1, not_or, not_lt, gt_iff_lt, not_lt]; exact ⟨by linarith, by linarith⟩)]
    rw [show F.arith.slopeGe ⟨p.x, F.up p.y⟩ a b = F.slopeGe ⟨p.x, F.up p.y⟩ a b from rfl,
      show (exact ε ns).slopeGe ⟨p.x, p.y + ε⟩ a b = decide ((p.y + ε - a.y) / (p.x - a.x) ≥ (b.y - a.y) / (b.x - a.x)) from rfl, ← e1, add_sub_cancel_left]
    by_cases hx2 : a.x > b.x
    · rw [if_pos hx2, if_pos hx2]
      by_cases c1 : p.x ≥ a.x
      · rw [if_pos c1, if_pos c1]
      rw [if_neg c1, if_neg c1]
      by_cases c2 : p.x ≤ b.x
      · rw [if_pos c2, if_pos c2]
      have hb' := hoff (by rw [min_eq_right hx2.le]; exact not_le.1 c2) (by rw [max_eq_left hx2.le]; exact not_le.1 c1) hlt
      rw [if_neg c2, if_neg c2, slope_step hF hM ha hb hp.1 hpx hx2.ne hlt (low hb')]
      have : ε / (p.x - a.x) ≥ (b.y - a.y) / (b.x - a.x) := by
        rw [ge_iff_le, div_le_div_neg (by linarith) (by linarith)]
        rw [abs_of_neg (by linarith), abs_of_neg (by linarith)] at s2
        nlinarith
      rw [decide_eq_true this, decide_eq_true hx2]
    · rw [if_neg hx2, if_neg hx2]
      by_cases c1 : p.x ≥ b.x
      · rw [if_pos c1, if_pos c1]
      rw [if_neg c1, if_neg c1]
      by_cases c2 : p.x ≤ a.x
      · rw [if_pos c2, if_pos c2]
      rw [if_neg c2, if_neg c2]
      rw [not_le] at c2
      rw [ge_iff_le, not_le] at c1
      have hx3 : a.x ≤ b.x := not_lt.1 hx2
      have hb' := hoff (by rw [min_eq_left hx3]; exact c2) (by rw [max_eq_right hx3]; exact c1) hlt
      rw [slope_step hF hM ha hb hp.1 hpx (by linarith : a.x < b.x).ne' hlt (low hb')]
      have : ¬ (ε / (p.x - a.x) ≥ (b.y - a.y) / (b.x - a.x)) := by
        rw [ge_iff_le, div_le_div_iff₀ (by linarith) (by linarith), not_le]
        rw [abs_of_pos (by linarith), abs_of_pos (by linarith)] at s2
        nlinarith
      rw [decide_eq_false this, decide_eq_false hx2]
  · unfold raycastTail
    dsimp only
    have hcond : ¬ (p.y = a.y ∨ p.y = b.y) := by
      rw [not_or]; exact ⟨l1.ne', l2.ne⟩
    rw [if_neg hcond, if_neg hcond]
    have hslope : min a.x b.x < p.x → p.x < max a.x b.x → p.x ≠ a.x → b.x ≠ a.x → F.arith.slopeGe p a b = (exact ε ns).slopeGe p a b := by
      intro j1 j2 k1 k2
      exact slope_far hF hM ha hb hp k1 k2 ((hoff j1 j2 (l1.trans l2)).far ha hp)
    by_cases hx2 : a.x > b.x
    · rw [if_pos hx2, if_pos hx2]
      by_cases c1 : p.x ≥ a.x
      · rw [if_pos c1, if_pos c1]
      rw [if_neg c1, if_neg c1]
      by_cases c2 : p.x ≤ b.x
      · rw [if_pos c2, if_pos c2]
      rw [if_neg c2, if_neg c2, hslope (by rw [min_eq_right hx2.le]; exact not_le.1 c2) (by rw [max_eq_left hx2.le]; exact not_le.1 c1) (fun h => c1 h.ge) hx2.ne]
    · rw [if_neg hx2, if_neg hx2]
      by_cases c1 : p.x ≥ b.x
      · rw [if_pos c1, if_pos c1]
      rw [if_neg c1, if_neg c1]
      by_cases c2 : p.x ≤ a.x
      · rw [if_pos c2, if_pos c2]
      rw [if_neg c2, if_neg c2]
      rw [not_le] at c2
      rw [ge_iff_le, not_le] at c1
      have hx3 : a.x ≤ b.x := not_lt.1 hx2
      rw [hslope (by rw [min_eq_left hx3]; exact c2) (by rw [max_eq_right hx3]; exact c1) c2.ne' (by linarith : a.x < b.x).ne']

theorem mid_far {ε : ℚ} (e0 : 0 < ε) (ns : List (Pt ℚ) → Nat) (r : Rect ℚ) {a b p : Pt ℚ} (ha : UsualPt M a) (hb : UsualPt M b) (hp : UsualPt M p)
    (hs : Small ε ⟨a, b⟩ p) (hy1 : a.y ≤ p.y) (hy2 : p.y ≤ b.y)
    (hcl : Off M ⟨a, b⟩ p ∨ p = a ∨ p = b ∨ a.x = b.x ∨ a.y = b.y ∨ (p.x < a.x ∧ p.x < b.x ∧ p.y = a.y)) :
    raycastMid F.arith r a b p = raycastMid (exact ε ns) r a b p := by
  unfold raycastMid
  by_cases c1 : (pteq p a || pteq p b) = true
  · rw [if_pos c1, if_pos c1]
  rw [if_neg c1, if_neg c1]
  rw [Bool.or_eq_true, pteq_iff, pteq_iff, not_or] at c1
  by_cases c2 : a.y = b.y ∧ a.x = b.x
  · rw [if_pos c2, if_pos c2]
  rw [if_neg c2, if_neg c2]
  by_cases c3 : a.y = b.y ∧ p.y = b.y ∧ ¬ (p.x < r.lo.x ∨ p.x > r.hi.x)
  · rw [if_pos c3, if_pos c3]
  rw [if_neg c3, if_neg c3]
  by_cases c4 : a.x = b.x ∧ p.x = b.x ∧ p.y ≥ a.y ∧ p.y ≤ b.y
  · rw [if_pos c4, if_pos c4]
  rw [if_neg c4, if_neg c4]
  have hne : a ≠ b := by rintro rfl; exact c2 ⟨rfl, rfl⟩
  have hcol : collinear F.arith a b p = collinear (exact ε ns) a b p := by
    by_cases hx : a.x = b.x
    · unfold collinear
      rw [if_pos ((feq_iff _ _).2 hx), if_pos ((feq_iff _ _).2 hx)]
    by_cases hy : a.y = b.y
    · unfold collinear
      rw [if_neg (mt (feq_iff _ _).1 hx), if_neg (mt (feq_iff _ _).1 hx), if_pos ((feq_iff _ _).2 hy), if_pos ((feq_iff _ _).2 hy)]
    have far : Far a b p := by
      rcases hcl with h | h | h | h | h | ⟨h1, h2, h3⟩
      · exact h.far ha hp
      · exact absurd h c1.1
      · exact absurd h c1.2
      · exact absurd h hx
      · exact absurd h hy
      · have hA : prodA a b p ≠ 0 := mul_ne_zero (sub_ne_zero.2 h1.ne) (sub_ne_zero.2 (Ne.symm hy))
        have hB : prodB a b p = 0 := by unfold prodB; rw [h3, sub_self, zero_mul]
        unfold Far
        rw [hB, abs_zero, add_zero, sub_zero]
        exact div_lt_self (abs_pos.2 hA) (by norm_num)
    have h1 : collinear (exact ε ns) a b p = false := by
      rw [← Bool.not_eq_true]
      exact fun h => far.ne ((exactCollinear_iff (ε := ε) hne).1 h)
    have h2 : collinear F.arith a b p = false := by
      unfold collinear
      rw [if_neg (mt (feq_iff _ _).1 hx), if_neg (mt (feq_iff _ _).1 hy), if_neg]
      · exact cross0_far hF hM ha hb hp (Ne.symm hx) (Ne.symm hy) far
      · simp only [Bool.or_eq_true, Bool.and_eq_true, feq_iff, not_or, not_and]
        exact ⟨⟨fun h => absurd h hx, fun h h' => c1.1 (Pt.ext h.symm h'.symm)⟩, fun h h' => c1.2 (Pt.ext h.symm h'.symm)⟩
    rw [h1, h2]
  rw [hcol]
  by_cases c5 : collinear (exact ε ns) a b p = true
  · rw [if_pos c5, if_pos c5]
  rw [if_neg c5, if_neg c5]
  refine tail_far hF hM e0 ns ha hb hp hs c1.1 hy1 hy2 fun j1 j2 j3 => ?_
  rcases hcl with h | h | h | h | h | ⟨h1, h2, h3⟩
  · exact h
  · exact absurd h c1.1
  · exact absurd h c1.2
  · rw [h, min_self] at j1
    rw [h, max_self] at j2
    exact absurd (j1.trans j2) (lt_irrefl _)
  · exact absurd h j3.ne
  · exact absurd (lt_min h1 h2) (not_lt.2 j1.le)

theorem ray_far {ε : ℚ} (e0 : 0 < ε) (ns : List (Pt ℚ) → Nat) {s : Seg ℚ} {p : Pt ℚ} (hs : UsualSeg M s) (hp : UsualPt M p) (hsm : Small ε s p)
    (hc : Clear M s p) : raycast F.arith s p = raycast (exact ε ns) s p := by
  unfold raycast
  dsimp only
  have r1 : s.rect.lo.y = min s.a.y s.b.y := rfl
  have r2 : s.rect.hi.y = max s.a.y s.b.y := rfl
  have r3 : s.rect.lo.x = min s.a.x s.b.x := rfl
  have r4 : s.rect.hi.x = max s.a.x s.b.x := rfl
  by_cases c1 : p.y < s.rect.lo.y ∨ p.y > s.rect.hi.y
  · rw [if_pos c1, if_pos c1]
  rw [if_neg c1, if_neg c1]
  by_cases c2 : p.x < s.rect.lo.x ∧ p.y ≠ s.rect.lo.y ∧ p.y ≠ s.rect.hi.y
  · rw [if_pos c2, if_pos c2]
  rw [if_neg c2, if_neg c2]
  by_cases c3 : p.x > s.rect.hi.x ∧ s.rect.lo.y ≠ s.rect.hi.y ∧ s.rect.lo.x ≠ s.rect.hi.x
  · rw [if_pos c3, if_pos c3]
  rw [if_neg c3, if_neg c3]
  rw [not_or, not_lt, gt_iff_lt, not_lt] at c1
  have m1 : min s.a.y s.b.y ≤ p.y := c1.1
  have m2 : p.y ≤ max s.a.y s.b.y := c1.2
  have key : Off M s p ∨ p = s.a ∨ p = s.b ∨ s.a.x = s.b.x ∨ s.a.y = s.b.y ∨ (p.x < s.a.x ∧ p.x < s.b.x ∧ p.y = min s.a.y s.b.y) := by
    rcases hc with h | h | h | h | h | ⟨h1, h2⟩
    · exact .inl h
    · exact .inr (.inl h)
    · exact .inr (.inr (.inl h))
    · exact .inr (.inr (.inr (.inl h)))
    · exact .inr (.inr (.inr (.inr (.inl h))))
    · by_cases hl : p.x < s.a.x ∧ p.x < s.b.x
      · have h3 := h2 hl
        refine .inr (.inr (.inr (.inr (.inr ⟨hl.1, hl.2, ?_⟩))))
        by_contra hn
        exact c2 ⟨lt_min hl.1 hl.2, hn, h3⟩
      · have hr : s.a.x < p.x ∧ s.b.x < p.x := by
          by_contra hn
          refine h1 ⟨?_, ?_, min_le_iff.1 m1, le_max_iff.1 m2⟩
          · by_contra hh
            rw [not_or, not_le, not_le] at hh
            exact hl hh
          · by_contra hh
            rw [not_or, not_le, not_le] at hh
            exact hn hh
        by_cases hx : s.a.x = s.b.x
        · exact .inr (.inr (.inr (.inl hx)))
        by_cases hy : s.a.y = s.b.y
        · exact .inr (.inr (.inr (.inr (.inl hy))))
        exfalso
        refine c3 ⟨by rw [r4]; exact max_lt hr.1 hr.2, ?_, ?_⟩
        · rw [r1, r2]
          exact fun h => hy (inf_eq_sup.1 h)
        · rw [r3, r4]
          exact fun h => hx (inf_eq_sup.1 h)
  by_cases c4 : s.b.y < s.a.y
  · rw [if_pos c4, if_pos c4]
    refine mid_far hF hM e0 ns s.rect hs.2 hs.1 hp (small_swap hsm) (by rwa [min_eq_right c4.le] at m1) (by rwa [max_eq_left c4.le] at m2) ?_
    rcases key with h | h | h | h | h | ⟨h1, h2, h3⟩
    · exact .inl (off_swap h)
    · exact .inr (.inr (.inl h))
    · exact .inr (.inl h)
    · exact .inr (.inr (.inr (.inl h.symm)))
    · exact .inr (.inr (.inr (.inr (.inl h.symm))))
    · rw [min_eq_right c4.le] at h3
      exact .inr (.inr (.inr (.inr (.inr ⟨h2, h1, h3⟩))))
  · rw [if_neg c4, if_neg c4]
    refine mid_far hF hM e0 ns s.rect hs.1 hs.2 hp hsm (by rwa [min_eq_left (not_lt.1 c4)] at m1) (by rwa [max_eq_right (not_lt.1 c4)] at m2) ?_
    rw [min_eq_left (not_lt.1 c4)] at key
    exact key

end Tg.S
