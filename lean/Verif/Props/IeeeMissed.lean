import Verif.Lemmas.FpNear
import Verif.Props.Shared
/-! C66 with more bits: the check for a loss of precision in `collinear` gives wrong answers in both directions. -/
namespace Tg

open S Spec.Double

variable {F : Fp} (hF : Rounding F.rnd)
include hF

/-- C66. `nexttoward` as `collinear` uses it goes to the next double. -/
theorem C66_next {y : ℚ} (hy : ∃ x, IsFinite x ∧ val x = y) :
    (F.down y < y ∧ ∀ z, val z < y → val z ≤ F.down y) ∧ (y < F.up y ∧ ∀ z, y < val z → F.up y ≤ val z) := by
  have h : InR y := by
    obtain ⟨x, hx, rfl⟩ := hy
    exact inR_val hx
  exact ⟨F.down_spec hF h (F.fl_isD hF h hy), F.up_spec hF h (F.fl_isD hF h hy)⟩

/-- C66 fails for 29 bits: the middle (201829269, 187645295) of the segment from (0, 0) to (403658538, 375290590) is not on the segment for
`tg_segment_covers_point`. No difference is rounded, and both products are the same number; but of the two checks for a loss of precision only one
finds it. -/
theorem C66_middle_missed : segCoversPt F.arith ⟨⟨0, 0⟩, ⟨403658538, 375290590⟩⟩ ⟨201829269, 187645295⟩ = false ∧
    OnSeg (⟨⟨0, 0⟩, ⟨403658538, 375290590⟩⟩ : Seg ℚ) ⟨201829269, 187645295⟩ := by
  refine ⟨?_, ⟨1 / 2, by norm_num, by norm_num, by norm_num, by norm_num⟩⟩
  have ex : ∀ n : ℤ, |n| ≤ 2 ^ 53 → F.fl n = n := fun n h => by
    have := F.fl_int hF (n := n) (j := 0) h (by norm_num) (by norm_num)
    simpa using this
  have a1 : F.sub 201829269 0 = 201829269 := by rw [Fp.sub, sub_zero]; exact_mod_cast ex 201829269 (by norm_num)
  have a2 : F.sub 187645295 0 = 187645295 := by rw [Fp.sub, sub_zero]; exact_mod_cast ex 187645295 (by norm_num)
  have a3 : F.sub 403658538 0 = 403658538 := by rw [Fp.sub, sub_zero]; exact_mod_cast ex 403658538 (by norm_num)
  have a4 : F.sub 375290590 0 = 375290590 := by rw [Fp.sub, sub_zero]; exact_mod_cast ex 375290590 (by norm_num)
  have m0 : F.fl 75744625442278710 = 75744625442278704 := by
    have := F.fl_nearest hF (q := 75744625442278710) (n := 4734039090142419) (j := 4) (by norm_num) (by norm_num) (by norm_num) (by norm_num) (by norm_num [abs_lt])
    rw [this]
    norm_num
  have m1 : F.mul 201829269 375290590 = 75744625442278704 := by rw [Fp.mul, ← m0]; norm_num
  have m2 : F.mul 187645295 403658538 = 75744625442278704 := by rw [Fp.mul, ← m0]; norm_num
  have d1 : F.div 75744625442278704 375290590 = 6772266482270207 / 2 ^ 25 := by
    have := F.fl_nearest hF (q := 75744625442278704 / 375290590) (n := 6772266482270207) (j := -25) (by norm_num) (by norm_num) (by norm_num) (by norm_num)
      (by norm_num [abs_lt])
    rw [Fp.div, if_neg (by norm_num), this]
    norm_num
  have d2 : F.div 75744625442278704 403658538 = 187645295 := by
    have := F.fl_nearest hF (q := 75744625442278704 / 403658538) (n := 6296331291197440) (j := -25) (by norm_num) (by norm_num) (by norm_num) (by norm_num)
      (by norm_num [abs_lt])
    rw [Fp.div, if_neg (by norm_num), this]
    norm_num
  have s3 : F.sub (6772266482270207 / 2 ^ 25) 201829269 = -(1 / 2 ^ 25) := by
    have := F.fl_int hF (n := -1) (j := -25) (by norm_num) (by norm_num) (by norm_num)
    rw [Fp.sub, show (6772266482270207 / 2 ^ 25 - 201829269 : ℚ) = ((-1 : ℤ) : ℚ) * 2 ^ (-25 : ℤ) from by norm_num, this]
    norm_num
  have s4 : F.sub 187645295 187645295 = 0 := by rw [Fp.sub, sub_self]; exact F.fl_zero hF
  have hd : ∃ x, IsFinite x ∧ val x = (75744625442278704 : ℚ) := by
    have := isD_int (n := 4734039090142419) (j := 4) (by norm_num) (by norm_num) (by norm_num)
    norm_num at this
    exact this
  obtain ⟨⟨n1, n2⟩, -⟩ := C66_next hF hd
  have h0 := n2 0#64 (by rw [show val 0#64 = 0 from by simp [val, units, sig, expo, frac]]; norm_num)
  rw [show val 0#64 = 0 from by simp [val, units, sig, expo, frac]] at h0
  have big : (75744625442278704 : ℚ) ≤ 2 ^ 990 := le_trans (by norm_num : (75744625442278704 : ℚ) ≤ 2 ^ 60) (pow_le_pow_right₀ (by norm_num) (by norm_num))
  have fin : IsD (F.down 75744625442278704) := by
    have hr : InR 75744625442278704 := inR_of (by rw [abs_of_nonneg (by norm_num)]; exact big.trans (pow_le_pow_right₀ (by norm_num) (by norm_num)))
    refine ⟨_, down_finite (hF _ hr).2.1 ?_, rfl⟩
    show 0 < F.fl _
    rw [F.fl_isD hF hr hd]
    norm_num
  have s5 := F.sub_neg hF fin hd (by rw [abs_of_nonneg h0]; exact n1.le.trans big) (by rw [abs_of_nonneg (by norm_num)]; exact big) n1
  have : F.cross0 ⟨0, 0⟩ ⟨403658538, 375290590⟩ ⟨201829269, 187645295⟩ = false := by
    rw [Fp.cross0]
    dsimp only
    rw [a1, a2, a3, a4, m1, m2, d1, d2, s3, s4, if_pos (by norm_num), if_neg (lt_irrefl _), if_neg (lt_irrefl _), ← Bool.not_eq_true, feq_iff]
    exact s5.ne
  unfold segCoversPt collinear
  rw [show F.arith.cross0 = F.cross0 from rfl, this]
  have e : ∀ a b : ℚ, a ≠ b → feq a b = false := fun a b h => by rw [← Bool.not_eq_true, feq_iff]; exact h
  dsimp only
  rw [e _ _ (by norm_num : (0 : ℚ) ≠ 403658538), e _ _ (by norm_num : (0 : ℚ) ≠ 201829269), e _ _ (by norm_num : (0 : ℚ) ≠ 375290590), e _ _ (by norm_num : (0 : ℚ) ≠ 187645295),
    e _ _ (by norm_num : (403658538 : ℚ) ≠ 201829269)]
  simp

/-- C66 fails for 28 bits: the point (188867911, 190473313) is not on the segment from (0, 0) to (191873747, 193504699), but `tg_segment_covers_point`
says that it is. The products come out different; then `collinear` finds that the first was rounded up and moves it further up, finds that the second was
rounded down and moves it further down, and there they are equal. -/
theorem C66_nudge_wrong : segCoversPt F.arith ⟨⟨0, 0⟩, ⟨191873747, 193504699⟩⟩ ⟨188867911, 190473313⟩ = true ∧
    ¬ OnSeg (⟨⟨0, 0⟩, ⟨191873747, 193504699⟩⟩ : Seg ℚ) ⟨188867911, 190473313⟩ := by
  refine ⟨?_, ?_⟩
  swap
  · rintro ⟨t, -, -, hx, hy⟩
    norm_num at hx hy
    linarith
  have ex : ∀ n : ℤ, |n| ≤ 2 ^ 53 → F.fl n = n := fun n h => by
    have := F.fl_int hF (n := n) (j := 0) h (by norm_num) (by norm_num)
    simpa using this
  have a1 : F.sub 188867911 0 = 188867911 := by rw [Fp.sub, sub_zero]; exact_mod_cast ex 188867911 (by norm_num)
  have a2 : F.sub 190473313 0 = 190473313 := by rw [Fp.sub, sub_zero]; exact_mod_cast ex 190473313 (by norm_num)
  have a3 : F.sub 191873747 0 = 191873747 := by rw [Fp.sub, sub_zero]; exact_mod_cast ex 191873747 (by norm_num)
  have a4 : F.sub 193504699 0 = 193504699 := by rw [Fp.sub, sub_zero]; exact_mod_cast ex 193504699 (by norm_num)
  have m1 : F.mul 188867911 193504699 = (4568353533601724 : ℤ) * 2 ^ (3 : ℤ) :=
    F.fl_nearest hF (by norm_num) (by norm_num) (by norm_num) (by norm_num) (by norm_num [abs_lt])
  have m2 : F.mul 190473313 191873747 = (4568353533601726 : ℤ) * 2 ^ (3 : ℤ) :=
    F.fl_nearest hF (by norm_num) (by norm_num) (by norm_num) (by norm_num) (by norm_num [abs_lt])
  have d1 : F.div ((4568353533601724 : ℤ) * 2 ^ (3 : ℤ)) 193504699 = (6337355476631553 : ℤ) * 2 ^ (-25 : ℤ) := by
    rw [Fp.div, if_neg (by norm_num)]
    exact F.fl_nearest hF (by norm_num) (by norm_num) (by norm_num) (by norm_num) (by norm_num [abs_lt])
  have d2 : F.div ((4568353533601726 : ℤ) * 2 ^ (3 : ℤ)) 191873747 = (6391223828873215 : ℤ) * 2 ^ (-25 : ℤ) := by
    rw [Fp.div, if_neg (by norm_num)]
    exact F.fl_nearest hF (by norm_num) (by norm_num) (by norm_num) (by norm_num) (by norm_num [abs_lt])
  have s3 : F.sub ((6337355476631553 : ℤ) * 2 ^ (-25 : ℤ)) 188867911 = (1 : ℤ) * 2 ^ (-25 : ℤ) := by
    rw [Fp.sub, show (((6337355476631553 : ℤ) : ℚ) * 2 ^ (-25 : ℤ) - 188867911 : ℚ) = ((1 : ℤ) : ℚ) * 2 ^ (-25 : ℤ) from by norm_num]
    exact F.fl_int hF (by norm_num) (by norm_num) (by norm_num)
  have s4 : F.sub ((6391223828873215 : ℤ) * 2 ^ (-25 : ℤ)) 190473313 = (-1 : ℤ) * 2 ^ (-25 : ℤ) := by
    rw [Fp.sub, show (((6391223828873215 : ℤ) : ℚ) * 2 ^ (-25 : ℤ) - 190473313 : ℚ) = ((-1 : ℤ) : ℚ) * 2 ^ (-25 : ℤ) from by norm_num]
    exact F.fl_int hF (by norm_num) (by norm_num) (by norm_num)
  have u1 : F.up ((4568353533601724 : ℤ) * 2 ^ (3 : ℤ)) = (4568353533601725 : ℤ) * 2 ^ (3 : ℤ) := F.up_int hF (by norm_num) (by norm_num) (by norm_num) (by norm_num)
  have u2 : F.down ((4568353533601726 : ℤ) * 2 ^ (3 : ℤ)) = (4568353533601725 : ℤ) * 2 ^ (3 : ℤ) := F.down_int hF (by norm_num) (by norm_num) (by norm_num) (by norm_num)
  have : F.cross0 ⟨0, 0⟩ ⟨191873747, 193504699⟩ ⟨188867911, 190473313⟩ = true := by
    rw [Fp.cross0]
    dsimp only
    rw [a1, a2, a3, a4, m1, m2, d1, d2, s3, s4, u1, u2, if_neg (by norm_num), if_pos (by norm_num), if_pos (by norm_num), feq_iff, Fp.sub, sub_self]
    exact F.fl_zero hF
  unfold segCoversPt collinear
  rw [show F.arith.cross0 = F.cross0 from rfl, this]
  have e : ∀ a b : ℚ, a ≠ b → feq a b = false := fun a b h => by rw [← Bool.not_eq_true, feq_iff]; exact h
  norm_num [Seg.rect, Rect.coversPt, e 0 191873747 (by norm_num), e 0 193504699 (by norm_num)]

end Tg
