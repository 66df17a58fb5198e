import Verif.Lemmas.Ieee
import Verif.Lemmas.Line
/-!
C66: with IEEE doubles the predicates on segments give the exact answers for fixed-point coordinates. `F.arith` is the arithmetic of the code with
each operation rounded (`Model/Ieee`); `Rounding F.rnd` says that it rounds to the nearest double, of two to the even one (`Spec/Double`).
-/
namespace Tg

open S Spec.Double

variable {F : Fp} (hF : Rounding F.rnd) {k : ℤ} (h1 : -400 ≤ k) (h2 : k ≤ 400)
include hF h1 h2

/-- C66. `collinear` answers whether the third point lies on the line through the other two. -/
theorem C66_collinear {a b p : Pt ℚ} (ha : GridPt k a) (hb : GridPt k b) (hp : GridPt k p) (hab : a ≠ b) :
    collinear F.arith a b p = true ↔ (b.x - a.x) * (p.y - a.y) = (b.y - a.y) * (p.x - a.x) := by
  rw [collinear_grid hF h1 h2 1 (fun _ => 0) ha hb hp, exact_collinear, exactCollinear_iff hab]
  constructor <;> intro h <;> linarith

/-- C66. `tg_raycast` answers `ON` exactly for the points of the closed segment. -/
theorem C66_ray_on {s : Seg ℚ} {p : Pt ℚ} (hs : GridSeg k s) (hp : GridPt k p) : raycast F.arith s p = .on ↔ OnSeg s p := by
  have hw : (0 : ℚ) < 2 ^ k / 2 ^ 28 := div_pos (zpow_pos (by norm_num) _) (by norm_num)
  rw [ray_grid hF h1 h2 hw le_rfl (fun _ => 0) hs hp, C26_on]

/-- C66. `tg_raycast` answers `IN` exactly if the ray to the right crosses the segment without its upper end. -/
theorem C66_ray_in {s : Seg ℚ} {p : Pt ℚ} (hs : GridSeg k s) (hp : GridPt k p) : raycast F.arith s p = .in_ ↔ Crosses s p := by
  have hw : (0 : ℚ) < 2 ^ k / 2 ^ 28 := div_pos (zpow_pos (by norm_num) _) (by norm_num)
  rw [ray_grid hF h1 h2 hw le_rfl (fun _ => 0) hs hp, raycast_in_iff hw (small_grid hF h1 h2 le_rfl hs hp)]

/-- C66. `tg_segment_intersects_segment` answers whether the closed segments have a point in common. (The common point is any rational point.) -/
theorem C66_intersects {s t : Seg ℚ} (hs : GridSeg k s) (ht : GridSeg k t) : segIntersects F.arith s t = true ↔ Share s t := by
  rw [← C27_intersects (ε := 1) (ns := fun _ => 0), segIntersects, segIntersects]
  rw [show F.arith.segX s t = F.segX s t from rfl, segX_grid hF h1 h2 1 hs ht]
  rfl

/-- C66. `tg_segment_covers_point` answers whether the point lies on the closed segment. -/
theorem C66_covers_point {s : Seg ℚ} {p : Pt ℚ} (hs : GridSeg k s) (hp : GridPt k p) : segCoversPt F.arith s p = true ↔ OnSeg s p := by
  rw [← segCoversPt_iff (ε := 1) (ns := fun _ => 0), segCoversPt, segCoversPt, collinear_grid hF h1 h2 1 (fun _ => 0) hs.1 hs.2 hp]

/-- C66. `tg_segment_covers_segment` answers whether the second segment is a subset of the first. -/
theorem C66_covers_segment {s t : Seg ℚ} (hs : GridSeg k s) (ht : GridSeg k t) : segCoversSeg F.arith s t = true ↔ ∀ p, OnSeg t p → OnSeg s p := by
  rw [← segCoversSeg_iff (ε := 1) (ns := fun _ => 0), segCoversSeg, segCoversSeg, Bool.and_eq_true, Bool.and_eq_true, C66_covers_point hF h1 h2 hs ht.1,
    C66_covers_point hF h1 h2 hs ht.2, segCoversPt_iff, segCoversPt_iff]

omit hF h1 h2

/-- Whole numbers of up to 24 bits are on the grid. -/
theorem S.onGrid_int {k n : ℤ} (hn : |n| ≤ 2 ^ 24) : OnGrid k (n * 2 ^ k) := ⟨n, hn, rfl⟩

/-- There is a rounding. -/
example : ∃ F : Fp, Rounding F.rnd := by
  obtain ⟨rnd, h, -⟩ := Double.exists_rounding
  exact ⟨⟨rnd, fun _ => 0, fun _ => 0⟩, h⟩

/-- Degrees in steps of `2 ^ -16`: two segments that meet in a point that is not on the grid. -/
example : GridSeg (-16) ⟨⟨-180, -90⟩, ⟨180, 90⟩⟩ ∧ GridSeg (-16) ⟨⟨-1 / 65536, 1 / 65536⟩, ⟨1 / 65536, -90⟩⟩ := by
  refine ⟨⟨⟨⟨-11796480, by norm_num, by norm_num⟩, ⟨-5898240, by norm_num, by norm_num⟩⟩, ⟨11796480, by norm_num, by norm_num⟩, ⟨5898240, by norm_num, by norm_num⟩⟩,
    ⟨⟨-1, by norm_num, by norm_num⟩, ⟨1, by norm_num, by norm_num⟩⟩, ⟨1, by norm_num, by norm_num⟩, ⟨-5898240, by norm_num, by norm_num⟩⟩

include hF

/-- The segments above have a point in common, and the code says so, whatever the rounding of numbers out of range. -/
example : segIntersects F.arith ⟨⟨-180, -90⟩, ⟨180, 90⟩⟩ ⟨⟨-1 / 65536, 1 / 65536⟩, ⟨1 / 65536, -90⟩⟩ = true := by
  refine (C66_intersects hF (k := -16) (by norm_num) (by norm_num) ?_ ?_).2 ?_
  · exact ⟨⟨⟨-11796480, by norm_num, by norm_num⟩, ⟨-5898240, by norm_num, by norm_num⟩⟩, ⟨11796480, by norm_num, by norm_num⟩, ⟨5898240, by norm_num, by norm_num⟩⟩
  · exact ⟨⟨⟨-1, by norm_num, by norm_num⟩, ⟨1, by norm_num, by norm_num⟩⟩, ⟨1, by norm_num, by norm_num⟩, ⟨-5898240, by norm_num, by norm_num⟩⟩
  · refine (C27_intersects (ε := 1) (ns := fun _ => 0) _ _).1 ?_
    decide +kernel

/-- C66 fails for 54 bits: the points (-2^-53, 0), (1, 1) and (0, 2^-53) are not on a line, but `collinear` says that they are, because the difference
1 + 2^-53 is rounded to 1. -/
theorem C66_bits_needed : collinear F.arith ⟨-(1 / 2 ^ 53), 0⟩ ⟨1, 1⟩ ⟨0, 1 / 2 ^ 53⟩ = true ∧
    (1 - -(1 / 2 ^ 53) : ℚ) * (1 / 2 ^ 53 - 0) ≠ (1 - 0) * (0 - -(1 / 2 ^ 53)) := by
  refine ⟨?_, by norm_num⟩
  have e0 : F.fl 0 = 0 := F.fl_zero hF
  have e1 : F.fl 1 = 1 := F.fl_one hF
  have e2 : F.fl (1 + 1 / 2 ^ 53) = 1 := F.fl_tie hF
  have e3 : F.fl (1 / 2 ^ 53) = 1 / 2 ^ 53 := by
    have := F.fl_int hF (n := 1) (j := -53) (by norm_num) (by norm_num) (by norm_num)
    norm_num at this
    norm_num
    exact this
  have k1 : F.sub 0 (-(1 / 2 ^ 53)) = 1 / 2 ^ 53 := by rw [Fp.sub, sub_neg_eq_add, zero_add, e3]
  have k2 : F.sub (1 / 2 ^ 53) 0 = 1 / 2 ^ 53 := by rw [Fp.sub, sub_zero, e3]
  have k3 : F.sub 1 (-(1 / 2 ^ 53)) = 1 := by rw [Fp.sub, sub_neg_eq_add, e2]
  have k4 : F.sub 1 0 = 1 := by rw [Fp.sub, sub_zero, e1]
  have k5 : F.mul (1 / 2 ^ 53) 1 = 1 / 2 ^ 53 := by rw [Fp.mul, mul_one, e3]
  have k6 : F.div (1 / 2 ^ 53) 1 = 1 / 2 ^ 53 := by rw [Fp.div, if_neg one_ne_zero, div_one, e3]
  have k7 : F.sub (1 / 2 ^ 53) (1 / 2 ^ 53) = 0 := by rw [Fp.sub, sub_self, e0]
  have : F.cross0 ⟨-(1 / 2 ^ 53), 0⟩ ⟨1, 1⟩ ⟨0, 1 / 2 ^ 53⟩ = true := by
    rw [Fp.cross0]
    dsimp only
    rw [k1, k2, k3, k4, k5, k6, k7]
    simp only [lt_irrefl, if_false, k7]
    simp [feq]
  unfold collinear
  dsimp only
  split_ifs <;> first | rfl | exact this | (simp [feq] at *; done) | (exfalso; revert ‹_›; norm_num [feq])

end Tg
