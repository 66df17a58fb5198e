import Verif.Spec.Circle
import Verif.Props.Circle
import Verif.Props.Measure
import Verif.Props.Orient
/-!
C75: in exact arithmetic `tg_circle_new` gives a regular polygon on the circle; its perimeter, area, direction, convexity and score, and that they tend to those of the
circle.
-/
namespace Tg

open S Spec

namespace S

theorem angle_real (st : ℝ) (i : Nat) : angle Ops.real st i = i * st := by
  induction i with
  | zero => simp [angle]
  | succ i ih =>
    show angle Ops.real st i + st = _
    rw [ih]; push_cast; ring

theorem edges_range (V : Nat → Pt ℝ) (n : Nat) : edges ((List.range (n + 1)).map V) = (List.range n).map fun i => ⟨V i, V (i + 1)⟩ := by
  induction n with
  | zero => rfl
  | succ n ih =>
    rw [List.range_succ, List.map_append, List.map_singleton, edges_concat _ (V n) _ (by rw [List.range_succ]; simp), ih, List.range_succ (n := n),
      List.map_append]
    rfl

variable {center : Pt ℝ} {r : ℝ} {n : Nat}

theorem corner_wrap (hn : n ≠ 0) (i : Nat) : corner center r n (n + i) = corner center r n i := by
  have hn' : (n : ℝ) ≠ 0 := by exact_mod_cast hn
  have : 2 * Real.pi * ((n + i : ℕ) : ℝ) / n = 2 * Real.pi * i / n + 2 * Real.pi := by push_cast; field_simp; ring
  unfold corner
  rw [this, Real.cos_add_two_pi, Real.sin_add_two_pi]

theorem polygon_range (hn : n ≠ 0) : regularPolygon center r n = (List.range (n + 1)).map (corner center r n) := by
  rw [regularPolygon, List.range_succ, List.map_append, List.map_singleton, ← corner_wrap hn 0, Nat.add_zero]

theorem polygon_close (hn : n ≠ 0) : regularPolygon center r n = closeUp ((List.range n).map (corner center r n)) := by
  obtain ⟨m, rfl⟩ := Nat.exists_eq_succ_of_ne_zero hn
  rw [regularPolygon, closeUp, List.range_succ_eq_map, List.map_cons, List.take_succ_cons, List.take_zero]

/-- The angle of a corner and the next one. -/
theorem corner_next (i : Nat) : 2 * Real.pi * ((i + 1 : ℕ) : ℝ) / n = 2 * Real.pi * i / n + 2 * (Real.pi / n) := by push_cast; ring

theorem corner_side (hr : 0 ≤ r) (hn : 3 ≤ n) (i : Nat) : euclid (corner center r n i) (corner center r n (i + 1)) = 2 * r * Real.sin (Real.pi / n) := by
  have hn' : (3 : ℝ) ≤ n := by exact_mod_cast hn
  have hs : 0 ≤ Real.sin (Real.pi / n) := Real.sin_nonneg_of_nonneg_of_le_pi (by positivity) (by
    rw [div_le_iff₀ (by linarith)]; nlinarith [Real.pi_pos])
  unfold euclid
  rw [Real.sqrt_eq_iff_mul_self_eq (by positivity) (by positivity)]
  unfold corner
  dsimp only
  rw [corner_next]
  generalize 2 * Real.pi * (i : ℝ) / n = a
  generalize Real.pi / (n : ℝ) = d
  rw [Real.cos_add, Real.sin_add, Real.cos_two_mul, Real.sin_two_mul]
  have h1 := Real.sin_sq_add_cos_sq a
  have h2 := Real.sin_sq_add_cos_sq d
  generalize Real.sin a = sa at *
  generalize Real.cos a = ca at *
  generalize Real.sin d = sd at *
  generalize Real.cos d = cd at *
  have e : (2 * cd ^ 2 - 1 - 1) ^ 2 + (2 * sd * cd) ^ 2 = 4 * sd ^ 2 := by
    rw [show cd ^ 2 = 1 - sd ^ 2 by linarith, show (2 * sd * cd) ^ 2 = 4 * sd ^ 2 * cd ^ 2 by ring, show cd ^ 2 = 1 - sd ^ 2 by linarith]
    ring
  linear_combination (4 * r ^ 2 * sd ^ 2) * h1 + (r ^ 2 * (sa ^ 2 + ca ^ 2)) * e

theorem perimeter_polygon (hr : 0 ≤ r) (hn : 3 ≤ n) : perimeter (regularPolygon center r n) true = n * (2 * r * Real.sin (Real.pi / n)) := by
  have hl : (regularPolygon center r n).length = n + 1 := by simp [regularPolygon]
  have hc : (regularPolygon center r n).getLast? = (regularPolygon center r n).head? := by
    obtain ⟨m, rfl⟩ : ∃ m, n = m + 1 := ⟨n - 1, by omega⟩
    rw [regularPolygon, List.getLast?_concat, List.range_succ_eq_map]
    rfl
  unfold perimeter segments
  rw [if_neg (by simp), if_neg (by omega), if_pos hc, polygon_range (by omega), edges_range, List.map_map]
  rw [List.map_congr_left (g := fun _ => 2 * r * Real.sin (Real.pi / n)) (fun i _ => by exact corner_side (center := center) hr hn i), List.map_const', List.length_range,
    List.sum_replicate, nsmul_eq_mul]

theorem shoelace_polygon (hn : 3 ≤ n) : shoelace (regularPolygon center r n) = n * (r ^ 2 * Real.sin (2 * Real.pi / n)) := by
  have hne : (List.range n).map (corner center r n) ≠ [] := by simp; omega
  have ht : (List.range n).map (corner center r n) = ((List.range n).map (corner ⟨0, 0⟩ r n)).map fun p => ⟨p.x + center.x, p.y + center.y⟩ := by
    rw [List.map_map]
    refine List.map_congr_left fun i _ => ?_
    simp [corner, add_comm]
  rw [polygon_close (by omega), shoelace_close hne, ht, shoelace_translate]
  unfold shoelace
  rw [← polygon_close (by omega), polygon_range (by omega), edges_range, List.map_map]
  rw [List.map_congr_left (g := fun _ => r ^ 2 * Real.sin (2 * Real.pi / n)) (fun i _ => ?_), List.map_const', List.length_range,
    List.sum_replicate, nsmul_eq_mul]
  have : 2 * Real.pi / n = 2 * Real.pi * ((i + 1 : ℕ) : ℝ) / n - 2 * Real.pi * i / n := by push_cast; ring
  rw [this, Real.sin_sub]
  simp only [Function.comp, corner]
  ring

/-- Every turn of the polygon. -/
theorem turn_corner (i : Nat) : turn (corner center r n i) (corner center r n (i + 1)) (corner center r n (i + 2)) =
    2 * r ^ 2 * Real.sin (2 * (Real.pi / n)) * (1 - Real.cos (2 * (Real.pi / n))) := by
  unfold turn corner
  dsimp only
  rw [corner_next (i + 1), corner_next i]
  generalize 2 * Real.pi * (i : ℝ) / n = a
  generalize 2 * (Real.pi / (n : ℝ)) = d
  rw [Real.cos_add (a + d), Real.sin_add (a + d), Real.cos_add a, Real.sin_add a]
  have h1 := Real.sin_sq_add_cos_sq a
  have h2 := Real.sin_sq_add_cos_sq d
  generalize Real.sin a = sa at *
  generalize Real.cos a = ca at *
  generalize Real.sin d = sd at *
  generalize Real.cos d = cd at *
  linear_combination (r ^ 2 * ((cd - 1) ^ 2 + sd ^ 2) * sd) * h1 + (r ^ 2 * sd) * h2

theorem turns_polygon (hn : 3 ≤ n) {z : ℝ} (hz : z ∈ turns ((List.range n).map (corner center r n))) :
    z = 2 * r ^ 2 * Real.sin (2 * (Real.pi / n)) * (1 - Real.cos (2 * (Real.pi / n))) := by
  have e : (List.range n).map (corner center r n) ++ ((List.range n).map (corner center r n)).take 2 = (List.range (n + 2)).map (corner center r n) := by
    rw [List.range_add, List.map_append, List.map_map, ← List.map_take, List.take_range, Nat.min_eq_left (by omega)]
    congr 1
    exact List.map_congr_left fun i _ => (corner_wrap (by omega) i).symm
  rw [turns, e] at hz
  obtain ⟨i, hi⟩ := List.getElem?_of_mem hz
  rw [chainTurns_getElem?] at hi
  have hl : i + 2 < n + 2 := by
    by_contra hc
    rw [List.getElem?_eq_none (l := List.map _ _) (i := i + 2) (by simpa using hc)] at hi
    split at hi <;> simp_all
  simp only [List.getElem?_map, List.getElem?_range hl, List.getElem?_range (show i + 1 < n + 2 by omega), List.getElem?_range (show i < n + 2 by omega),
    Option.map_some, turn_corner] at hi
  exact (Option.some.inj hi).symm

theorem turn_nonneg (hn : 3 ≤ n) : 0 ≤ 2 * r ^ 2 * Real.sin (2 * (Real.pi / n)) * (1 - Real.cos (2 * (Real.pi / n))) := by
  have hn' : (3 : ℝ) ≤ n := by exact_mod_cast hn
  have h : Real.pi / n ≤ Real.pi / 2 := by
    apply div_le_div_of_nonneg_left Real.pi_pos.le (by norm_num) (by linarith)
  have hs : 0 ≤ Real.sin (2 * (Real.pi / n)) := Real.sin_nonneg_of_nonneg_of_le_pi (by positivity) (by linarith)
  have := Real.cos_le_one (2 * (Real.pi / n))
  have : 0 ≤ 1 - Real.cos (2 * (Real.pi / n)) := by linarith
  positivity

end S

variable {center : Pt ℝ} {radius : ℝ} {steps : Int} {n : Nat}

/-- C75. In exact arithmetic `tg_circle_new` makes the regular polygon with `steps - 1` corners, at least 3, and the first corner again. -/
theorem C75_polygon (h1 : -2 ^ 31 < steps) (hn : (n : Int) = max 3 (steps - 1)) {fuel : Nat} (hfuel : n + 2 ≤ fuel) :
    realCircle center radius steps fuel = some (.ring (regularPolygon center (max radius 0) n)) := by
  have n0 : (0 : ℝ) < n := by exact_mod_cast (by omega : 0 < n)
  refine circleNew_run (P := corner center (max radius 0) n) h1 hn (fun j hj => ?_) ?_ (fun j => ?_) hfuel
  · rw [angle_real]
    show (j : ℝ) * (360 / n) ≤ 360
    rw [mul_div_assoc', div_le_iff₀ n0]
    have : (j : ℝ) ≤ n := by exact_mod_cast hj.le
    linarith
  · rw [angle_real]
    show (360 : ℝ) < ((n + 1 : ℕ) : ℝ) * (360 / n)
    rw [mul_div_assoc', lt_div_iff₀ n0]
    push_cast
    linarith
  · rw [angle_real]
    show corner _ _ _ _ = Pt.mk (center.x + max radius 0 * Real.cos (Real.pi / 180 * (j * (360 / n)))) (center.y + max radius 0 * Real.sin (Real.pi / 180 * (j * (360 / n))))
    rw [show Real.pi / 180 * ((j : ℝ) * (360 / n)) = 2 * Real.pi * j / n by field_simp; ring]
    rfl

/-- C75. Every corner is on the circle. -/
theorem C75_on_circle {r : ℝ} (hr : 0 ≤ r) {p : Pt ℝ} (hp : p ∈ regularPolygon center r n) : euclid center p = r := by
  have : ∃ a : ℝ, p = ⟨center.x + r * Real.cos a, center.y + r * Real.sin a⟩ := by
    rcases List.mem_append.1 hp with h | h
    · obtain ⟨i, -, rfl⟩ := List.mem_map.1 h
      exact ⟨_, rfl⟩
    · rw [List.mem_singleton.1 h]
      exact ⟨_, rfl⟩
  obtain ⟨a, rfl⟩ := this
  unfold euclid
  rw [Real.sqrt_eq_iff_mul_self_eq (by positivity) hr]
  have h1 := Real.sin_sq_add_cos_sq a
  dsimp only
  linear_combination (r ^ 2) * h1

/-- C75. The perimeter of the polygon and the area, which is positive: it is counterclockwise. -/
theorem C75_measure {r : ℝ} (hr : 0 ≤ r) (hn : 3 ≤ n) :
    perimeter (regularPolygon center r n) true = 2 * n * r * Real.sin (Real.pi / n) ∧
    ringArea (regularPolygon center r n) = some (n * r ^ 2 * Real.sin (2 * Real.pi / n) / 2) ∧
    ringClockwise (regularPolygon center r n) = some false := by
  have hn' : (3 : ℝ) ≤ n := by exact_mod_cast hn
  have hl : 3 ≤ (regularPolygon center r n).length := by simp [regularPolygon]; omega
  have hs : 0 ≤ Real.sin (2 * Real.pi / n) := Real.sin_nonneg_of_nonneg_of_le_pi (by positivity) (by
    rw [div_le_iff₀ (by linarith)]; nlinarith [Real.pi_pos])
  have h0 : 0 ≤ shoelace (regularPolygon center r n) := by rw [shoelace_polygon hn]; positivity
  refine ⟨by rw [perimeter_polygon hr hn]; ring, ?_, ?_⟩
  · rw [C41_area hl, abs_of_nonneg h0, shoelace_polygon hn, mul_assoc]
  · rw [C41_clockwise hl, decide_eq_false (not_lt.2 h0)]

/-- C75. The polygon counts as convex. -/
theorem C75_convex {r : ℝ} (hn : 3 ≤ n) : ringConvex (regularPolygon center r n) = some true := by
  have hl : 3 ≤ (regularPolygon center r n).length := by simp [regularPolygon]; omega
  obtain ⟨l, z, e1, e2⟩ := turns_close (c := (List.range n).map (corner center r n)) (by simp; omega)
  rw [← polygon_close (by omega)] at e2
  have hpos : ∀ z ∈ turns (regularPolygon center r n), 0 ≤ z := by
    rw [e2]
    intro z hz
    rcases List.mem_append.1 hz with h | h
    · rw [turns_polygon (center := center) (r := r) (z := z) hn (by rw [e1]; exact List.mem_append_left _ h)]
      exact turn_nonneg hn
    · simp at h; rw [h]
  obtain ⟨z0, h0⟩ : ∃ z0, (turns (regularPolygon center r n)).head? = some z0 := by
    rw [e2]; cases l <;> simp
  rw [C42_what (by omega) h0]
  exact ⟨fun _ => hpos, fun hz => absurd (hpos z0 (List.mem_of_mem_head? h0)) (not_le.2 hz)⟩

/-- C75. The score of Polsby and Popper of a polygon with a positive radius. -/
theorem C75_score {β : Type*} [LinearOrder β] {f : Ix ℝ β} {A : Arith ℝ} {ix dflt spread : Nat} {ring : Ring ℝ β} (hf : f.Lawful) (hs : 2 ≤ spread)
    {r : ℝ} (hr : 0 < r) (hn : 3 ≤ n) (h : seriesNew f A (regularPolygon center r n) true ix dflt spread = some ring) :
    ringScore ring = some (Real.pi / n / Real.tan (Real.pi / n)) := by
  have hn' : (3 : ℝ) ≤ n := by exact_mod_cast hn
  have hpi := Real.pi_pos
  have h2 : 0 < Real.sin (Real.pi / n) := Real.sin_pos_of_pos_of_lt_pi (by positivity) (by
    rw [div_lt_iff₀ (by linarith)]; nlinarith [Real.pi_pos])
  have h3 : 0 ≤ Real.sin (2 * Real.pi / n) := Real.sin_nonneg_of_nonneg_of_le_pi (by positivity) (by
    rw [div_le_iff₀ (by linarith)]; nlinarith [Real.pi_pos])
  rw [(C73_score hf hs h).1, shoelace_polygon hn, perimeter_polygon hr.le hn, abs_of_nonneg (by positivity)]
  congr 1
  unfold polsbyPopper
  rw [show 2 * Real.pi / n = 2 * (Real.pi / n) by ring, Real.sin_two_mul, Real.tan_eq_sin_div_cos]
  generalize Real.sin (Real.pi / n) = s at *
  generalize Real.cos (Real.pi / n) = c at *
  field_simp

theorem S.tendsto_sin_nat {x : ℝ} (hx : x ≠ 0) : Filter.Tendsto (fun n : ℕ => n * Real.sin (x / n)) Filter.atTop (nhds x) := by
  have h1 : Filter.Tendsto (fun n : ℕ => x / n) Filter.atTop (nhdsWithin 0 {0}ᶜ) := by
    rw [tendsto_nhdsWithin_iff]
    refine ⟨tendsto_const_div_atTop_nhds_zero_nat x, ?_⟩
    filter_upwards [Filter.eventually_gt_atTop 0] with n hn
    have : (n : ℝ) ≠ 0 := by exact_mod_cast hn.ne'
    simp [hx, this]
  have h2 := (Real.hasDerivAt_sin 0).tendsto_slope_zero.comp h1
  have h3 := h2.const_mul x
  rw [Real.cos_zero, mul_one] at h3
  refine h3.congr' ?_
  filter_upwards [Filter.eventually_gt_atTop 0] with n hn
  have : (n : ℝ) ≠ 0 := by exact_mod_cast hn.ne'
  simp only [Function.comp, zero_add, Real.sin_zero, sub_zero, smul_eq_mul]
  field_simp

/-- C75. The perimeter and the area tend to those of the circle. -/
theorem C75_limit {r : ℝ} (hr : 0 ≤ r) :
    Filter.Tendsto (fun n => perimeter (regularPolygon center r n) true) Filter.atTop (nhds (2 * Real.pi * r)) ∧
    Filter.Tendsto (fun n => (ringArea (regularPolygon center r n)).getD 0) Filter.atTop (nhds (Real.pi * r ^ 2)) := by
  constructor
  · rw [show 2 * Real.pi * r = 2 * r * Real.pi by ring]
    refine ((tendsto_sin_nat Real.pi_ne_zero).const_mul (2 * r)).congr' ?_
    filter_upwards [Filter.eventually_ge_atTop 3] with n hn
    rw [(C75_measure hr hn).1]
    ring
  · rw [show Real.pi * r ^ 2 = r ^ 2 / 2 * (2 * Real.pi) by ring]
    refine ((tendsto_sin_nat (x := 2 * Real.pi) (by positivity)).const_mul (r ^ 2 / 2)).congr' ?_
    filter_upwards [Filter.eventually_ge_atTop 3] with n hn
    rw [(C75_measure hr hn).2.1, Option.getD_some]
    ring

/-- `tg_circle_new` with 5 steps and the radius 1 makes a square with the perimeter `4 √2` and the area 2. -/
example : realCircle ⟨3, 4⟩ 1 5 6 = some (.ring (regularPolygon ⟨3, 4⟩ 1 4)) ∧ perimeter (regularPolygon ⟨3, 4⟩ 1 4) true = 4 * √2 ∧
    ringArea (regularPolygon ⟨3, 4⟩ 1 4) = some 2 := by
  refine ⟨?_, ?_, ?_⟩
  · have := C75_polygon (center := ⟨3, 4⟩) (radius := 1) (steps := 5) (n := 4) (by norm_num) (by norm_num) (fuel := 6) (by norm_num)
    rwa [max_eq_left (by norm_num)] at this
  · rw [(C75_measure (by norm_num) (by norm_num)).1]
    push_cast
    rw [Real.sin_pi_div_four]
    ring
  · rw [(C75_measure (by norm_num) (by norm_num)).2.1]
    push_cast
    rw [show 2 * Real.pi / 4 = Real.pi / 2 by ring, Real.sin_pi_div_two]
    norm_num

/-- A ring of the score exists. -/
example {β : Type*} [LinearOrder β] {f : Ix ℝ β} {A : Arith ℝ} (hf : f.Lawful) :
    ∃ ring, seriesNew f A (regularPolygon ⟨3, 4⟩ 1 4) true 1 1 16 = some ring ∧ ringScore ring = some (Real.pi / 4) := by
  obtain ⟨ring, h, -⟩ := seriesNew_ok (f := f) hf A (regularPolygon ⟨3, 4⟩ 1 4) true (ix := 1) (dflt := 1) (ixspread := 16) (by norm_num)
    (by simp [regularPolygon]; decide)
  refine ⟨ring, h, ?_⟩
  rw [C75_score hf (by norm_num) one_pos (by norm_num) h]
  push_cast
  rw [Real.tan_pi_div_four, div_one]

end Tg
