import Verif.Model.Circle
import Verif.Lemmas.IeeeRing
/-!
C70: the points of a circle. The angle is a sum of doubles, and the loop ends by comparing it with 360. For up to 2^25 points the array is filled exactly;
for a larger number the rounding makes the loop write behind its end.
-/
namespace Tg

open S Spec.Double

variable {F : Fp} (hF : Rounding F.rnd) (T : Trig ℚ)

/-- The angles. -/
def S.angle {α : Type*} [Zero α] (o : Ops α) (step : α) : Nat → α
  | 0 => 0
  | i + 1 => o.add (angle o step i) step

theorem S.circleLoop_run {α : Type*} [LinearOrder α] [Zero α] [OfNat α 360] {o : Ops α} (pt : α → Pt α) (step : α) :
    ∀ (k i fuel : Nat) (buf : List (Option (Pt α))), k + i ≤ buf.length → (∀ j < k + i, angle o step j ≤ 360) →
    ∃ buf', buf'.length = buf.length ∧ (∀ j, (j < i ∨ k + i ≤ j) → buf'[j]? = buf[j]?) ∧
      (∀ j, i ≤ j → j < k + i → buf'[j]? = some (some (pt (angle o step j)))) ∧
      circleLoop o pt step (k + fuel) i (angle o step i) buf = circleLoop o pt step fuel (k + i) (angle o step (k + i)) buf'
  | 0, i, fuel, buf, h1, h2 => ⟨buf, rfl, fun _ _ => rfl, fun j a b => by omega, by rw [Nat.zero_add, Nat.zero_add]⟩
  | k + 1, i, fuel, buf, h1, h2 => by
    obtain ⟨buf', a1, a2, a3, a4⟩ := circleLoop_run pt step k (i + 1) fuel (buf.set i (some (pt (angle o step i)))) (by simp; omega)
      (fun j hj => h2 j (by omega))
    refine ⟨buf', by simpa using a1, fun j hj => ?_, fun j b1 b2 => ?_, ?_⟩
    · rw [a2 j (by omega), List.getElem?_set_ne (by omega)]
    · rcases Nat.eq_or_lt_of_le b1 with rfl | hlt
      · rw [a2 i (by omega), List.getElem?_set_self (by omega)]
      · exact a3 j hlt (by omega)
    · rw [Nat.add_right_comm, circleLoop, if_pos (h2 i (by omega)), if_pos (by omega)]
      rw [show o.add (angle o step i) step = angle o step (i + 1) from rfl, a4, show k + (i + 1) = k + 1 + i by omega]

/-- If the first `n` angles are at most 360 and the one of `n + 1` is not, then the array is filled and the last point is the first one. -/
theorem S.circleNew_run {α : Type*} [LinearOrder α] [Zero α] [OfNat α 360] {o : Ops α} {T : Trig α} {dbl : Nat → α} {center : Pt α} {radius : α} {steps : Int}
    (h1 : -2 ^ 31 < steps) {n : Nat} (hn : (n : Int) = max 3 (steps - 1)) (low : ∀ j < n, angle o (o.div 360 (dbl n)) j ≤ 360)
    (high : 360 < angle o (o.div 360 (dbl n)) (n + 1)) {P : Nat → Pt α} (hP : ∀ j, P j = circlePt o T center (max radius 0) (angle o (o.div 360 (dbl n)) j))
    {fuel : Nat} (hfuel : n + 2 ≤ fuel) : circleNew o T dbl center radius steps fuel = some (.ring ((List.range n).map P ++ [P 0])) := by
  have e1 : (if steps - 1 < 3 then 3 else steps - 1).toNat = n := by split_ifs <;> omega
  have e2 : (if radius < 0 then 0 else radius) = max radius 0 := by
    split_ifs with h
    · rw [max_eq_right h.le]
    · rw [max_eq_left (not_lt.1 h)]
  have n3 : 3 ≤ n := by omega
  set st := o.div 360 (dbl n)
  -- the buffer after n or n + 1 writes
  have fin : ∀ fuel, ∃ buf : List (Option (Pt α)), buf.length = n + 1 ∧ (∀ j, j < n → buf[j]? = some (some (P j))) ∧
      circleLoop o (circlePt o T center (max radius 0)) st (n + (fuel + 2)) 0 0 (List.replicate (n + 1) none) = some (.inr buf) := by
    intro fuel
    obtain ⟨buf, b1, -, b3, b4⟩ := circleLoop_run (o := o) (circlePt o T center (max radius 0)) st n 0 (fuel + 2) (List.replicate (n + 1) none) (by simp)
      (by simpa using low)
    rw [show angle o st 0 = 0 from rfl] at b4
    rw [List.length_replicate] at b1
    by_cases hl : angle o st n ≤ 360
    · refine ⟨buf.set n (some (circlePt o T center (max radius 0) (angle o st n))), by simpa using b1, fun j hj => ?_, ?_⟩
      · rw [List.getElem?_set_ne (by omega), hP]
        exact b3 j (by omega) (by omega)
      · rw [b4, circleLoop, Nat.add_zero, if_pos hl, if_pos (by omega), circleLoop,
          if_neg (not_le.2 (show 360 < o.add (angle o st n) st from high))]
    · exact ⟨buf, b1, fun j hj => by rw [hP]; exact b3 j (by omega) (by omega), by rw [b4, circleLoop, Nat.add_zero, if_neg hl]⟩
  obtain ⟨buf, b1, b2, b3⟩ := fin (fuel - (n + 2))
  rw [show n + (fuel - (n + 2) + 2) = fuel by omega] at b3
  unfold circleNew
  rw [if_neg (by omega)]
  dsimp only
  rw [e1, e2, b3]
  dsimp only
  have hb : buf.set n (buf[0]?.getD none) = ((List.range n).map P ++ [P 0]).map some := by
    apply List.ext_getElem?
    intro j
    rcases Nat.lt_trichotomy j n with h | rfl | h
    · rw [List.getElem?_set_ne (by omega), b2 j h, List.getElem?_map, List.getElem?_append_left (by simpa using h), List.getElem?_map,
        List.getElem?_range h]
      rfl
    · rw [List.getElem?_set_self (by omega), b2 0 (by omega), List.getElem?_map, List.getElem?_append_right (by simp)]
      simp
    · rw [List.getElem?_eq_none (by simp; omega), List.getElem?_eq_none (by simp; omega)]
  rw [hb]
  have : ∀ l : List (Pt α), (l.map some).mapM id = some l := by
    intro l
    induction l with
    | nil => rfl
    | cons a l ih => rw [List.map_cons, List.mapM_cons, ih]; rfl
  rw [this]

/-- The angles, with doubles. -/
abbrev S.Fp.angle (F : Fp) (step : ℚ) := S.angle (F.ops id) step

include hF

theorem S.fl_near {q : ℚ} (h1 : 2 ^ (-1000 : ℤ) ≤ q) (h2 : q ≤ 512) : |F.fl q - q| ≤ q / 2 ^ 53 := by
  have q0 : 0 < q := lt_of_lt_of_le (zpow_pos (by norm_num) _) h1
  have := F.fl_err hF (q := q) (by rwa [abs_of_pos q0]) (by
    rw [abs_of_pos q0]
    refine h2.trans ?_
    rw [show (512 : ℚ) = 2 ^ (9 : ℤ) from by norm_num]
    exact zpow_le_zpow_right₀ (by norm_num) (by norm_num))
  rwa [abs_sub_comm, abs_of_pos q0] at this

omit hF in
theorem S.small_pow : (2 : ℚ) ^ (-1000 : ℤ) ≤ 1 / 2 ^ 40 := by
  rw [show (1 : ℚ) / 2 ^ 40 = 2 ^ (-40 : ℤ) from by norm_num]
  exact zpow_le_zpow_right₀ (by norm_num) (by norm_num)

/-- The angles are close to the multiples of the exact step. -/
theorem S.angle_near {n : Nat} (n3 : 3 ≤ n) (hn : n ≤ 2 ^ 25) : ∀ i, i ≤ n + 1 →
    |F.angle (F.div 360 (F.fl n)) i - i * (360 / n)| ≤ i / 2 ^ 43 := by
  have hn' : (n : ℚ) ≤ 2 ^ 25 := by exact_mod_cast hn
  have n3' : (3 : ℚ) ≤ n := by exact_mod_cast n3
  have fn : F.fl n = n := fl_nat hF (by omega)
  have d0 : (360 : ℚ) / n ≤ 120 := by rw [div_le_iff₀ (by linarith)]; linarith
  have d1 : (1 : ℚ) / 2 ^ 17 ≤ 360 / n := by rw [div_le_div_iff₀ (by norm_num) (by linarith)]; linarith
  have hst : |F.div 360 (F.fl n) - 360 / n| ≤ 120 / 2 ^ 53 := by
    rw [fn, Fp.div, if_neg (by linarith)]
    refine (fl_near hF (small_pow.trans (by linarith)) (by linarith)).trans ?_
    exact div_le_div_of_nonneg_right d0 (by norm_num)
  generalize F.div 360 (F.fl n) = st at hst
  have hnd : (n : ℚ) * (360 / n) = 360 := by field_simp
  generalize (360 : ℚ) / n = d at d0 d1 hst hnd
  intro i
  induction i with
  | zero => intro _; simp [S.angle]
  | succ i ih =>
    intro hi
    have ih := ih (by omega)
    have hi' : (i : ℚ) ≤ n := by exact_mod_cast (by omega : i ≤ n)
    have i0 : (0 : ℚ) ≤ i := Nat.cast_nonneg i
    have e1 : (i : ℚ) * d ≤ 360 := by nlinarith
    rw [abs_le] at ih hst
    have hie : (i : ℚ) / 2 ^ 43 ≤ 1 / 2 ^ 18 := by rw [div_le_div_iff₀ (by norm_num) (by norm_num)]; linarith
    have low : (1 : ℚ) / 2 ^ 40 ≤ F.angle st i + st := by
      have : (0 : ℚ) ≤ i * d := by nlinarith
      linarith
    have q := fl_near hF (q := F.angle st i + st) (small_pow.trans low) (by linarith)
    have q2 : (F.angle st i + st) / 2 ^ 53 ≤ 481 / 2 ^ 53 := div_le_div_of_nonneg_right (by linarith) (by norm_num)
    have q := q.trans q2
    rw [show F.angle st (i + 1) = F.fl (F.angle st i + st) from rfl, abs_le]
    rw [abs_le] at q
    push_cast
    have e : ((i : ℚ) + 1) / 2 ^ 43 = i / 2 ^ 43 + 1 / 2 ^ 43 := by ring
    rw [e]
    constructor <;> linarith

/-- C70. For up to 2^25 points, `tg_circle_new_ix` fills its array and nothing else; the last point is the first one, and each point is that of an angle
which differs from its multiple of `360 / n` by at most `i / 2^43`. -/
theorem C70_circle (center : Pt ℚ) (radius : ℚ) (steps : Int) (h1 : -2 ^ 31 < steps) (h2 : steps ≤ 2 ^ 25) {n : Nat} (hn : (n : Int) = max 3 (steps - 1)) :
    ∃ pts, (∀ fuel, n + 2 ≤ fuel → F.circleNew T center radius steps fuel = some (.ring pts)) ∧ pts.length = n + 1 ∧ pts.head? = pts.getLast? ∧
      ∀ i < n, ∃ th : ℚ, |th - i * (360 / n)| ≤ i / 2 ^ 43 ∧ pts[i]? = some (F.circlePt T center (max radius 0) th) := by
  have n3 : 3 ≤ n := by omega
  have hn2 : n ≤ 2 ^ 25 := by omega
  have near := angle_near hF n3 hn2
  set st := F.div 360 (F.fl n)
  have n3' : (3 : ℚ) ≤ n := by exact_mod_cast n3
  have hn' : (n : ℚ) ≤ 2 ^ 25 := by exact_mod_cast hn2
  have hnd : (n : ℚ) * (360 / n) = 360 := by field_simp
  have d1 : (300 : ℚ) / 2 ^ 25 ≤ 360 / n := by rw [div_le_div_iff₀ (by norm_num) (by linarith)]; linarith
  have low : ∀ j < n, F.angle st j ≤ 360 := by
    intro j hj
    have h := (abs_le.1 (near j (by omega))).2
    have hj' : (j : ℚ) + 1 ≤ n := by exact_mod_cast hj
    have a : (j : ℚ) / 2 ^ 43 ≤ 1 / 2 ^ 18 := by rw [div_le_div_iff₀ (by norm_num) (by norm_num)]; linarith
    have b : ((j : ℚ) + 1) * (360 / n) ≤ n * (360 / n) := mul_le_mul_of_nonneg_right hj' (by linarith)
    linarith
  have high : 360 < F.angle st (n + 1) := by
    have h := (abs_le.1 (near (n + 1) le_rfl)).1
    push_cast at h
    have a : ((n : ℚ) + 1) / 2 ^ 43 ≤ (1 + 1 / 2 ^ 10) / 2 ^ 18 := by rw [div_le_div_iff₀ (by norm_num) (by norm_num)]; linarith
    have b : ((n : ℚ) + 1) * (360 / n) = 360 + 360 / n := by rw [add_mul, hnd, one_mul]
    linarith
  set P : Nat → Pt ℚ := fun j => F.circlePt T center (max radius 0) (F.angle st j)
  have pl : ((List.range n).map P ++ [P 0]).length = n + 1 := by simp
  refine ⟨(List.range n).map P ++ [P 0], fun fuel hfuel => ?_, pl, ?_, fun i hi => ⟨F.angle st i, near i (by omega), ?_⟩⟩
  · exact circleNew_run h1 hn low high (fun _ => rfl) hfuel
  · obtain ⟨m, rfl⟩ : ∃ m, n = m + 1 := ⟨n - 1, by omega⟩
    rw [List.getLast?_append, List.range_succ_eq_map]
    simp
  · rw [List.getElem?_append_left (by simpa using hi), List.getElem?_map, List.getElem?_range hi]
    rfl

omit hF in
/-- A circle of 64 points; for fewer than 4 points it has 4, and the same with a negative number. -/
example (hF : Rounding F.rnd) : (∃ pts, F.circleNew T ⟨-112, 33⟩ 4 64 100 = some (.ring pts) ∧ pts.length = 64) ∧
    ∃ pts, F.circleNew T ⟨-112, 33⟩ 4 (-7) 100 = some (.ring pts) ∧ pts.length = 4 := by
  obtain ⟨p, h1, h2, -⟩ := C70_circle hF T ⟨-112, 33⟩ 4 64 (by norm_num) (by norm_num) (n := 63) (by norm_num)
  obtain ⟨q, k1, k2, -⟩ := C70_circle hF T ⟨-112, 33⟩ 4 (-7) (by norm_num) (by norm_num) (n := 3) (by norm_num)
  exact ⟨⟨p, h1 100 (by norm_num), h2⟩, q, k1 100 (by norm_num), k2⟩

omit hF in
/-- The doubles from 256 on are multiples of `2^-44`. -/
theorem S.double_grid {x : F64} (h : 256 ≤ val x) : ∃ m : ℕ, val x = m / 2 ^ 44 := by
  have h0 : neg x = false := by
    by_contra c
    rw [Bool.not_eq_false] at c
    rw [Double.val_mag, c, Double.sg, if_pos rfl, neg_one_mul] at h
    have : (0 : ℚ) ≤ Double.U (Double.mag x) / 2 ^ 1074 := div_nonneg (Nat.cast_nonneg _) Double.K_pos.le
    linarith
  rw [Double.val_mag, h0] at h ⊢
  have e : Double.sg false = 1 := rfl
  rw [e, one_mul] at h ⊢
  rw [le_div_iff₀ Double.K_pos] at h
  have h' : 256 * 2 ^ 1074 ≤ Double.U (Double.mag x) := by exact_mod_cast h
  clear h e h0
  obtain ⟨s, i, hs, hU⟩ : ∃ s i, s < 2 ^ 53 ∧ Double.U (Double.mag x) = s * 2 ^ i := by
    refine ⟨_, _, ?_, rfl⟩
    split_ifs <;> omega
  rw [hU] at h' ⊢
  have hi : 1030 ≤ i := by
    by_contra c
    have a : 2 ^ i ≤ 2 ^ 1029 := Nat.pow_le_pow_right (by norm_num) (by omega)
    have b : s * 2 ^ i < 2 ^ 53 * 2 ^ 1029 := Nat.mul_lt_mul_of_lt_of_le hs a (by positivity)
    rw [show 256 * 2 ^ 1074 = 2 ^ 53 * 2 ^ 1029 by rw [show (256 : ℕ) = 2 ^ 8 from rfl, ← pow_add, ← pow_add]] at h'
    omega
  refine ⟨s * 2 ^ (i - 1030), ?_⟩
  rw [div_eq_div_iff Double.K_pos.ne' (by positivity)]
  push_cast
  rw [mul_assoc, mul_assoc, ← pow_add, ← pow_add, show i - 1030 + 1074 = i + 44 by omega]

/-- From 256 on, adding less than `2^-21 + 2^-45` adds at most `2^-21`. -/
theorem S.add_stuck {x d : ℚ} {m : ℕ} (h0 : 0 ≤ x) (hx : x ≤ 256 + m / 2 ^ 21) (hm : m ≤ 104 * 2 ^ 21) (d0 : 0 ≤ d) (hd : d < 1 / 2 ^ 21 + 1 / 2 ^ 45) :
    F.add x d ≤ 256 + (m + 1 : ℕ) / 2 ^ 21 := by
  have hm' : (m : ℚ) ≤ 104 * 2 ^ 21 := by exact_mod_cast hm
  have hm0 : (0 : ℚ) ≤ m := Nat.cast_nonneg m
  have hR : InR (x + d) := inR_of (by
    rw [abs_of_nonneg (by linarith)]
    have : x + d ≤ 2 ^ 10 := by linarith
    exact this.trans (pow_le_pow_right₀ (by norm_num) (by norm_num)))
  by_contra c
  rw [not_le] at c
  push_cast at c
  obtain ⟨v, hv⟩ := double_grid (x := F.rnd (x + d)) (by
    have : (256 : ℚ) ≤ 256 + (m + 1) / 2 ^ 21 := by
      have : (0 : ℚ) ≤ (m + 1) / 2 ^ 21 := by positivity
      linarith
    exact this.trans c.le)
  have near := ((hF _ hR).2.2)
  have y : IsD (256 + (m + 1 : ℚ) / 2 ^ 21) := by
    have := isD_int (n := (256 * 2 ^ 21 + (m + 1) : ℤ)) (j := -21) (by rw [abs_of_nonneg (by positivity)]; omega) (by norm_num) (by norm_num)
    convert this using 1
    push_cast
    rw [zpow_neg]
    norm_num
    ring
  obtain ⟨z, z1, z2⟩ := y
  have near := (near z z1).1
  rw [z2, hv] at near
  change _ < val (F.rnd (x + d)) at c
  rw [hv] at c
  have hv' : 256 * 2 ^ 44 + (m + 1) * 2 ^ 23 + 1 ≤ v := by
    have : (256 * 2 ^ 44 + (m + 1) * 2 ^ 23 : ℚ) < v := by
      rw [lt_div_iff₀ (by positivity)] at c
      refine lt_of_eq_of_lt ?_ c
      ring
    exact_mod_cast this
  have hv'' : (256 + (m + 1 : ℚ) / 2 ^ 21) + 1 / 2 ^ 44 ≤ v / 2 ^ 44 := by
    rw [le_div_iff₀ (by positivity)]
    have : (256 * 2 ^ 44 + (m + 1) * 2 ^ 23 + 1 : ℚ) ≤ v := by exact_mod_cast hv'
    refine le_of_eq_of_le ?_ this
    ring
  have hsum : x + d < (256 + (m + 1 : ℚ) / 2 ^ 21) + 1 / 2 ^ 45 := by
    have : (m + 1 : ℚ) / 2 ^ 21 = m / 2 ^ 21 + 1 / 2 ^ 21 := by ring
    rw [this]
    linarith
  generalize (256 + (m + 1 : ℚ) / 2 ^ 21) = w at *
  generalize (v : ℚ) / 2 ^ 44 = u at *
  rw [abs_of_nonpos (by linarith)] at near
  rcases le_total (x + d) w with k | k
  · rw [abs_of_nonpos (by linarith)] at near
    linarith
  · rw [abs_of_nonneg (by linarith)] at near
    linarith

/-- C70 fails for 754974677 points: the loop writes behind the end of the array. -/
theorem C70_overflow (center : Pt ℚ) (radius : ℚ) (fuel : Nat) (hfuel : 754974678 ≤ fuel) :
    F.circleNew T center radius 754974677 fuel = some (.wild 754974677) := by
  have fn : F.fl (754974676 : ℕ) = (754974676 : ℕ) := fl_nat hF (by norm_num)
  have hst : F.div 360 (F.fl (754974676 : ℕ)) < 1 / 2 ^ 21 + 1 / 2 ^ 45 ∧ 0 ≤ F.div 360 (F.fl (754974676 : ℕ)) := by
    rw [fn, Fp.div, if_neg (by norm_num)]
    have := abs_le.1 (fl_near hF (q := 360 / (754974676 : ℕ)) (small_pow.trans (by norm_num)) (by norm_num))
    norm_num at this ⊢
    constructor <;> linarith
  generalize hs : F.div 360 (F.fl (754974676 : ℕ)) = st at hst
  obtain ⟨s1, s0⟩ := hst
  have rng : ∀ x : ℚ, 0 ≤ x → x ≤ 500 → InR x := fun x x0 h => inR_of (by
    rw [abs_of_nonneg x0]
    have : x ≤ 2 ^ 10 := by linarith
    exact this.trans (pow_le_pow_right₀ (by norm_num) (by norm_num)))
  have up1 : ∀ i : ℕ, i ≤ 536870880 → 0 ≤ F.angle st i ∧ F.angle st i ≤ i * (1 / 2 ^ 21 + 1 / 2 ^ 45) := by
    intro i
    induction i with
    | zero => intro _; simp [S.angle]
    | succ i ih =>
      intro hi
      obtain ⟨ih0, ih⟩ := ih (by omega)
      have hi' : (i : ℚ) + 1 ≤ 536870880 := by exact_mod_cast hi
      have e : F.fl (((i + 1 : ℕ) : ℚ) * (1 / 2 ^ 21 + 1 / 2 ^ 45)) = ((i + 1 : ℕ) : ℚ) * (1 / 2 ^ 21 + 1 / 2 ^ 45) := by
        have := F.fl_int hF (n := ((i + 1) * 16777217 : ℤ)) (j := -45) (by rw [abs_of_nonneg (by positivity)]; omega) (by norm_num) (by norm_num)
        push_cast at this ⊢
        rw [show ((i : ℚ) + 1) * (1 / 2 ^ 21 + 1 / 2 ^ 45) = (i + 1) * 16777217 * 2 ^ (-45 : ℤ) by rw [zpow_neg]; norm_num; ring]
        exact this
      have b : ((i + 1 : ℕ) : ℚ) * (1 / 2 ^ 21 + 1 / 2 ^ 45) ≤ 256 := by push_cast; linarith
      have b0 : (0 : ℚ) ≤ ((i + 1 : ℕ) : ℚ) * (1 / 2 ^ 21 + 1 / 2 ^ 45) := by positivity
      have c : F.angle st i + st ≤ ((i + 1 : ℕ) : ℚ) * (1 / 2 ^ 21 + 1 / 2 ^ 45) := by push_cast; linarith
      refine ⟨F.fl_nonneg hF (rng _ (by linarith) (by linarith)) (by linarith), ?_⟩
      rw [← e]
      exact F.fl_mono hF (rng _ (by linarith) (by linarith)) (rng _ b0 (by linarith)) c
  have up2 : ∀ j : ℕ, j ≤ 104 * 2 ^ 21 → 0 ≤ F.angle st (536870880 + j) ∧ F.angle st (536870880 + j) ≤ 256 + j / 2 ^ 21 := by
    intro j
    induction j with
    | zero =>
      intro _
      obtain ⟨a, b⟩ := up1 536870880 le_rfl
      refine ⟨a, b.trans ?_⟩
      norm_num
    | succ j ih =>
      intro hj
      obtain ⟨ih0, ih⟩ := ih (by omega)
      have hj' : (j : ℚ) + 1 ≤ 104 * 2 ^ 21 := by exact_mod_cast hj
      rw [show F.angle st (536870880 + (j + 1)) = F.add (F.angle st (536870880 + j)) st from rfl]
      refine ⟨F.fl_nonneg hF (rng _ (by linarith) ?_) (by linarith), add_stuck hF ih0 ih (by omega) s0 s1⟩
      have : (j : ℚ) / 2 ^ 21 ≤ 104 := by rw [div_le_iff₀ (by norm_num)]; linarith
      linarith
  have all : ∀ i : ℕ, i ≤ 754974677 → F.angle st i ≤ 360 := by
    intro i hi
    rcases Nat.le_total i 536870880 with h | h
    · refine (up1 i h).2.trans ?_
      have : (i : ℚ) ≤ 536870880 := by exact_mod_cast h
      linarith
    · obtain ⟨j, rfl⟩ := Nat.exists_eq_add_of_le h
      refine (up2 j (by omega)).2.trans ?_
      have : (j : ℚ) ≤ 218103797 := by exact_mod_cast (by omega : j ≤ 218103797)
      linarith
  unfold Fp.circleNew circleNew
  rw [if_neg (by norm_num)]
  dsimp only
  rw [show (if (754974677 : ℤ) - 1 < 3 then (3 : ℤ) else 754974677 - 1).toNat = 754974676 from by rw [if_neg (by norm_num)]; rfl]
  generalize circlePt (F.ops id) T center (if radius < 0 then 0 else radius) = pt
  rw [show (F.ops id).div 360 (F.fl (754974676 : ℕ)) = st from hs]
  obtain ⟨buf, b1, -, -, b4⟩ := circleLoop_run (o := F.ops id) pt st 754974677 0 (fuel - 754974677) (List.replicate (754974676 + 1) none)
    (by rw [List.length_replicate]) (fun j hj => all j (by omega))
  rw [show 754974677 + (fuel - 754974677) = fuel by omega, show S.angle (F.ops id) st 0 = 0 from rfl] at b4
  rw [b4]
  obtain ⟨f, hf⟩ : ∃ f, fuel - 754974677 = f + 1 := ⟨fuel - 754974677 - 1, by omega⟩
  rw [List.length_replicate] at b1
  rw [hf, circleLoop, Nat.add_zero, if_pos (all _ le_rfl), if_neg (by rw [b1]; omega)]

end Tg
