import Verif.Model.Ryu
import Mathlib.Tactic.Ring
import Mathlib.Tactic.Linarith
import Mathlib.Tactic.LinearCombination
/-! The multiplications of Ryu with the entries of its tables give the exact quotients. For every binary exponent the least distance of a multiple to the next integer is bounded by
two vectors of a lattice, which are found by Euclid's algorithm. -/
set_option linter.unusedSectionVars false
namespace Tg.Ryu

/-- Two vectors that generate the lattice bound the positive values of a linear form. -/
theorem lattice {a b M t x1 y1 x2 y2 : ℤ} (hd : x1 * y2 - x2 * y1 = 1 ∨ x1 * y2 - x2 * y1 = -1) (h1 : t ≤ y1 * b - x1 * a) (h0 : 0 < y1 * b - x1 * a) (h2 : y2 * b - x2 * a ≤ 0)
    (hx1 : 0 ≤ x1) (hx2 : 0 ≤ x2) (hM : M < x1 + x2) {x y : ℤ} (hx : 0 < x) (hxM : x ≤ M) (hD : 0 < y * b - x * a) : t ≤ y * b - x * a := by
  obtain ⟨α, β, ex, ey⟩ : ∃ α β : ℤ, x = α * x1 + β * x2 ∧ y = α * y1 + β * y2 := by
    rcases hd with hd | hd
    · exact ⟨x * y2 - y * x2, x1 * y - y1 * x, by linear_combination (-x) * hd, by linear_combination (-y) * hd⟩
    · exact ⟨-(x * y2 - y * x2), -(x1 * y - y1 * x), by linear_combination x * hd, by linear_combination y * hd⟩
  have eD : y * b - x * a = α * (y1 * b - x1 * a) + β * (y2 * b - x2 * a) := by rw [ex, ey]; ring
  have hα : 1 ≤ α := by
    by_contra hc
    have hα : α ≤ 0 := by omega
    have hβ : β < 0 := by
      by_contra hb
      have : α * (y1 * b - x1 * a) ≤ 0 := mul_nonpos_of_nonpos_of_nonneg hα h0.le
      have : β * (y2 * b - x2 * a) ≤ 0 := mul_nonpos_of_nonneg_of_nonpos (by omega) h2
      omega
    have : α * x1 ≤ 0 := mul_nonpos_of_nonpos_of_nonneg hα hx1
    have : β * x2 ≤ 0 := mul_nonpos_of_nonpos_of_nonneg hβ.le hx2
    omega
  have hβ : β ≤ 0 := by
    by_contra hb
    have : x1 ≤ α * x1 := by nlinarith
    have : x2 ≤ β * x2 := by nlinarith
    omega
  have : 0 ≤ β * (y2 * b - x2 * a) := mul_nonneg_of_nonpos_of_nonpos hβ h2
  have : y1 * b - x1 * a ≤ α * (y1 * b - x1 * a) := by nlinarith
  omega

/-- The bound for the factors. -/
def M55 : Nat := 36028797018963968

/-- Euclid's algorithm on the vectors `(x1, y1)` and `(x2, y2)` with the values `d1` and `-d2`, until `M55 < x1 + x2`. -/
def euclid : Nat → Nat → Nat → Nat → Nat → Nat → Nat → Nat × Nat × Nat × Nat
  | 0, x1, y1, _, x2, y2, _ => (x1, y1, x2, y2)
  | f + 1, x1, y1, d1, x2, y2, d2 =>
    bif Nat.ble (x1 + x2) M55 then
      bif Nat.blt d2 d1 then
        let k := min (if d2 = 0 then M55 else (d1 - 1) / d2) (if x2 = 0 then M55 else (M55 - x1) / x2 + 1)
        euclid f (x1 + k * x2) (y1 + k * y2) (d1 - k * d2) x2 y2 d2
      else
        let k := min (d2 / d1) (if x1 = 0 then d2 / d1 else (M55 - x2) / x1 + 1)
        euclid f x1 y1 d1 (x2 + k * x1) (y2 + k * y1) (d2 - k * d1)
    else (x1, y1, x2, y2)

/-- The conditions on the vectors for `y * b - x * a`. -/
def lat (a b t : Nat) (c : Nat × Nat × Nat × Nat) : Bool :=
  (c.1 * c.2.2.2 + 1 == c.2.2.1 * c.2.1 || c.2.2.1 * c.2.1 + 1 == c.1 * c.2.2.2) && decide (c.1 * a + t ≤ c.2.1 * b) && decide (c.2.2.2 * b ≤ c.2.2.1 * a) && decide (M55 < c.1 + c.2.2.1)

/-- The conditions on the vectors for `x * a - y * b`. -/
def lat' (a b t : Nat) (c : Nat × Nat × Nat × Nat) : Bool :=
  (c.1 * c.2.2.2 + 1 == c.2.2.1 * c.2.1 || c.2.2.1 * c.2.1 + 1 == c.1 * c.2.2.2) && decide (c.2.1 * b + t ≤ c.1 * a) && decide (c.2.2.1 * a ≤ c.2.2.2 * b) && decide (M55 < c.1 + c.2.2.1)

theorem lat_spec {a b t : Nat} {c : Nat × Nat × Nat × Nat} (h : lat a b t c = true) (ht : 0 < t) {x y : Nat} (hx : 0 < x) (hxM : x ≤ M55) (hD : x * a < y * b) : x * a + t ≤ y * b := by
  obtain ⟨x1, y1, x2, y2⟩ := c
  simp only [lat, Bool.and_eq_true, Bool.or_eq_true, beq_iff_eq, decide_eq_true_eq] at h
  obtain ⟨⟨⟨hd, h1⟩, h2⟩, hM⟩ := h
  zify at *
  have := lattice (a := a) (b := b) (M := M55) (t := t) (x1 := x1) (y1 := y1) (x2 := x2) (y2 := y2) (by omega) (by omega) (by omega) (by omega) (by omega) (by omega) (by exact_mod_cast hM)
    (x := x) (y := y) (by omega) hxM (by omega)
  omega

theorem lat'_spec {a b t : Nat} {c : Nat × Nat × Nat × Nat} (h : lat' a b t c = true) (ht : 0 < t) {x y : Nat} (hx : 0 < x) (hxM : x ≤ M55) (hD : y * b < x * a) : y * b + t ≤ x * a := by
  obtain ⟨x1, y1, x2, y2⟩ := c
  simp only [lat', Bool.and_eq_true, Bool.or_eq_true, beq_iff_eq, decide_eq_true_eq] at h
  obtain ⟨⟨⟨hd, h1⟩, h2⟩, hM⟩ := h
  zify at *
  have := lattice (a := -a) (b := -b) (M := M55) (t := t) (x1 := x1) (y1 := y1) (x2 := x2) (y2 := y2) (by omega) (by simp only [mul_neg]; omega) (by simp only [mul_neg]; omega)
    (by simp only [mul_neg]; omega) (by omega) (by omega) (by exact_mod_cast hM) (x := x) (y := y) (by omega) hxM (by simp only [mul_neg]; omega)
  simp only [mul_neg] at this
  omega

/-- `mulShift64` is a multiplication and a shift. -/
theorem mulShift64_eq {m j : Nat} {mul : Nat × Nat} (hm : m < W64) (h1 : mul.1 < W64) (h2 : mul.2 < W64) (hj : 64 ≤ j) (hj' : j < 192)
    (hr : m * (mul.1 + mul.2 * W64) / 2 ^ j < W64) : mulShift64 m mul j = some (m * (mul.1 + mul.2 * W64) / 2 ^ j) := by
  have hW : W64 = 2 ^ 64 := rfl
  have b0 : m * mul.1 < W64 * W64 := Nat.mul_lt_mul'' hm h1
  have b2 : m * mul.2 ≤ (W64 - 1) * (W64 - 1) := Nat.mul_le_mul (by omega) (by omega)
  have c0 : m * mul.1 / 2 ^ 64 < W64 := by
    rw [Nat.div_lt_iff_lt_mul (by positivity), ← hW]; exact b0
  have c1 : m * mul.1 / 2 ^ 64 + m * mul.2 < W64 * W64 := by
    have : (W64 - 1) * (W64 - 1) + W64 ≤ W64 * W64 := by decide
    omega
  have e : (m * mul.1 / 2 ^ 64 + m * mul.2) / 2 ^ (j - 64) = m * (mul.1 + mul.2 * W64) / 2 ^ j := by
    have : 2 ^ j = 2 ^ 64 * 2 ^ (j - 64) := by rw [← Nat.pow_add]; congr 1; omega
    rw [this, ← Nat.div_div_eq_div_mul, Nat.mul_add, ← Nat.mul_assoc, hW, Nat.add_mul_div_right _ _ (by positivity)]
  have b2' : m * mul.2 < W64 * W64 := by
    have : (W64 - 1) * (W64 - 1) < W64 * W64 := by decide
    omega
  unfold mulShift64
  rw [if_neg (by omega)]
  simp only [Nat.shiftRight_eq_div_pow]
  rw [Nat.mod_eq_of_lt b0, Nat.mod_eq_of_lt b2', Nat.mod_eq_of_lt c1, e, Nat.mod_eq_of_lt hr]

/-! ### Exponents that are not negative -/

/-- All that is computed from one exponent. -/
def chkPos (e2 : Nat) : Bool :=
  match log10Pow2 e2 with
  | none => false
  | some l =>
    let q := l - (if e2 > 3 then 1 else 0)
    match pow5bits q, POW5_INV_SPLIT[q]? with
    | some pb, some mul =>
      let a := 2 ^ (e2 - q)
      let b := 5 ^ q
      let k := 124 + pb
      let i := k + q - e2
      let inv := mul.1 + mul.2 * W64
      (l == q + if e2 > 3 then 1 else 0) && decide (q ≤ e2) && decide (e2 + 64 ≤ k + q) && decide (i < 192) && decide (mul.1 < W64) && decide (mul.2 < W64) &&
      decide (2 ^ k < inv * b) && lat a b (M55 * (inv * b - 2 ^ k) / 2 ^ i + 1) (euclid 60 0 1 b 1 0 a) && decide (a < 100 * b) && decide (b ≤ a) && (q == 0 || decide (10 * b ≤ a))
    | _, _ => false

/-- What is known of one exponent. -/
structure PosFacts (e2 : Nat) (q pb : Nat) (mul : Nat × Nat) : Prop where
  log : log10Pow2 e2 = some (q + if e2 > 3 then 1 else 0)
  bits : pow5bits q = some pb
  entry : POW5_INV_SPLIT[q]? = some mul
  le : q ≤ e2
  lo : e2 + 64 ≤ 124 + pb + q
  hi : 124 + pb + q - e2 < 192
  m1 : mul.1 < W64
  m2 : mul.2 < W64
  quot : ∀ x, 0 < x → x < M55 → x * (mul.1 + mul.2 * W64) / 2 ^ (124 + pb + q - e2) = x * 2 ^ (e2 - q) / 5 ^ q
  lt : 2 ^ (e2 - q) < 100 * 5 ^ q
  ge : 5 ^ q ≤ 2 ^ (e2 - q)
  ten : q = 0 ∨ 10 * 5 ^ q ≤ 2 ^ (e2 - q)

set_option maxRecDepth 100000 in
theorem chkPos_all : ∀ e2 < 970, chkPos e2 = true := by decide +kernel

theorem pos_facts {e2 : Nat} (h : e2 < 970) : ∃ q pb mul, PosFacts e2 q pb mul := by
  have h := chkPos_all e2 h
  unfold chkPos at h
  split at h
  · exact absurd h (by simp)
  rename_i l hl
  dsimp only at h
  split at h
  case h_2 => exact absurd h (by simp)
  rename_i pb mul hpb hmul
  simp only [Bool.and_eq_true, beq_iff_eq, decide_eq_true_eq, Bool.or_eq_true] at h
  obtain ⟨⟨⟨⟨⟨⟨⟨⟨⟨⟨h1, h2⟩, h3⟩, h4⟩, h5⟩, h6⟩, h7⟩, h8⟩, h9⟩, h10⟩, h11⟩ := h
  generalize l - (if e2 > 3 then 1 else 0) = q at *
  refine ⟨q, pb, mul, by rw [hl, h1], hpb, hmul, h2, by omega, h4, h5, h6, fun x hx hxM => ?_, h9, h10, h11⟩
  generalize hinv : mul.1 + mul.2 * W64 = inv at *
  have hk : 2 ^ (124 + pb) = 2 ^ (124 + pb + q - e2) * 2 ^ (e2 - q) := by rw [← Nat.pow_add]; congr 1; omega
  generalize 124 + pb + q - e2 = i at *
  rw [hk] at h7 h8
  generalize 2 ^ (e2 - q) = a at *
  have hb : 0 < 5 ^ q := by positivity
  generalize 5 ^ q = b at *
  have hI : 0 < 2 ^ i := by positivity
  generalize 2 ^ i = I at *
  obtain ⟨δ, hδ⟩ : ∃ δ, inv * b = I * a + δ := ⟨_, (Nat.add_sub_cancel' h7.le).symm⟩
  rw [hδ, Nat.add_sub_cancel_left] at h8
  have hdm := Nat.div_add_mod (x * a) b
  have hml := Nat.mod_lt (x * a) hb
  generalize hn : x * a / b = n at *
  generalize x * a % b = r at *
  have hl := lat_spec h8 (Nat.succ_pos _) hx hxM.le (y := n + 1) (by nlinarith)
  have ht : M55 * δ < (M55 * δ / I + 1) * I := by
    have := Nat.div_add_mod (M55 * δ) I
    have := Nat.mod_lt (M55 * δ) hI
    nlinarith
  generalize M55 * δ / I + 1 = t at *
  have hxd : x * δ ≤ M55 * δ := Nat.mul_le_mul_right _ hxM.le
  have hbr : t ≤ b - r := by
    have : (n + 1) * b = b * n + b := by ring
    omega
  have hup : x * δ < (b - r) * I := lt_of_lt_of_le (lt_of_le_of_lt hxd ht) (Nat.mul_le_mul_right _ hbr)
  have key : x * inv * b = (b * n + r) * I + x * δ := by
    rw [hdm]; calc x * inv * b = x * (inv * b) := by ring
      _ = _ := by rw [hδ]; ring
  rw [Nat.div_eq_of_lt_le]
  · refine Nat.le_of_mul_le_mul_right (c := b) ?_ hb
    have e1 : n * I * b = b * n * I := by ring
    have e2 : (b * n + r) * I = b * n * I + r * I := by ring
    rw [key, e1, e2]; omega
  · refine Nat.lt_of_mul_lt_mul_right (a := b) ?_
    rw [key]
    have e0 : (b - r) * I + r * I = b * I := by rw [← Nat.add_mul]; congr 1; omega
    have e1 : (n + 1) * I * b = b * n * I + b * I := by ring
    have e2 : (b * n + r) * I = b * n * I + r * I := by ring
    rw [e1, e2]; omega

/-! ### Negative exponents -/

/-- All that is computed from one negative exponent. -/
def chkNeg (n : Nat) : Bool :=
  match log10Pow5 n with
  | none => false
  | some l =>
    let q := l - (if n > 1 then 1 else 0)
    let i := n - q
    match pow5bits i, POW5_SPLIT[i]? with
    | some pb, some mul =>
      let a := 5 ^ i
      let b := 2 ^ q
      let j := q + 125 - pb
      let pow := mul.1 + mul.2 * W64
      (l == q + if n > 1 then 1 else 0) && decide (q ≤ n) && decide (pb + 64 ≤ q + 125) && decide (j < 192) && decide (mul.1 < W64) && decide (mul.2 < W64) &&
      (bif Nat.ble pb 125 then pow == a * 2 ^ (125 - pb)
        else decide (pow * 2 ^ (pb - 125) ≤ a) && decide (55 ≤ q) && decide (pb - 125 ≤ q) &&
          lat' a b (M55 * (a - pow * 2 ^ (pb - 125)) + 1) (euclid 60 1 0 a 0 1 b)) && decide (a < 100 * b) && decide (b ≤ a) && (q == 0 || decide (10 * b ≤ a))
    | _, _ => false

/-- What is known of one negative exponent. -/
structure NegFacts (n : Nat) (q pb : Nat) (mul : Nat × Nat) : Prop where
  log : log10Pow5 n = some (q + if n > 1 then 1 else 0)
  bits : pow5bits (n - q) = some pb
  entry : POW5_SPLIT[n - q]? = some mul
  le : q ≤ n
  lo : pb + 64 ≤ q + 125
  hi : q + 125 - pb < 192
  m1 : mul.1 < W64
  m2 : mul.2 < W64
  quot : ∀ x, 0 < x → x < M55 → x * (mul.1 + mul.2 * W64) / 2 ^ (q + 125 - pb) = x * 5 ^ (n - q) / 2 ^ q
  lt : 5 ^ (n - q) < 100 * 2 ^ q
  ge : 2 ^ q ≤ 5 ^ (n - q)
  ten : q = 0 ∨ 10 * 2 ^ q ≤ 5 ^ (n - q)

set_option maxRecDepth 100000 in
theorem chkNeg_all : ∀ n < 1077, 0 < n → chkNeg n = true := by decide +kernel

theorem neg_facts {n : Nat} (h0 : 0 < n) (h : n < 1077) : ∃ q pb mul, NegFacts n q pb mul := by
  have h := chkNeg_all n h h0
  unfold chkNeg at h
  split at h
  · exact absurd h (by simp)
  rename_i l hl
  dsimp only at h
  split at h
  case h_2 => exact absurd h (by simp)
  rename_i pb mul hpb hmul
  simp only [Bool.and_eq_true, beq_iff_eq, decide_eq_true_eq, Bool.or_eq_true] at h
  obtain ⟨⟨⟨⟨⟨⟨⟨⟨⟨h1, h2⟩, h3⟩, h4⟩, h5⟩, h6⟩, h7⟩, h9⟩, h10⟩, h11⟩ := h
  generalize l - (if n > 1 then 1 else 0) = q at *
  refine ⟨q, pb, mul, by rw [hl, h1], hpb, hmul, h2, h3, h4, h5, h6, fun x hx hxM => ?_, h9, h10, h11⟩
  generalize hpow : mul.1 + mul.2 * W64 = pow at *
  by_cases hc : pb ≤ 125
  · have : Nat.ble pb 125 = true := by rw [Nat.ble_eq]; exact hc
    rw [this, cond_true, beq_iff_eq] at h7
    have e : 2 ^ (q + 125 - pb) = 2 ^ q * 2 ^ (125 - pb) := by rw [← Nat.pow_add]; congr 1; omega
    rw [h7, e, ← Nat.mul_assoc, Nat.mul_div_mul_right _ _ (by positivity)]
  · have : Nat.ble pb 125 = false := by rw [← Bool.not_eq_true, Nat.ble_eq]; exact hc
    rw [this, cond_false] at h7
    simp only [Bool.and_eq_true, decide_eq_true_eq] at h7
    obtain ⟨⟨⟨h71, h72⟩, h73⟩, h74⟩ := h7
    have e : 2 ^ q = 2 ^ (q + 125 - pb) * 2 ^ (pb - 125) := (congrArg (2 ^ ·) (by omega : q = q + 125 - pb + (pb - 125))).trans (Nat.pow_add 2 _ _)
    obtain ⟨δ, hδ⟩ : ∃ δ, 5 ^ (n - q) = pow * 2 ^ (pb - 125) + δ := ⟨_, (Nat.add_sub_cancel' h71).symm⟩
    have hr0 : x * 5 ^ (n - q) % 2 ^ q ≠ 0 := by
      intro hr
      have hdv : 2 ^ q ∣ x := (Nat.Coprime.pow q (n - q) (by decide : Nat.Coprime 2 5)).dvd_of_dvd_mul_right (Nat.dvd_of_mod_eq_zero hr)
      have h1 := Nat.le_of_dvd hx hdv
      have h2 : 2 ^ 55 ≤ 2 ^ q := Nat.pow_le_pow_right (by decide) h72
      have : M55 = 2 ^ 55 := by norm_num [M55]
      rw [this] at hxM
      exact absurd (lt_of_lt_of_le hxM h2) (not_lt.2 h1)
    have hdm := Nat.div_add_mod (x * 5 ^ (n - q)) (2 ^ q)
    generalize hN : x * 5 ^ (n - q) / 2 ^ q = N at *
    generalize x * 5 ^ (n - q) % 2 ^ q = r at *
    have hrlt : r < 2 ^ q := by
      have := Nat.mod_lt (x * 5 ^ (n - q)) (show 0 < 2 ^ q by positivity)
      have hNd := Nat.div_add_mod (x * 5 ^ (n - q)) (2 ^ q)
      rw [hN] at hNd; omega
    have hl := lat'_spec h74 (Nat.succ_pos _) hx hxM.le (y := N) (by have := Nat.pos_of_ne_zero hr0; rw [← hdm, Nat.mul_comm N]; omega)
    rw [hδ, Nat.add_sub_cancel_left] at hl
    rw [hδ] at hdm
    have hxd : x * δ ≤ M55 * δ := Nat.mul_le_mul_right _ hxM.le
    have hP : 0 < 2 ^ (pb - 125) := by positivity
    rw [e] at hdm hl hrlt
    generalize 2 ^ (q + 125 - pb) = J at *
    generalize 2 ^ (pb - 125) = P at *
    have hle : x * δ ≤ r := by
      have : N * (J * P) = J * P * N := Nat.mul_comm _ _
      omega
    have key : x * pow * P + x * δ = J * P * N + r := by rw [hdm]; ring
    rw [Nat.div_eq_of_lt_le]
    · refine Nat.le_of_mul_le_mul_right (c := P) ?_ hP
      have : N * J * P = J * P * N := by ring
      omega
    · refine Nat.lt_of_mul_lt_mul_right (a := P) ?_
      have : (N + 1) * J * P = J * P * N + J * P := by ring
      omega

end Tg.Ryu
