import Verif.Lemmas.RyuMul
import Verif.Lemmas.RyuDigits
/-! Step 3 of Ryu: the interval is scaled. -/
set_option linter.unusedSectionVars false
namespace Tg.Ryu

/-! ### Multiples of powers of five -/

theorem pow5Factor_spec : ∀ f v c, 0 < v → v < W64 → v < 5 ^ f → ∃ d, pow5FactorLoop f v c = some (c + d) ∧ ∀ p, p ≤ d ↔ 5 ^ p ∣ v := by
  intro f
  induction f with
  | zero => intro v c h0 h1 h2; omega
  | succ f ih =>
    intro v c h0 h1 h2
    rw [pow5FactorLoop, if_neg (by omega)]
    dsimp only
    have hW : W64 = 18446744073709551616 := rfl
    rw [hW] at h1 ⊢
    generalize hw : v * 14757395258967641293 % 18446744073709551616 = w
    by_cases hd : v % 5 = 0
    · have hwv : w = v / 5 := by omega
      rw [if_neg (by omega), hwv]
      obtain ⟨d, e1, e2⟩ := ih (v / 5) (c + 1) (by omega) (by rw [hW]; omega) (by rw [Nat.pow_succ] at h2; omega)
      refine ⟨d + 1, by rw [e1]; congr 1; omega, fun p => ?_⟩
      cases p with
      | zero => simp
      | succ p =>
        rw [Nat.add_le_add_iff_right, e2]
        conv_rhs => rw [show v = v / 5 * 5 by omega, Nat.pow_succ]
        exact (Nat.mul_dvd_mul_iff_right (by decide)).symm
    · have hgt : w > 3689348814741910323 := by
        by_contra hc
        have hdm := Nat.div_add_mod (v * 14757395258967641293) 18446744073709551616
        rw [hw] at hdm
        generalize v * 14757395258967641293 / 18446744073709551616 = d at hdm
        have k : v + 18446744073709551616 * (4 * v) = 5 * w + 18446744073709551616 * (5 * d) := by omega
        have k1 : (v + 18446744073709551616 * (4 * v)) % 18446744073709551616 = v := by rw [Nat.add_mul_mod_self_left, Nat.mod_eq_of_lt h1]
        have k2 : (5 * w + 18446744073709551616 * (5 * d)) % 18446744073709551616 = 5 * w := by rw [Nat.add_mul_mod_self_left, Nat.mod_eq_of_lt (by omega)]
        rw [k, k2] at k1
        omega
      rw [if_pos hgt]
      refine ⟨0, rfl, fun p => ?_⟩
      cases p with
      | zero => simp
      | succ p =>
        refine ⟨fun h => by omega, fun h => absurd ?_ hd⟩
        exact Nat.mod_eq_zero_of_dvd (dvd_trans (dvd_pow_self 5 (Nat.succ_ne_zero p)) h)

theorem multiple5 {v p : Nat} (h0 : 0 < v) (h1 : v < W64) : multipleOfPowerOf5 v p = some (decide (5 ^ p ∣ v)) := by
  obtain ⟨d, e1, e2⟩ := pow5Factor_spec 64 v 0 h0 h1 (lt_trans h1 (by norm_num [W64]))
  rw [multipleOfPowerOf5, e1, Option.map_some, Nat.zero_add, decide_eq_decide.2 (e2 p)]

theorem multiple2 {v p : Nat} (h0 : 0 < v) (hp : p < 64) : multipleOfPowerOf2 v p = some (decide (2 ^ p ∣ v)) := by
  have hlt : 2 ^ p < W64 := by
    rw [show W64 = 2 ^ 64 from rfl]; exact Nat.pow_lt_pow_right (by decide) hp
  unfold multipleOfPowerOf2
  rw [if_neg (by omega), Nat.one_shiftLeft, Nat.mod_eq_of_lt hlt, Nat.and_two_pow_sub_one_eq_mod]
  congr 1
  rw [Bool.eq_iff_iff, beq_iff_eq, decide_eq_true_eq, Nat.dvd_iff_mod_eq_zero]

/-! ### The three products -/

theorem all_eq {m2 s j A B : Nat} {mul : Nat × Nat} (hm : 1 ≤ m2) (hm' : m2 < 2 ^ 53) (hs : s ≤ 1) (h1 : mul.1 < W64) (h2 : mul.2 < W64) (hj : 64 ≤ j) (hj' : j < 192)
    (quot : ∀ x, 0 < x → x < M55 → x * (mul.1 + mul.2 * W64) / 2 ^ j = x * A / B) (hB : 0 < B) (hlt : A < 100 * B) :
    mulShiftAll64 m2 mul j s = some (4 * m2 * A / B, (4 * m2 + 2) * A / B, (4 * m2 - 1 - s) * A / B) := by
  have hW : W64 = 18446744073709551616 := rfl
  have hM : M55 = 36028797018963968 := by norm_num [M55]
  rw [show (2 : Nat) ^ 53 = 9007199254740992 by norm_num] at hm'
  have one : ∀ x, 0 < x → x < M55 → mulShift64 x mul j = some (x * A / B) := by
    intro x hx hxM
    have hle : x * A / B ≤ 100 * x := by
      rw [Nat.div_le_iff_le_mul_add_pred hB]
      have : x * A ≤ x * (100 * B) := Nat.mul_le_mul_left _ hlt.le
      have : x * (100 * B) = B * (100 * x) := by ring
      omega
    have hx' : 100 * x < W64 := by rw [hW]; rw [hM] at hxM; omega
    rw [mulShift64_eq (lt_of_le_of_lt (Nat.le_mul_of_pos_left x (by decide)) hx') h1 h2 hj hj' (by rw [quot x hx hxM]; exact lt_of_le_of_lt hle hx'), quot x hx hxM]
  unfold mulShiftAll64
  have e1 : (4 * m2 + 2) % W64 = 4 * m2 + 2 := by rw [hW]; omega
  have e2 : (4 * m2 + W64 - 1 - s) % W64 = 4 * m2 - 1 - s := by rw [hW]; omega
  have e3 : 4 * m2 % W64 = 4 * m2 := by rw [hW]; omega
  rw [e1, e2, e3, one _ (by omega) (by rw [hM]; omega), one _ (by omega) (by rw [hM]; omega), one _ (by omega) (by rw [hM]; omega)]
  rfl

/-! ### What step 4 needs -/

theorem ready_of {m2 s A B : Nat} {acc : Bool} {v : Vals} (hm : 1 ≤ m2) (hm' : m2 < 2 ^ 53) (hs : s ≤ 1) (hB : 0 < B) (hlt : A < 100 * B) (hge : B ≤ A) (hten : B = 1 ∨ 10 * B ≤ A)
    (hvr : v.vr = 4 * m2 * A / B) (hvm : v.vm = (4 * m2 - 1 - s) * A / B)
    (hvp : (v.vp = (4 * m2 + 2) * A / B ∧ (acc = false → ¬ 10 * B ∣ (4 * m2 + 2) * A)) ∨ (acc = false ∧ B ∣ (4 * m2 + 2) * A ∧ v.vp = (4 * m2 + 2) * A / B - 1))
    (tz : v.vmTz = true → acc = true ∧ B ∣ (4 * m2 - 1 - s) * A) (tz' : acc = true → 10 * B ∣ (4 * m2 - 1 - s) * A → v.vmTz = true) (rz : v.vrTz = true → B ∣ 4 * m2 * A) :
    Ready acc ((4 * m2 - 1 - s) * A) (4 * m2 * A) ((4 * m2 + 2) * A) B v := by
  rw [show (2 : Nat) ^ 53 = 9007199254740992 by norm_num] at hm'
  have eP : (4 * m2 + 2) * A = 4 * m2 * A + 2 * A := by ring
  have eN : (4 * m2 - 1 - s) * A + (1 + s) * A = 4 * m2 * A := by rw [← Nat.add_mul]; congr 1; omega
  have hs1 : A ≤ (1 + s) * A := Nat.le_mul_of_pos_left A (by omega)
  have hs2 : (1 + s) * A ≤ 2 * A := Nat.mul_le_mul_right _ (by omega)
  have hN0 : 0 < (4 * m2 - 1 - s) * A := Nat.mul_pos (by omega) (by omega)
  have hPle : (4 * m2 + 2) * A / B ≤ 100 * (4 * m2 + 2) := by
    rw [Nat.div_le_iff_le_mul_add_pred hB]
    have : (4 * m2 + 2) * A ≤ (4 * m2 + 2) * (100 * B) := Nat.mul_le_mul_left _ hlt.le
    have : (4 * m2 + 2) * (100 * B) = B * (100 * (4 * m2 + 2)) := by ring
    omega
  have hPV : 4 * m2 * A / B + 2 ≤ (4 * m2 + 2) * A / B := by
    rw [← Nat.add_mul_div_left _ _ hB]
    exact Nat.div_le_div_right (by rw [eP]; omega)
  generalize (4 * m2 - 1 - s) * A = N at *
  generalize hP : (4 * m2 + 2) * A = P at *
  generalize 4 * m2 * A = V at *
  have hdiv : ∀ n, n ≤ P / B ↔ n * B ≤ P := fun n => Nat.le_div_iff_mul_le hB
  refine ⟨hB, by omega, by omega, by omega, by omega, hN0, hvr, hvm, fun n hn => ?_, ?_, ?_, tz, tz', rz⟩
  · rcases hvp with ⟨e, hne⟩ | ⟨ha, ⟨k, hk⟩, e⟩
    · rw [e, hdiv]
      cases acc with
      | true => rw [if_pos rfl]
      | false =>
        rw [if_neg (by simp)]
        have : n * B ≠ P := fun hc => hne rfl (by rw [← hc]; exact Nat.mul_dvd_mul_right hn B)
        omega
    · rw [e, ha, if_neg (by simp), hk, Nat.mul_div_cancel_left _ hB, Nat.mul_comm B, Nat.mul_lt_mul_right hB]
      have : 0 < k := Nat.pos_of_ne_zero fun hc => by rw [hc] at hk; omega
      omega
  · rw [hvr]; rcases hvp with ⟨e, -⟩ | ⟨-, -, e⟩ <;> omega
  · rw [show (10 : Nat) ^ 20 = 100000000000000000000 by norm_num]
    rcases hvp with ⟨e, -⟩ | ⟨-, -, e⟩ <;> omega

theorem five_dvd {q k m : Nat} (h : 5 ^ q ∣ m * 2 ^ k) : 5 ^ q ∣ m :=
  (Nat.Coprime.pow q k (by decide : Nat.Coprime 5 2)).dvd_of_dvd_mul_right h

theorem two_dvd {q k m : Nat} (h : 2 ^ q ∣ m * 5 ^ k) : 2 ^ q ∣ m :=
  (Nat.Coprime.pow q k (by decide : Nat.Coprime 2 5)).dvd_of_dvd_mul_right h

theorem ten_five {q k m : Nat} (h : 10 * 5 ^ q ∣ m * 2 ^ k) : 5 ^ (q + 1) ∣ m :=
  five_dvd (k := k) (dvd_trans ⟨2, by rw [Nat.pow_succ]; ring⟩ h)

theorem ten_two {q k m : Nat} (h : 10 * 2 ^ q ∣ m * 5 ^ k) : 2 ^ (q + 1) ∣ m :=
  two_dvd (k := k) (dvd_trans ⟨5, by rw [Nat.pow_succ]; ring⟩ h)

/-! ### The two cases -/

/-- `5 ^ 23` divides the upper end of the interval only if the mantissa is even. -/
theorem big_up {m k : Nat} (h : 4 * m + 2 = 11920928955078125 * k) (hm : m < 9007199254740992) : m % 2 = 0 := by
  have hk : k < 4 := by
    by_contra hc
    linarith
  have hk' : k = 0 ∨ k = 1 ∨ k = 2 ∨ k = 3 := by clear h hm; omega
  rcases hk' with rfl | rfl | rfl | rfl <;> omega

/-- `5 ^ 23` divides the lower end of the interval only if the mantissa is odd. -/
theorem big_down {m k s : Nat} (h : 4 * m - 1 - s = 11920928955078125 * k) (h1 : 1 ≤ m) (hm : m < 9007199254740992) (hs : s = 1 ∨ (s = 0 ∧ m = 4503599627370496)) : m % 2 = 1 := by
  have h2 : 11920928955078125 * k ≤ 4 * m := by rw [← h]; exact le_trans (Nat.sub_le _ _) (Nat.sub_le _ _)
  have hk : k < 4 := by
    by_contra hc
    linarith
  have hk' : k = 0 ∨ k = 1 ∨ k = 2 ∨ k = 3 := by clear h h2 hm hs; omega
  clear h2
  rcases hs with rfl | ⟨rfl, rfl⟩
  · rcases hk' with rfl | rfl | rfl | rfl <;> omega
  · rcases hk' with rfl | rfl | rfl | rfl <;> omega

theorem step3pos_of {m2 e2 s l q pb i mv mm mp d : Nat} {acc t1 t2 t3 : Bool} {mul : Nat × Nat} {v : Nat × Nat × Nat} (h1 : log10Pow2 e2 = some l)
    (h2 : (l + W32 - (if e2 > 3 then 1 else 0)) % W32 = q) (h3 : pow5bits q = some pb) (h4 : POW5_INV_SPLIT[q]? = some mul) (h5 : (-(e2 : Int) + q + ((125 + pb - 1 : Nat) : Int)).toNat = i)
    (h6 : mulShiftAll64 m2 mul i s = some v) (h7 : 4 * m2 % W64 = mv) (h8 : mod32 5 mv = d) (h9 : multipleOfPowerOf5 mv q = some t1)
    (h10 : (mv + W64 - 1 - s) % W64 = mm) (h11 : multipleOfPowerOf5 mm q = some t2) (h12 : (mv + 2) % W64 = mp) (h13 : multipleOfPowerOf5 mp q = some t3) :
    step3pos m2 e2 s acc = if q ≤ 21 then if d = 0 then some ⟨v.1, v.2.1, v.2.2, q, false, t1⟩ else if acc then some ⟨v.1, v.2.1, v.2.2, q, t2, false⟩
      else some ⟨v.1, (v.2.1 + W64 - (if t3 then 1 else 0)) % W64, v.2.2, q, false, false⟩ else some ⟨v.1, v.2.1, v.2.2, q, false, false⟩ := by
  unfold step3pos
  extract_lets mv'
  rw [h1, Option.bind_eq_bind, Option.bind_some]
  extract_lets q'
  have e1 : mv' = mv := h7
  have e2 : q' = q := h2
  clear_value mv' q'
  subst e1 e2
  rw [h3, Option.bind_some]
  extract_lets k i'
  have e3 : i'.toNat = i := h5
  rw [h4, Option.bind_eq_bind, Option.bind_some, e3, h6, Option.bind_eq_bind, Option.bind_some]
  rw [h8, h9, Option.bind_eq_bind, Option.bind_some, h10, h11, Option.bind_some, h12, h13, Option.bind_some]
  simp -zeta only [Option.pure_def]

theorem step3neg_of {m2 n s l q pb j mv : Nat} {acc t : Bool} {mul : Nat × Nat} {v : Nat × Nat × Nat} (h1 : log10Pow5 n = some l)
    (h2 : (l + W32 - (if n > 1 then 1 else 0)) % W32 = q) (h3 : pow5bits (n - q) = some pb) (h4 : POW5_SPLIT[n - q]? = some mul) (h5 : ((q : Int) - ((pb : Int) - 125)).toNat = j)
    (h6 : mulShiftAll64 m2 mul j s = some v) (h7 : 4 * m2 % W64 = mv) (h8 : q < 63 → multipleOfPowerOf2 mv q = some t) :
    step3neg m2 n s acc = if q ≤ 1 then if acc then some ⟨v.1, v.2.1, v.2.2, (q : Int) - n, s == 1, true⟩ else some ⟨v.1, (v.2.1 + W64 - 1) % W64, v.2.2, (q : Int) - n, false, true⟩
      else if q < 63 then some ⟨v.1, v.2.1, v.2.2, (q : Int) - n, false, t⟩ else some ⟨v.1, v.2.1, v.2.2, (q : Int) - n, false, false⟩ := by
  unfold step3neg
  extract_lets mv'
  rw [h1, Option.bind_eq_bind, Option.bind_some]
  extract_lets q' e10 i'
  have e1 : mv' = mv := h7
  have e2 : q' = q := h2
  have e4 : e10 = (q' : Int) - n := rfl
  have e5 : i' = n - q' := rfl
  clear_value mv' q' e10 i'
  subst e1 e2 e4 e5
  rw [h3, Option.bind_some]
  extract_lets k j'
  have e3 : j'.toNat = j := h5
  rw [h4, Option.bind_eq_bind, Option.bind_some, e3, h6, Option.bind_eq_bind, Option.bind_some]
  by_cases h63 : q' < 63
  · rw [h8 h63, Option.bind_eq_bind, Option.bind_some]
    simp -zeta only [Option.pure_def]
  · rw [if_neg h63, if_neg h63]
    simp -zeta only [Option.pure_def]

section
variable {m2 s : Nat} {acc : Bool} (hm : 1 ≤ m2) (hm' : m2 < 2 ^ 53) (hs : s = 1 ∨ (s = 0 ∧ m2 = 2 ^ 52)) (hacc : acc = true ↔ m2 % 2 = 0)
include hm hm' hs hacc

/-- Step 3 for exponents that are not negative. -/
theorem step3pos_spec {e2 : Nat} (he : e2 < 970) : ∃ v q, step3pos m2 e2 s acc = some v ∧ q ≤ e2 ∧ v.e10 = (q : Int) ∧
    Ready acc ((4 * m2 - 1 - s) * 2 ^ (e2 - q)) (4 * m2 * 2 ^ (e2 - q)) ((4 * m2 + 2) * 2 ^ (e2 - q)) (5 ^ q) v := by
  obtain ⟨q, pb, mul, F⟩ := pos_facts he
  have hs1 : s ≤ 1 := by omega
  have hm53 := hm'
  rw [show (2 : Nat) ^ 53 = 9007199254740992 by norm_num] at hm'
  have hB : 0 < 5 ^ q := by positivity
  have hA := all_eq hm hm53 hs1 F.m1 F.m2 (by have := F.lo; omega) F.hi F.quot hB F.lt
  have hq : (q + (if e2 > 3 then 1 else 0) + W32 - (if e2 > 3 then 1 else 0)) % W32 = q := by
    have := F.le
    rw [show W32 = 4294967296 from rfl]
    generalize (if e2 > 3 then 1 else 0) = d
    omega
  have hi : (-(e2 : Int) + q + ((125 + pb - 1 : Nat) : Int)).toNat = 124 + pb + q - e2 := by have := F.lo; omega
  have hW : W64 = 18446744073709551616 := rfl
  have e1 : 4 * m2 % W64 = 4 * m2 := by rw [hW]; omega
  have e2' : (4 * m2 + W64 - 1 - s) % W64 = 4 * m2 - 1 - s := by rw [hW]; omega
  have e3 : (4 * m2 + 2) % W64 = 4 * m2 + 2 := by rw [hW]; omega
  have hten : 5 ^ q = 1 ∨ 10 * 5 ^ q ≤ 2 ^ (e2 - q) := by
    rcases F.ten with h | h
    · left; rw [h]; rfl
    · exact .inr h
  have R := fun v => ready_of (m2 := m2) (s := s) (A := 2 ^ (e2 - q)) (B := 5 ^ q) (acc := acc) (v := v) hm hm53 hs1 hB F.lt F.ge hten
  have hp64 : (4 * m2 + 2) * 2 ^ (e2 - q) / 5 ^ q < W64 ∧ 0 < (4 * m2 + 2) * 2 ^ (e2 - q) / 5 ^ q := by
    constructor
    · rw [Nat.div_lt_iff_lt_mul hB]
      have h1 : (4 * m2 + 2) * 2 ^ (e2 - q) ≤ (4 * m2 + 2) * (100 * 5 ^ q) := Nat.mul_le_mul_left _ F.lt.le
      have h2 : (4 * m2 + 2) * (100 * 5 ^ q) = ((4 * m2 + 2) * 100) * 5 ^ q := by ring
      rw [h2] at h1
      refine lt_of_le_of_lt h1 (Nat.mul_lt_mul_of_pos_right ?_ hB)
      rw [hW]; omega
    · exact Nat.div_pos (le_trans F.ge (Nat.le_mul_of_pos_left _ (by omega))) hB
  have base : step3pos m2 e2 s acc = (if q ≤ 21 then
      if 4 * m2 % 5 = 0 then
        some ⟨4 * m2 * 2 ^ (e2 - q) / 5 ^ q, (4 * m2 + 2) * 2 ^ (e2 - q) / 5 ^ q, (4 * m2 - 1 - s) * 2 ^ (e2 - q) / 5 ^ q, q, false, decide (5 ^ q ∣ 4 * m2)⟩
      else if acc then
        some ⟨4 * m2 * 2 ^ (e2 - q) / 5 ^ q, (4 * m2 + 2) * 2 ^ (e2 - q) / 5 ^ q, (4 * m2 - 1 - s) * 2 ^ (e2 - q) / 5 ^ q, q, decide (5 ^ q ∣ 4 * m2 - 1 - s), false⟩
      else
        some ⟨4 * m2 * 2 ^ (e2 - q) / 5 ^ q, ((4 * m2 + 2) * 2 ^ (e2 - q) / 5 ^ q + W64 - (if decide (5 ^ q ∣ 4 * m2 + 2) then 1 else 0)) % W64,
          (4 * m2 - 1 - s) * 2 ^ (e2 - q) / 5 ^ q, q, false, false⟩
      else some ⟨4 * m2 * 2 ^ (e2 - q) / 5 ^ q, (4 * m2 + 2) * 2 ^ (e2 - q) / 5 ^ q, (4 * m2 - 1 - s) * 2 ^ (e2 - q) / 5 ^ q, q, false, false⟩) := by
    have f1 := multiple5 (v := 4 * m2) (p := q) (by omega) (by rw [hW]; omega)
    have f2 := multiple5 (v := 4 * m2 - 1 - s) (p := q) (by omega) (by rw [hW]; omega)
    have f3 := multiple5 (v := 4 * m2 + 2) (p := q) (by omega) (by rw [hW]; omega)
    exact step3pos_of F.log hq F.bits F.entry hi hA e1 (mod32_eq (by decide) (by decide)) f1 e2' f2 e3 f3
  rw [base]
  by_cases h21 : q ≤ 21
  · rw [if_pos h21]
    by_cases hm5 : 4 * m2 % 5 = 0
    · rw [if_pos hm5]
      refine ⟨_, q, rfl, F.le, rfl, R _ rfl rfl (.inl ⟨rfl, fun _ hc => ?_⟩) (by simp) (fun _ hc => ?_) (fun hr => Dvd.dvd.mul_right (of_decide_eq_true hr) _)⟩
      · have := dvd_trans (dvd_pow_self 5 (Nat.succ_ne_zero q)) (ten_five hc); omega
      · have := dvd_trans (dvd_pow_self 5 (Nat.succ_ne_zero q)) (ten_five hc); omega
    · rw [if_neg hm5]
      cases hac : acc with
      | true =>
        rw [if_pos rfl]
        refine ⟨_, q, rfl, F.le, rfl, ?_⟩
        have R := R ⟨4 * m2 * 2 ^ (e2 - q) / 5 ^ q, (4 * m2 + 2) * 2 ^ (e2 - q) / 5 ^ q, (4 * m2 - 1 - s) * 2 ^ (e2 - q) / 5 ^ q, q, decide (5 ^ q ∣ 4 * m2 - 1 - s), false⟩ rfl rfl
        rw [hac] at R
        refine R (.inl ⟨rfl, by simp⟩) (fun ht => ⟨rfl, Dvd.dvd.mul_right (of_decide_eq_true ht) _⟩) (fun _ hc => decide_eq_true ?_) (by simp)
        exact dvd_trans (Nat.pow_dvd_pow 5 (Nat.le_succ q)) (ten_five hc)
      | false =>
        rw [if_neg (by simp)]
        refine ⟨_, q, rfl, F.le, rfl, ?_⟩
        have R := R ⟨4 * m2 * 2 ^ (e2 - q) / 5 ^ q, ((4 * m2 + 2) * 2 ^ (e2 - q) / 5 ^ q + W64 - (if decide (5 ^ q ∣ 4 * m2 + 2) then 1 else 0)) % W64,
          (4 * m2 - 1 - s) * 2 ^ (e2 - q) / 5 ^ q, q, false, false⟩ rfl rfl
        rw [hac] at R
        refine R ?_ (by simp) (by simp) (by simp)
        dsimp only
        by_cases ht : 5 ^ q ∣ 4 * m2 + 2
        · refine .inr ⟨rfl, Dvd.dvd.mul_right ht _, ?_⟩
          rw [decide_eq_true ht, if_pos rfl]
          revert hp64
          generalize (4 * m2 + 2) * 2 ^ (e2 - q) / 5 ^ q = z
          rw [hW]
          omega
        · refine .inl ⟨?_, fun _ hc => ht (dvd_trans (Nat.pow_dvd_pow 5 (Nat.le_succ q)) (ten_five hc))⟩
          rw [decide_eq_false ht, if_neg (by simp)]
          revert hp64
          generalize (4 * m2 + 2) * 2 ^ (e2 - q) / 5 ^ q = z
          rw [hW]
          omega
  · rw [if_neg h21]
    have big : ∀ {m : Nat}, 10 * 5 ^ q ∣ m * 2 ^ (e2 - q) → 11920928955078125 ∣ m := by
      intro m hc
      have h5 : (5 : Nat) ^ 23 = 11920928955078125 := by norm_num
      have h23 : 5 ^ 23 ∣ 5 ^ (q + 1) := Nat.pow_dvd_pow 5 (by omega)
      rw [h5] at h23
      exact dvd_trans h23 (ten_five hc)
    refine ⟨_, q, rfl, F.le, rfl, R _ rfl rfl (.inl ⟨rfl, fun ha hc => ?_⟩) (by simp) (fun ha hc => ?_) (by simp)⟩
    · obtain ⟨k, hk⟩ := big hc
      rw [ha] at hacc
      simp only [Bool.false_eq_true, false_iff] at hacc
      exact hacc (big_up hk hm')
    · exfalso
      obtain ⟨k, hk⟩ := big hc
      rw [show (2 : Nat) ^ 52 = 4503599627370496 by norm_num] at hs
      have h1 := big_down hk hm hm' hs
      have h2 := hacc.1 ha
      rw [h1] at h2
      exact absurd h2 (by decide)

/-- Step 3 for negative exponents. -/
theorem step3neg_spec {n : Nat} (h0 : 0 < n) (he : n < 1077) : ∃ v q, step3neg m2 n s acc = some v ∧ q ≤ n ∧ v.e10 = (q : Int) - n ∧
    Ready acc ((4 * m2 - 1 - s) * 5 ^ (n - q)) (4 * m2 * 5 ^ (n - q)) ((4 * m2 + 2) * 5 ^ (n - q)) (2 ^ q) v := by
  obtain ⟨q, pb, mul, F⟩ := neg_facts h0 he
  have hs1 : s ≤ 1 := by omega
  have hm53 := hm'
  rw [show (2 : Nat) ^ 53 = 9007199254740992 by norm_num] at hm'
  have hB : 0 < 2 ^ q := by positivity
  have hA := all_eq hm hm53 hs1 F.m1 F.m2 (by have := F.lo; omega) F.hi F.quot hB F.lt
  have hq : (q + (if n > 1 then 1 else 0) + W32 - (if n > 1 then 1 else 0)) % W32 = q := by
    have := F.le
    rw [show W32 = 4294967296 from rfl]
    generalize (if n > 1 then 1 else 0) = d
    omega
  have hi : ((q : Int) - ((pb : Int) - 125)).toNat = q + 125 - pb := by have := F.lo; omega
  have hW : W64 = 18446744073709551616 := rfl
  have e1 : 4 * m2 % W64 = 4 * m2 := by rw [hW]; omega
  have hten : 2 ^ q = 1 ∨ 10 * 2 ^ q ≤ 5 ^ (n - q) := by
    rcases F.ten with h | h
    · left; rw [h]; rfl
    · exact .inr h
  have R := fun v => ready_of (m2 := m2) (s := s) (A := 5 ^ (n - q)) (B := 2 ^ q) (acc := acc) (v := v) hm hm53 hs1 hB F.lt F.ge hten
  have hp64 : (4 * m2 + 2) * 5 ^ (n - q) / 2 ^ q < W64 ∧ 0 < (4 * m2 + 2) * 5 ^ (n - q) / 2 ^ q := by
    constructor
    · rw [Nat.div_lt_iff_lt_mul hB]
      have h1 : (4 * m2 + 2) * 5 ^ (n - q) ≤ (4 * m2 + 2) * (100 * 2 ^ q) := Nat.mul_le_mul_left _ F.lt.le
      have h2 : (4 * m2 + 2) * (100 * 2 ^ q) = ((4 * m2 + 2) * 100) * 2 ^ q := by ring
      rw [h2] at h1
      refine lt_of_le_of_lt h1 (Nat.mul_lt_mul_of_pos_right ?_ hB)
      rw [hW]; omega
    · exact Nat.div_pos (le_trans F.ge (Nat.le_mul_of_pos_left _ (by omega))) hB
  have base : step3neg m2 n s acc = (if q ≤ 1 then
      if acc then some ⟨4 * m2 * 5 ^ (n - q) / 2 ^ q, (4 * m2 + 2) * 5 ^ (n - q) / 2 ^ q, (4 * m2 - 1 - s) * 5 ^ (n - q) / 2 ^ q, (q : Int) - n, s == 1, true⟩
      else some ⟨4 * m2 * 5 ^ (n - q) / 2 ^ q, ((4 * m2 + 2) * 5 ^ (n - q) / 2 ^ q + W64 - 1) % W64, (4 * m2 - 1 - s) * 5 ^ (n - q) / 2 ^ q, (q : Int) - n, false, true⟩
      else if q < 63 then some ⟨4 * m2 * 5 ^ (n - q) / 2 ^ q, (4 * m2 + 2) * 5 ^ (n - q) / 2 ^ q, (4 * m2 - 1 - s) * 5 ^ (n - q) / 2 ^ q, (q : Int) - n, false, decide (2 ^ q ∣ 4 * m2)⟩
      else some ⟨4 * m2 * 5 ^ (n - q) / 2 ^ q, (4 * m2 + 2) * 5 ^ (n - q) / 2 ^ q, (4 * m2 - 1 - s) * 5 ^ (n - q) / 2 ^ q, (q : Int) - n, false, false⟩) := by
    exact step3neg_of F.log hq F.bits F.entry hi hA e1 (fun h63 => multiple2 (by omega) (by omega))
  rw [base]
  have two : ∀ {m : Nat}, q ≤ 1 → m % 2 = 0 → 2 ^ q ∣ m := by
    intro m hq hm
    have : q = 0 ∨ q = 1 := by omega
    rcases this with rfl | rfl
    · simp
    · simp; omega
  have eight : ∀ {m : Nat}, ¬ q ≤ 1 → 10 * 2 ^ q ∣ m * 5 ^ (n - q) → 8 ∣ m := by
    intro m hq hc
    exact dvd_trans (Nat.pow_dvd_pow 2 (show 3 ≤ q + 1 by omega)) (ten_two hc)
  by_cases h1 : q ≤ 1
  · rw [if_pos h1]
    cases hac : acc with
    | true =>
      rw [if_pos rfl]
      refine ⟨_, q, rfl, F.le, rfl, ?_⟩
      have R := R ⟨4 * m2 * 5 ^ (n - q) / 2 ^ q, (4 * m2 + 2) * 5 ^ (n - q) / 2 ^ q, (4 * m2 - 1 - s) * 5 ^ (n - q) / 2 ^ q, (q : Int) - n, s == 1, true⟩ rfl rfl
      rw [hac] at R
      refine R (.inl ⟨rfl, by simp⟩) (fun ht => ⟨rfl, Dvd.dvd.mul_right (two h1 ?_) _⟩) (fun _ hc => ?_) (fun _ => Dvd.dvd.mul_right (two h1 (by omega)) _)
      · simp only [beq_iff_eq] at ht; omega
      · have := dvd_trans (dvd_pow_self 2 (Nat.succ_ne_zero q)) (ten_two hc)
        simp only [beq_iff_eq]; omega
    | false =>
      rw [if_neg (by simp)]
      refine ⟨_, q, rfl, F.le, rfl, ?_⟩
      have R := R ⟨4 * m2 * 5 ^ (n - q) / 2 ^ q, ((4 * m2 + 2) * 5 ^ (n - q) / 2 ^ q + W64 - 1) % W64, (4 * m2 - 1 - s) * 5 ^ (n - q) / 2 ^ q, (q : Int) - n, false, true⟩ rfl rfl
      rw [hac] at R
      refine R (.inr ⟨rfl, Dvd.dvd.mul_right (two h1 (by omega)) _, ?_⟩) (by simp) (by simp) (fun _ => Dvd.dvd.mul_right (two h1 (by omega)) _)
      dsimp only
      revert hp64
      generalize (4 * m2 + 2) * 5 ^ (n - q) / 2 ^ q = z
      rw [hW]
      omega
  · rw [if_neg h1]
    by_cases h63 : q < 63
    · rw [if_pos h63]
      exact ⟨_, q, rfl, F.le, rfl, R _ rfl rfl (.inl ⟨rfl, fun _ hc => by have := eight h1 hc; omega⟩) (by simp) (fun _ hc => by have := eight h1 hc; omega)
        (fun hr => Dvd.dvd.mul_right (of_decide_eq_true hr) _)⟩
    · rw [if_neg h63]
      exact ⟨_, q, rfl, F.le, rfl, R _ rfl rfl (.inl ⟨rfl, fun _ hc => by have := eight h1 hc; omega⟩) (by simp) (fun _ hc => by have := eight h1 hc; omega) (by simp)⟩

end

end Tg.Ryu
