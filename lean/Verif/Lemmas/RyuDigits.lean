import Verif.Model.Ryu
import Mathlib.Tactic.Ring
import Mathlib.Tactic.Linarith
import Mathlib.Algebra.Order.Group.Abs
import Mathlib.Algebra.Order.Ring.Int
/-! Step 4 of Ryu: the digits that are removed. All values are multiplied with `B`: the number is `V / B`, the ends of its interval are `N / B` and `P / B`. -/
set_option linter.unusedSectionVars false
namespace Tg.Ryu

theorem mod32_eq {n v : Nat} (hn : n < 1000000000) (h0 : 0 < n) : mod32 n v = v % n := by
  have hd := Nat.div_add_mod v n
  have hm := Nat.mod_lt v h0
  unfold mod32
  have hW : W32 = 4294967296 := rfl
  have e : (n * (v / n % W32)) % W32 = (n * (v / n)) % W32 := by rw [Nat.mul_mod, Nat.mod_mod, ← Nat.mul_mod]
  rw [e]
  generalize n * (v / n) = c at *
  rw [hW] at *
  omega

/-- `n / B` is in the interval. -/
def Inside (acc : Bool) (N P B n : Nat) : Prop := if acc then N ≤ n * B ∧ n * B ≤ P else N < n * B ∧ n * B < P

/-- What is known after step 3. -/
structure Ready (acc : Bool) (N V P B : Nat) (v : Vals) : Prop where
  B0 : 0 < B
  NV : N + B ≤ V
  VP : V < P
  mid : V + V ≤ N + P
  wide : B = 1 ∨ N + 10 * B < P
  pos : 0 < N
  vr : v.vr = V / B
  vm : v.vm = N / B
  vp : ∀ n, 10 ∣ n → (n ≤ v.vp ↔ if acc then n * B ≤ P else n * B < P)
  vpV : v.vr ≤ v.vp
  vp64 : v.vp < 10 ^ 20
  tz : v.vmTz = true → acc = true ∧ B ∣ N
  tz' : acc = true → 10 * B ∣ N → v.vmTz = true
  rz : v.vrTz = true → B ∣ V

/-- The digit removed last. -/
def lastOf (vr : Nat) : Nat → Nat
  | 0 => 0
  | r + 1 => vr / 10 ^ r % 10

/-- The state after `r` digits. -/
def stAt (v : Vals) (r : Nat) : St :=
  ⟨v.vr / 10 ^ r, v.vp / 10 ^ r, v.vm / 10 ^ r, r, lastOf v.vr r, v.vmTz && v.vm % 10 ^ r == 0, v.vrTz && v.vr % 10 ^ (r - 1) == 0⟩

theorem div_succ (n r : Nat) : n / 10 ^ r / 10 = n / 10 ^ (r + 1) := by rw [Nat.div_div_eq_div_mul, Nat.pow_succ]

theorem mod_succ (n r : Nat) : n % 10 ^ (r + 1) = 0 ↔ n % 10 ^ r = 0 ∧ n / 10 ^ r % 10 = 0 := by
  rw [Nat.pow_succ, Nat.mod_mul]
  constructor
  · intro h
    have h1 : 10 ^ r * (n / 10 ^ r % 10) = 0 := by omega
    refine ⟨by omega, ?_⟩
    rcases Nat.mul_eq_zero.1 h1 with h | h
    · exact absurd h (by positivity)
    · exact h
  · rintro ⟨h1, h2⟩; rw [h1, h2]; rfl

theorem next_vrTz (v : Vals) (r : Nat) : ((v.vrTz && v.vr % 10 ^ (r - 1) == 0) && lastOf v.vr r == 0) = (v.vrTz && v.vr % 10 ^ (r + 1 - 1) == 0) := by
  cases r with
  | zero => simp [lastOf]
  | succ r =>
    rw [Bool.eq_iff_iff]
    simp only [lastOf, Nat.add_sub_cancel, Bool.and_eq_true, beq_iff_eq]
    rw [mod_succ v.vr r]; tauto

theorem loopGen_step (v : Vals) (f r : Nat) :
    loopGen (f + 1) (stAt v r) = if v.vp / 10 ^ (r + 1) ≤ v.vm / 10 ^ (r + 1) then some (stAt v r) else loopGen f (stAt v (r + 1)) := by
  have e : (⟨(stAt v r).vr / 10, (stAt v r).vp / 10, (stAt v r).vm / 10, (stAt v r).removed + 1, mod32 10 (stAt v r).vr, (stAt v r).vmTz && mod32 10 (stAt v r).vm == 0,
      (stAt v r).vrTz && (stAt v r).last == 0⟩ : St) = stAt v (r + 1) := by
    unfold stAt
    dsimp only
    rw [div_succ, div_succ, div_succ, mod32_eq (by decide) (by decide), mod32_eq (by decide) (by decide), next_vrTz]
    congr 1
    rw [Bool.eq_iff_iff]
    simp only [Bool.and_eq_true, beq_iff_eq]
    rw [mod_succ v.vm r]; tauto
  rw [loopGen, e]
  simp only [stAt, div_succ]

theorem loopZero_step (v : Vals) (f r : Nat) (h : (stAt v r).vmTz = true) :
    loopZero (f + 1) (stAt v r) = if v.vm / 10 ^ r % 10 ≠ 0 then some (stAt v r) else loopZero f (stAt v (r + 1)) := by
  rw [loopZero]
  have e0 : mod32 10 (stAt v r).vm = v.vm / 10 ^ r % 10 := by rw [mod32_eq (by decide) (by decide)]; rfl
  rw [e0]
  by_cases hc : v.vm / 10 ^ r % 10 ≠ 0
  · rw [if_pos hc, if_pos hc]
  rw [if_neg hc, if_neg hc]
  congr 1
  have hz : v.vm % 10 ^ r = 0 := by
    simp only [stAt, Bool.and_eq_true, beq_iff_eq] at h; exact h.2
  have ht : v.vmTz = true := by
    simp only [stAt, Bool.and_eq_true] at h; exact h.1
  unfold stAt
  dsimp only
  rw [div_succ, div_succ, div_succ, mod32_eq (by decide) (by decide), next_vrTz]
  congr 1
  rw [Bool.eq_iff_iff]
  simp only [Bool.and_eq_true, beq_iff_eq]
  rw [mod_succ v.vm r]
  have := not_not.1 hc
  tauto

/-- After the first loop. -/
theorem loopGen_spec (v : Vals) : ∀ f r, v.vp < 10 ^ (r + f) → ∃ r', r ≤ r' ∧ loopGen (f + 1) (stAt v r) = some (stAt v r') ∧ v.vp / 10 ^ (r' + 1) ≤ v.vm / 10 ^ (r' + 1) ∧
    (r' = r ∨ v.vm / 10 ^ r' < v.vp / 10 ^ r') := by
  intro f
  induction f with
  | zero =>
    intro r h
    refine ⟨r, le_refl _, ?_, ?_, .inl rfl⟩
    · rw [loopGen_step, if_pos]
      rw [Nat.div_eq_of_lt (lt_of_lt_of_le h (Nat.pow_le_pow_right (by decide) (by omega)))]; exact Nat.zero_le _
    · rw [Nat.div_eq_of_lt (lt_of_lt_of_le h (Nat.pow_le_pow_right (by decide) (by omega)))]; exact Nat.zero_le _
  | succ f ih =>
    intro r h
    rw [loopGen_step]
    by_cases hc : v.vp / 10 ^ (r + 1) ≤ v.vm / 10 ^ (r + 1)
    · rw [if_pos hc]; exact ⟨r, le_refl _, rfl, hc, .inl rfl⟩
    · rw [if_neg hc]
      obtain ⟨r', h1, h2, h3, h4⟩ := ih (r + 1) (by rw [show r + 1 + f = r + (f + 1) by omega]; exact h)
      refine ⟨r', by omega, h2, h3, .inr ?_⟩
      rcases h4 with rfl | h4
      · omega
      · exact h4

theorem div_le_succ {a b r : Nat} (h : a / 10 ^ r ≤ b / 10 ^ r) : a / 10 ^ (r + 1) ≤ b / 10 ^ (r + 1) := by
  rw [← div_succ, ← div_succ]; exact Nat.div_le_div_right h

/-- After the second loop. -/
theorem loopZero_spec (v : Vals) (h0 : 0 < v.vm) : ∀ f r, (stAt v r).vmTz = true → v.vm < 10 ^ (r + f) → v.vp / 10 ^ (r + 1) ≤ v.vm / 10 ^ (r + 1) →
    ∃ r', r ≤ r' ∧ loopZero (f + 1) (stAt v r) = some (stAt v r') ∧ v.vp / 10 ^ (r' + 1) ≤ v.vm / 10 ^ (r' + 1) ∧ (stAt v r').vmTz = true ∧ v.vm / 10 ^ r' % 10 ≠ 0 := by
  intro f
  induction f with
  | zero =>
    intro r ht h hp
    rw [Nat.add_zero] at h
    simp only [stAt, Bool.and_eq_true, beq_iff_eq] at ht
    rw [Nat.mod_eq_of_lt h] at ht
    omega
  | succ f ih =>
    intro r ht h hp
    rw [loopZero_step _ _ _ ht]
    by_cases hc : v.vm / 10 ^ r % 10 ≠ 0
    · rw [if_pos hc]; exact ⟨r, le_refl _, rfl, hp, ht, hc⟩
    · rw [if_neg hc]
      have ht' : (stAt v (r + 1)).vmTz = true := by
        simp only [stAt, Bool.and_eq_true, beq_iff_eq] at ht ⊢
        rw [mod_succ]; exact ⟨ht.1, ht.2, not_not.1 hc⟩
      obtain ⟨r', h1, h2⟩ := ih (r + 1) ht' (by rw [show r + 1 + f = r + (f + 1) by omega]; exact h) (div_le_succ hp)
      exact ⟨r', by omega, h2⟩

section
variable {acc : Bool} {N V P B : Nat} {v : Vals} (h : Ready acc N V P B v)
include h

theorem Ready.vmPos (ht : v.vmTz = true) : 0 < v.vm := by
  obtain ⟨-, k, hk⟩ := h.tz ht
  have := h.pos; have := h.B0
  rw [h.vm, hk, Nat.mul_div_cancel_left _ h.B0]
  rcases Nat.eq_zero_or_pos k with rfl | hk0
  · simp at hk; omega
  · exact hk0

theorem Ready.vm_le : v.vm ≤ v.vr := by
  rw [h.vm, h.vr]; exact Nat.div_le_div_right (by have := h.NV; omega)

/-- The unscaled values. -/
theorem Ready.lower (u r : Nat) : N < u * 10 ^ r * B ↔ v.vm / 10 ^ r < u := by
  rw [h.vm, Nat.div_div_eq_div_mul, Nat.div_lt_iff_lt_mul (Nat.mul_pos h.B0 (by positivity)), Nat.mul_comm B, Nat.mul_assoc]

theorem Ready.upper (u r : Nat) : u ≤ v.vp / 10 ^ (r + 1) ↔ if acc then u * 10 ^ (r + 1) * B ≤ P else u * 10 ^ (r + 1) * B < P := by
  rw [Nat.le_div_iff_mul_le (by positivity)]
  exact h.vp _ (Dvd.dvd.mul_left (dvd_pow_self 10 (Nat.succ_ne_zero r)) u)

theorem Ready.exact {r : Nat} (ht : (stAt v r).vmTz = true) : acc = true ∧ N = v.vm / 10 ^ r * 10 ^ r * B := by
  simp only [stAt, Bool.and_eq_true, beq_iff_eq] at ht
  obtain ⟨h1, k, hk⟩ := h.tz ht.1
  refine ⟨h1, ?_⟩
  rw [Nat.div_mul_cancel (Nat.dvd_of_mod_eq_zero ht.2), h.vm, Nat.div_mul_cancel ⟨k, hk⟩]

/-- The number lies between `vr` and `vr + 1`. -/
theorem Ready.between (r : Nat) : v.vr / 10 ^ r * 10 ^ r * B ≤ V ∧ V < (v.vr / 10 ^ r + 1) * 10 ^ r * B := by
  rw [h.vr, Nat.div_div_eq_div_mul, Nat.mul_assoc, Nat.mul_assoc, Nat.mul_comm _ B]
  have hp : 0 < B * 10 ^ r := Nat.mul_pos h.B0 (by positivity)
  exact ⟨Nat.div_mul_le_self _ _, by
    have := Nat.div_add_mod V (B * 10 ^ r)
    have := Nat.mod_lt V hp
    rw [Nat.add_mul, Nat.mul_comm (V / _)]; omega⟩

/-- The digit removed last tells on which side of the middle the number is. -/
theorem Ready.half (r : Nat) : (5 ≤ lastOf v.vr (r + 1) → (2 * (v.vr / 10 ^ (r + 1)) + 1) * (10 ^ (r + 1) * B) ≤ 2 * V) ∧
    (lastOf v.vr (r + 1) < 5 → 2 * V < (2 * (v.vr / 10 ^ (r + 1)) + 1) * (10 ^ (r + 1) * B)) := by
  have hb := h.between r
  have e := Nat.div_add_mod (v.vr / 10 ^ r) 10
  rw [div_succ] at e
  simp only [lastOf]
  generalize v.vr / 10 ^ r % 10 = d at *
  generalize v.vr / 10 ^ (r + 1) = w at *
  rw [← e] at hb
  have eq1 : 10 ^ (r + 1) * B = 10 * (10 ^ r * B) := by rw [Nat.pow_succ]; ring
  rw [Nat.mul_assoc, Nat.mul_assoc] at hb
  rw [eq1]
  generalize 10 ^ r * B = T at *
  constructor
  · intro hd
    have : (10 * w + 5) * T ≤ (10 * w + d) * T := Nat.mul_le_mul_right _ (by omega)
    have : (2 * w + 1) * (10 * T) = 2 * ((10 * w + 5) * T) := by ring
    omega
  · intro hd
    have : (10 * w + d + 1) * T ≤ (10 * w + 5) * T := Nat.mul_le_mul_right _ (by omega)
    have : (2 * w + 1) * (10 * T) = 2 * ((10 * w + 5) * T) := by ring
    omega

/-- If nothing is removed then the number is an integer. -/
theorem Ready.zero (hp : v.vp / 10 ≤ v.vm / 10) : B = 1 := by
  rcases h.wide with hB | hw
  · exact hB
  exfalso
  have h1 := (h.lower (v.vm / 10 + 1) 1).2 (by simp)
  have h2 : (v.vm / 10 + 1) * 10 * B ≤ N + 10 * B := by
    have : v.vm / 10 * 10 * B ≤ N := by
      have h3 : v.vm / 10 * 10 ≤ v.vm := Nat.div_mul_le_self _ _
      have h4 : v.vm * B ≤ N := by rw [h.vm]; exact Nat.div_mul_le_self _ _
      exact le_trans (Nat.mul_le_mul_right _ h3) h4
    have : (v.vm / 10 + 1) * 10 * B = v.vm / 10 * 10 * B + 10 * B := by ring
    omega
  have h3 := (h.upper (v.vm / 10 + 1) 0).2 (by
    rw [Nat.zero_add, Nat.pow_one]
    split_ifs <;> omega)
  rw [Nat.zero_add, Nat.pow_one] at h3
  omega

/-- What the conversion is for. -/
structure Best (acc : Bool) (N V P B out r : Nat) : Prop where
  inside : Inside acc N P B (out * 10 ^ r)
  shortest : ∀ u t, r < t → ¬ Inside acc N P B (u * 10 ^ t)
  closest : ∀ u, Inside acc N P B (u * 10 ^ r) → |((out * 10 ^ r * B : Nat) : ℤ) - V| ≤ |((u * 10 ^ r * B : Nat) : ℤ) - V|

/-- The choice of the last digit. -/
theorem Ready.finish {r : Nat} {up : Bool} (hp : v.vp / 10 ^ (r + 1) ≤ v.vm / 10 ^ (r + 1))
    (hm : r = 0 ∨ v.vm / 10 ^ r < v.vp / 10 ^ r ∨ (stAt v r).vmTz = true) (hz : (stAt v r).vmTz = true → v.vm / 10 ^ r % 10 ≠ 0)
    (h1 : up = true → 5 ≤ lastOf v.vr r)
    (h2 : up = false → lastOf v.vr r < 5 ∨ (r ≠ 0 ∧ 2 * V ≤ (2 * (v.vr / 10 ^ r) + 1) * (10 ^ r * B))) :
    Best acc N V P B (v.vr / 10 ^ r + if (v.vr / 10 ^ r == v.vm / 10 ^ r && (!acc || !(stAt v r).vmTz)) || up then 1 else 0) r := by
  have hNV := h.NV; have hVP := h.VP; have hB := h.B0; have hmid := h.mid
  have short : ∀ u t, r < t → ¬ Inside acc N P B (u * 10 ^ t) := by
    intro u t ht hin
    obtain ⟨u', hu⟩ : ∃ u', u * 10 ^ t = u' * 10 ^ (r + 1) := ⟨u * 10 ^ (t - (r + 1)), by rw [Nat.mul_assoc, ← Nat.pow_add]; congr 2; omega⟩
    rw [hu] at hin
    have hup : u' ≤ v.vp / 10 ^ (r + 1) := (h.upper u' r).2 (by unfold Inside at hin; split_ifs at hin ⊢ <;> exact hin.2)
    have hlow := h.lower u' (r + 1)
    cases hacc : acc with
    | false =>
      rw [Inside, hacc, if_neg (by simp)] at hin
      have := hlow.1 hin.1; omega
    | true =>
      rw [Inside, hacc, if_pos rfl] at hin
      have hn : ¬ N < u' * 10 ^ (r + 1) * B := fun hc => by have := hlow.1 hc; omega
      have hN : N = u' * 10 ^ (r + 1) * B := by omega
      have hvm : v.vm = u' * 10 ^ (r + 1) := by rw [h.vm, hN, Nat.mul_div_cancel _ hB]
      have ht1 : v.vmTz = true := h.tz' hacc (by
        rw [hN, Nat.pow_succ]; exact ⟨u' * 10 ^ r, by ring⟩)
      have hmod : v.vm % 10 ^ (r + 1) = 0 := by rw [hvm]; exact Nat.mul_mod_left _ _
      have := (mod_succ _ _).1 hmod
      exact hz (by simp only [stAt, Bool.and_eq_true, beq_iff_eq]; exact ⟨ht1, this.1⟩) this.2
  have hbet := h.between r
  have hlow := h.lower
  have hvle : v.vm / 10 ^ r ≤ v.vr / 10 ^ r := Nat.div_le_div_right h.vm_le
  have hex := h.exact (r := r)
  -- the two candidates
  have down : (v.vm / 10 ^ r < v.vr / 10 ^ r ∨ (stAt v r).vmTz = true) → Inside acc N P B (v.vr / 10 ^ r * 10 ^ r) := by
    intro hc
    have hc' : N < v.vr / 10 ^ r * 10 ^ r * B ∨ (acc = true ∧ N ≤ v.vr / 10 ^ r * 10 ^ r * B) := by
      rcases hc with hc | hc
      · exact .inl ((hlow _ _).2 hc)
      · obtain ⟨e1, e2⟩ := hex hc
        refine .inr ⟨e1, ?_⟩
        exact e2.le.trans (Nat.mul_le_mul_right _ (Nat.mul_le_mul_right _ hvle))
    unfold Inside
    cases acc with
    | false => rw [if_neg (by simp)]; rcases hc' with hc' | hc' <;> [exact ⟨hc', by omega⟩; exact absurd hc'.1 (by simp)]
    | true => rw [if_pos rfl]; exact ⟨by rcases hc' with hc' | hc' <;> omega, by omega⟩
  have upIn : (if acc then (v.vr / 10 ^ r + 1) * 10 ^ r * B ≤ P else (v.vr / 10 ^ r + 1) * 10 ^ r * B < P) → Inside acc N P B ((v.vr / 10 ^ r + 1) * 10 ^ r) := by
    intro hc
    unfold Inside
    split_ifs at hc ⊢ <;> exact ⟨by omega, hc⟩
  have forced : r ≠ 0 → v.vr / 10 ^ r = v.vm / 10 ^ r → (stAt v r).vmTz = false → Inside acc N P B ((v.vr / 10 ^ r + 1) * 10 ^ r) := by
    intro hr he ht
    apply upIn
    obtain ⟨r', rfl⟩ : ∃ r', r = r' + 1 := ⟨r - 1, by omega⟩
    refine (h.upper _ r').1 ?_
    rcases hm with hm | hm | hm
    · exact absurd hm hr
    · rw [he]; exact hm
    · rw [ht] at hm; exact absurd hm (by simp)
  -- distances
  have e1 : (v.vr / 10 ^ r + 1) * 10 ^ r * B = v.vr / 10 ^ r * 10 ^ r * B + 10 ^ r * B := by ring
  have e2 : (2 * (v.vr / 10 ^ r) + 1) * (10 ^ r * B) = 2 * (v.vr / 10 ^ r * 10 ^ r * B) + 10 ^ r * B := by ring
  have far : ∀ u, u ≤ v.vr / 10 ^ r → u * 10 ^ r * B ≤ v.vr / 10 ^ r * 10 ^ r * B := fun u hu => Nat.mul_le_mul_right _ (Nat.mul_le_mul_right _ hu)
  have far' : ∀ u, v.vr / 10 ^ r < u → (v.vr / 10 ^ r + 1) * 10 ^ r * B ≤ u * 10 ^ r * B := fun u hu => Nat.mul_le_mul_right _ (Nat.mul_le_mul_right _ hu)
  have nearDown : 2 * V ≤ (2 * (v.vr / 10 ^ r) + 1) * (10 ^ r * B) → ∀ u : Nat,
      |((v.vr / 10 ^ r * 10 ^ r * B : Nat) : ℤ) - V| ≤ |((u * 10 ^ r * B : Nat) : ℤ) - V| := by
    intro hd u
    rw [e2] at hd
    rw [abs_of_nonpos (by omega)]
    rcases Nat.lt_or_ge (v.vr / 10 ^ r) u with hu | hu
    · have := far' u hu
      refine le_trans ?_ (le_abs_self _); omega
    · have := far u hu
      refine le_trans ?_ (neg_le_abs _); omega
  have nearUp : ∀ u : Nat, (u ≤ v.vr / 10 ^ r → (2 * (v.vr / 10 ^ r) + 1) * (10 ^ r * B) ≤ 2 * V) →
      |(((v.vr / 10 ^ r + 1) * 10 ^ r * B : Nat) : ℤ) - V| ≤ |((u * 10 ^ r * B : Nat) : ℤ) - V| := by
    intro u hd
    rw [abs_of_nonneg (by omega)]
    rcases Nat.lt_or_ge (v.vr / 10 ^ r) u with hu | hu
    · have := far' u hu
      refine le_trans ?_ (le_abs_self _); omega
    · have := far u hu
      have := hd hu
      refine le_trans ?_ (neg_le_abs _); omega
  by_cases hr : r = 0
  · -- nothing is removed
    subst hr
    have hB1 := h.zero (by simpa using hp)
    have hup : up = false := by
      cases up with
      | false => rfl
      | true => have := h1 rfl; simp [lastOf] at this
    have hlt : v.vm / 10 ^ 0 < v.vr / 10 ^ 0 := by
      rw [Nat.pow_zero, Nat.div_one, Nat.div_one, h.vm, h.vr, hB1, Nat.div_one, Nat.div_one]; omega
    have hc : ((v.vr / 10 ^ 0 == v.vm / 10 ^ 0 && (!acc || !(stAt v 0).vmTz)) || up) = false := by
      rw [hup, Bool.or_false, show (v.vr / 10 ^ 0 == v.vm / 10 ^ 0) = false by rw [beq_eq_false_iff_ne]; omega, Bool.false_and]
    rw [hc]
    refine ⟨down (.inl hlt), short, fun u _ => ?_⟩
    have hV : v.vr / 10 ^ 0 * 10 ^ 0 * B = V := by rw [Nat.pow_zero, Nat.div_one, h.vr, hB1]; simp
    simp only [Bool.false_eq_true, if_false, Nat.add_zero]
    rw [hV, sub_self, abs_zero]; exact abs_nonneg _
  obtain ⟨r', rfl⟩ : ∃ r', r = r' + 1 := ⟨r - 1, by omega⟩
  have hhalf := h.half r'
  by_cases hf : (v.vr / 10 ^ (r' + 1) == v.vm / 10 ^ (r' + 1) && (!acc || !(stAt v (r' + 1)).vmTz)) = true
  · -- the lower candidate is outside
    rw [hf, Bool.true_or, if_pos rfl]
    simp only [Bool.and_eq_true, beq_iff_eq, Bool.or_eq_true, Bool.not_eq_true'] at hf
    obtain ⟨hf1, hf2⟩ := hf
    have ht : (stAt v (r' + 1)).vmTz = false := by
      cases ht : (stAt v (r' + 1)).vmTz with
      | false => rfl
      | true => have := (hex ht).1; rcases hf2 with hf2 | hf2 <;> simp_all
    refine ⟨forced hr hf1 ht, short, fun u hu => nearUp u fun hle => ?_⟩
    exfalso
    have hn : ¬ N < u * 10 ^ (r' + 1) * B := fun hc => by have := (hlow _ _).1 hc; omega
    unfold Inside at hu
    cases hacc : acc with
    | false => rw [hacc, if_neg (by simp)] at hu; exact hn hu.1
    | true =>
      rw [hacc, if_pos rfl] at hu
      have hN : N = u * 10 ^ (r' + 1) * B := by omega
      have hvm : v.vm = u * 10 ^ (r' + 1) := by rw [h.vm, hN, Nat.mul_div_cancel _ hB]
      have ht1 : v.vmTz = true := h.tz' hacc (by rw [hN, Nat.pow_succ]; exact ⟨u * 10 ^ r', by ring⟩)
      have : (stAt v (r' + 1)).vmTz = true := by
        simp only [stAt, Bool.and_eq_true, beq_iff_eq]; exact ⟨ht1, by rw [hvm]; exact Nat.mul_mod_left _ _⟩
      rw [ht] at this; exact absurd this (by simp)
  · have hin : v.vm / 10 ^ (r' + 1) < v.vr / 10 ^ (r' + 1) ∨ (stAt v (r' + 1)).vmTz = true := by
      by_contra hc
      rw [not_or, Bool.not_eq_true] at hc
      apply hf
      rw [hc.2, show v.vr / 10 ^ (r' + 1) = v.vm / 10 ^ (r' + 1) by omega]; simp
    rw [Bool.not_eq_true] at hf
    rw [hf, Bool.false_or]
    cases up with
    | false =>
      simp only [Bool.false_eq_true, if_false, Nat.add_zero]
      refine ⟨down hin, short, fun u _ => nearDown ?_ u⟩
      rcases h2 rfl with h2 | h2
      · exact (hhalf.2 h2).le
      · exact h2.2
    | true =>
      simp only [if_true]
      have hge := hhalf.1 (h1 rfl)
      refine ⟨upIn ?_, short, fun u _ => nearUp u fun _ => hge⟩
      rw [e2] at hge
      rcases Nat.lt_or_ge (v.vm / 10 ^ (r' + 1)) (v.vr / 10 ^ (r' + 1)) with hlt | hge'
      · have hN := (hlow _ _).2 hlt
        rw [e1]
        split_ifs <;> omega
      · have ht : (stAt v (r' + 1)).vmTz = true := by rcases hin with hin | hin; · omega
                                                      · exact hin
        obtain ⟨q1, q2⟩ := hex ht
        have he : v.vr / 10 ^ (r' + 1) = v.vm / 10 ^ (r' + 1) := by omega
        rw [← he] at q2
        rw [if_pos q1, e1]
        omega

theorem Ready.vm_lt : v.vm < 10 ^ 20 := lt_of_le_of_lt (le_trans h.vm_le h.vpV) h.vp64

omit h in
theorem step4gen_of {acc : Bool} {s1 s : St} (g1 : loopGen 64 ⟨v.vr, v.vp, v.vm, 0, 0, v.vmTz, v.vrTz⟩ = some s1)
    (f1 : (if s1.vmTz then loopZero 64 s1 else some s1) = some s) : step4gen v acc =
      some ((s.vr + (if (s.vr == s.vm && (!acc || !s.vmTz)) || decide (5 ≤ if s.vrTz && s.last == 5 && s.vr % 2 == 0 then 4 else s.last) then 1 else 0)) % W64, s.removed) := by
  unfold step4gen
  generalize loopGen 64 _ = x at g1
  subst g1
  cases ht : s1.vmTz with
  | false =>
    rw [ht] at f1
    cases f1
    simp only [Option.bind_eq_bind, Option.bind_some, ht]
    rfl
  | true =>
    rw [ht, if_pos rfl] at f1
    simp only [Option.bind_eq_bind, Option.bind_some, ht, if_true, f1]
    rfl

omit h in
theorem step4com_of {s1 : Nat × Nat × Nat × Nat × Bool} {vr vp vm r : Nat} {up : Bool}
    (hs : (if v.vp / 100 > v.vm / 100 then (v.vr / 100, v.vp / 100, v.vm / 100, 2, decide (50 ≤ mod32 100 v.vr)) else (v.vr, v.vp, v.vm, 0, false)) = s1)
    (k : loopCom 64 s1 = some (vr, vp, vm, r, up)) : step4com v = some ((vr + (if vr == vm || up then 1 else 0)) % W64, r) := by
  unfold step4com
  dsimp only
  rw [hs]
  generalize loopCom 64 s1 = y at k
  subst k
  rfl

/-- The general case. -/
theorem Ready.general : ∃ out r, step4gen v acc = some (out % W64, r) ∧ Best acc N V P B out r ∧ r < 64 := by
  have e0 : (⟨v.vr, v.vp, v.vm, 0, 0, v.vmTz, v.vrTz⟩ : St) = stAt v 0 := by simp [stAt, lastOf, Nat.mod_one]
  obtain ⟨r1, -, g1, g2, g3⟩ := loopGen_spec v 63 0 (lt_trans h.vp64 (by norm_num))
  rw [show 63 + 1 = 64 from rfl] at g1
  obtain ⟨r, f1, f2, f3, f4⟩ : ∃ r, (if (stAt v r1).vmTz then loopZero 64 (stAt v r1) else some (stAt v r1)) = some (stAt v r) ∧ v.vp / 10 ^ (r + 1) ≤ v.vm / 10 ^ (r + 1) ∧
      (r = 0 ∨ v.vm / 10 ^ r < v.vp / 10 ^ r ∨ (stAt v r).vmTz = true) ∧ ((stAt v r).vmTz = true → v.vm / 10 ^ r % 10 ≠ 0) := by
    cases ht : (stAt v r1).vmTz with
    | false => exact ⟨r1, if_neg (by simp), g2, by rcases g3 with g3 | g3 <;> simp [g3], by rw [ht]; simp⟩
    | true =>
      have hv : v.vmTz = true := by simp only [stAt, Bool.and_eq_true] at ht; exact ht.1
      obtain ⟨r, -, k1, k2, k3, k4⟩ := loopZero_spec v (h.vmPos hv) 63 r1 ht (lt_of_lt_of_le h.vm_lt (Nat.pow_le_pow_right (by decide) (by omega))) g2
      rw [show 63 + 1 = 64 from rfl] at k1
      rw [if_pos rfl]
      exact ⟨r, k1, k2, .inr (.inr k3), fun _ => k4⟩
  refine ⟨_, r, ?_, h.finish (up := decide (5 ≤ if (stAt v r).vrTz && (stAt v r).last == 5 && (stAt v r).vr % 2 == 0 then 4 else (stAt v r).last)) f2 f3 f4 ?_ ?_, ?_⟩
  · exact step4gen_of (s1 := stAt v r1) (s := stAt v r) (by rw [e0]; exact g1) f1
  · intro hu
    rw [decide_eq_true_eq] at hu
    split_ifs at hu
    · omega
    · exact hu
  · intro hu
    rw [decide_eq_false_iff_not, not_le] at hu
    by_cases hc : ((stAt v r).vrTz && (stAt v r).last == 5 && (stAt v r).vr % 2 == 0) = true
    · simp only [Bool.and_eq_true, beq_iff_eq] at hc
      obtain ⟨⟨c1, c2⟩, -⟩ := hc
      have hr : r ≠ 0 := by rintro rfl; simp [stAt, lastOf] at c2
      refine .inr ⟨hr, ?_⟩
      obtain ⟨r', rfl⟩ : ∃ r', r = r' + 1 := ⟨r - 1, by omega⟩
      simp only [stAt, Bool.and_eq_true, beq_iff_eq, Nat.add_sub_cancel, lastOf] at c1 c2
      obtain ⟨k, hk⟩ := h.rz c1.1
      have hvr : v.vr = k := by rw [h.vr, hk, Nat.mul_div_cancel_left _ h.B0]
      have h3 : v.vr = v.vr / 10 ^ r' * 10 ^ r' := (Nat.div_mul_cancel (Nat.dvd_of_mod_eq_zero c1.2)).symm
      have e := Nat.div_add_mod (v.vr / 10 ^ r') 10
      rw [div_succ, c2] at e
      have h4 : V = (10 * (v.vr / 10 ^ (r' + 1)) + 5) * 10 ^ r' * B := by rw [e, ← h3, hk, hvr, Nat.mul_comm]
      rw [h4, Nat.pow_succ]
      exact le_of_eq (by ring)
    · rw [Bool.not_eq_true] at hc
      rw [hc] at hu
      exact .inl (by simpa [stAt] using hu)
  · by_contra hc
    have hge : 10 ^ 64 ≤ 10 ^ r := Nat.pow_le_pow_right (by decide) (by omega)
    have hvp : v.vp / 10 ^ r = 0 := Nat.div_eq_of_lt (lt_of_lt_of_le h.vp64 (le_trans (by norm_num) hge))
    have hvm : v.vm < 10 ^ r := lt_of_lt_of_le h.vm_lt (le_trans (by norm_num) hge)
    rcases f3 with f3 | f3 | f3
    · omega
    · rw [hvp] at f3; exact absurd f3 (Nat.not_lt_zero _)
    · have := f4 f3
      rw [Nat.div_eq_of_lt hvm] at this; exact this rfl

theorem loopCom_spec (v : Vals) : ∀ f r, v.vp < 10 ^ (r + f) → ∃ r', r ≤ r' ∧
    loopCom (f + 1) (v.vr / 10 ^ r, v.vp / 10 ^ r, v.vm / 10 ^ r, r, decide (5 ≤ lastOf v.vr r)) =
      some (v.vr / 10 ^ r', v.vp / 10 ^ r', v.vm / 10 ^ r', r', decide (5 ≤ lastOf v.vr r')) ∧ v.vp / 10 ^ (r' + 1) ≤ v.vm / 10 ^ (r' + 1) ∧ (r' = r ∨ v.vm / 10 ^ r' < v.vp / 10 ^ r') := by
  intro f
  induction f with
  | zero =>
    intro r hv
    have h0 : v.vp / 10 ^ (r + 1) ≤ v.vm / 10 ^ (r + 1) := by
      rw [Nat.div_eq_of_lt (lt_of_lt_of_le hv (Nat.pow_le_pow_right (by decide) (by omega)))]; exact Nat.zero_le _
    refine ⟨r, le_refl _, ?_, h0, .inl rfl⟩
    rw [loopCom, div_succ, div_succ, if_pos h0]
  | succ f ih =>
    intro r hv
    rw [loopCom, div_succ, div_succ, div_succ]
    by_cases hc : v.vp / 10 ^ (r + 1) ≤ v.vm / 10 ^ (r + 1)
    · rw [if_pos hc]; exact ⟨r, le_refl _, rfl, hc, .inl rfl⟩
    · rw [if_neg hc, mod32_eq (by decide) (by decide)]
      obtain ⟨r', k1, k2, k3, k4⟩ := ih (r + 1) (by rw [show r + 1 + f = r + (f + 1) by omega]; exact hv)
      refine ⟨r', by omega, k2, k3, .inr ?_⟩
      rcases k4 with rfl | k4
      · omega
      · exact k4

/-- The common case. -/
theorem Ready.common (ht : v.vmTz = false) : ∃ out r, step4com v = some (out % W64, r) ∧ Best acc N V P B out r ∧ r < 64 := by
  obtain ⟨r0, hs, hr0⟩ : ∃ r0, (if v.vp / 100 > v.vm / 100 then (v.vr / 100, v.vp / 100, v.vm / 100, 2, decide (50 ≤ mod32 100 v.vr)) else (v.vr, v.vp, v.vm, 0, false)) =
      (v.vr / 10 ^ r0, v.vp / 10 ^ r0, v.vm / 10 ^ r0, r0, decide (5 ≤ lastOf v.vr r0)) ∧ (r0 = 0 ∨ v.vm / 10 ^ r0 < v.vp / 10 ^ r0) := by
    by_cases hc : v.vp / 100 > v.vm / 100
    · refine ⟨2, ?_, .inr (by norm_num; exact hc)⟩
      rw [if_pos hc, mod32_eq (by decide) (by decide)]
      have : decide (50 ≤ v.vr % 100) = decide (5 ≤ lastOf v.vr 2) := by
        simp only [lastOf, Nat.pow_one, decide_eq_decide]; omega
      rw [this, show (10 : Nat) ^ 2 = 100 by norm_num]
    · refine ⟨0, ?_, .inl rfl⟩
      rw [if_neg hc]; simp [lastOf]
  obtain ⟨r, k1, k2, k3, k4⟩ := loopCom_spec h v 63 r0 (lt_of_lt_of_le h.vp64 (Nat.pow_le_pow_right (by decide) (by omega)))
  rw [show 63 + 1 = 64 from rfl] at k2
  have hst : (stAt v r).vmTz = false := by simp [stAt, ht]
  have hm : r = 0 ∨ v.vm / 10 ^ r < v.vp / 10 ^ r := by
    rcases k4 with rfl | k4
    · exact hr0
    · exact .inr k4
  refine ⟨_, r, ?_, h.finish (up := decide (5 ≤ lastOf v.vr r)) k3 (by tauto) (by rw [hst]; simp) (by simp) (by simp; tauto), ?_⟩
  · rw [step4com_of hs k2, hst, Bool.not_false, Bool.or_true, Bool.and_true]
  · by_contra hc
    have hge : 10 ^ 64 ≤ 10 ^ r := Nat.pow_le_pow_right (by decide) (by omega)
    have hvp : v.vp / 10 ^ r = 0 := Nat.div_eq_of_lt (lt_of_lt_of_le h.vp64 (le_trans (by norm_num) hge))
    rcases hm with hm | hm
    · omega
    · rw [hvp] at hm; exact absurd hm (Nat.not_lt_zero _)

end

end Tg.Ryu
