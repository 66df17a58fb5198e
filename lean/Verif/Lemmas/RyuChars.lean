import Verif.Model.Ryu
import Verif.Spec.Number
import Verif.Lemmas.RyuDigits
import Mathlib.Tactic.Ring
import Mathlib.Tactic.Linarith
import Mathlib.Tactic.FieldSimp
/-! The text that Ryu prints. -/
set_option linter.unusedSectionVars false
set_option linter.unnecessarySeqFocus false
set_option linter.unusedTactic false
set_option linter.unreachableTactic false
namespace Tg.Ryu

open Spec Spec.Json

/-! ### Digits -/

/-- The last `n` digits of `m`. -/
def decs : Nat → Nat → List Byte
  | 0, _ => []
  | n + 1, m => decs n (m / 10) ++ [digit (m % 10)]

theorem decs_length : ∀ n m, (decs n m).length = n := by
  intro n
  induction n with
  | zero => intro m; rfl
  | succ n ih => intro m; simp [decs, ih]

theorem digit_toNat {c : Nat} (h : c < 10) : (digit c).toNat = 48 + c := by
  unfold digit; rw [BitVec.toNat_ofNat, Nat.mod_eq_of_lt (by omega)]

theorem digit_Digit {c : Nat} (h : c < 10) : Digit (digit c) := by
  have := digit_toNat h
  unfold Digit
  constructor <;> (rw [this]; omega)

theorem digit_ne {c : Nat} (h : c < 10) (h0 : c ≠ 0) : digit c ≠ 0x30#8 := by
  intro hc
  have := digit_toNat h
  rw [hc] at this; simp at this; omega

theorem digit_ne_nul {c : Nat} (h : c < 10) : digit c ≠ 0#8 := by
  intro hc
  have := digit_toNat h
  rw [hc] at this; simp at this; omega

theorem decs_mem : ∀ n m b, b ∈ decs n m → ∃ c, c < 10 ∧ b = digit c := by
  intro n
  induction n with
  | zero => intro m b h; simp [decs] at h
  | succ n ih =>
    intro m b h
    simp only [decs, List.mem_append, List.mem_singleton] at h
    rcases h with h | h
    · exact ih _ _ h
    · exact ⟨_, Nat.mod_lt _ (by decide), h⟩

theorem decs_val : ∀ n m, digitsVal (decs n m) = m % 10 ^ n := by
  intro n
  induction n with
  | zero => intro m; simp [decs, digitsVal, Nat.mod_one]
  | succ n ih =>
    intro m
    have h := ih (m / 10)
    unfold digitsVal at h ⊢
    rw [decs, List.foldl_append, h, List.foldl_cons, List.foldl_nil, digit_toNat (Nat.mod_lt _ (by decide)), Nat.pow_succ, Nat.mul_comm (10 ^ n), Nat.mod_mul]
    omega

theorem decs_get : ∀ n m k, k < n → (decs n m)[k]? = some (digit (m / 10 ^ (n - 1 - k) % 10)) := by
  intro n
  induction n with
  | zero => intro m k h; omega
  | succ n ih =>
    intro m k h
    rw [decs]
    rcases Nat.lt_or_ge k n with hk | hk
    · rw [List.getElem?_append_left (by rw [decs_length]; exact hk), ih _ _ hk, Nat.div_div_eq_div_mul, ← Nat.pow_succ']
      congr 5; omega
    · have : k = n := by omega
      subst this
      rw [List.getElem?_append_right (by rw [decs_length]), decs_length, Nat.sub_self, List.getElem?_cons_zero]
      simp

/-! ### The buffer -/

/-- The buffer begins with `t`. -/
def Begins (t buf : List Byte) : Prop := buf.take t.length = t

theorem put_next {t buf : List Byte} {b : Byte} (h : Begins t buf) (hl : t.length < buf.length) : ∃ buf', put t.length b buf = some buf' ∧ buf'.length = buf.length ∧ Begins (t ++ [b]) buf' := by
  refine ⟨_, if_pos hl, by simp, ?_⟩
  unfold Begins at *
  rw [List.length_append, List.length_singleton, List.take_add_one, List.getElem?_set_self hl, List.take_set_of_le (le_refl _), h]
  rfl

theorem put2_next {t buf : List Byte} {c : Nat} (h : Begins t buf) (hl : t.length + 1 < buf.length) (hc : c < 100) :
    ∃ buf', put2 t.length c buf = some buf' ∧ buf'.length = buf.length ∧ Begins (t ++ decs 2 c) buf' := by
  obtain ⟨b1, e1, l1, h1⟩ := put_next (b := digit (c / 10)) h (by omega)
  obtain ⟨b2, e2, l2, h2⟩ := put_next (b := digit (c % 10)) h1 (by simp; omega)
  refine ⟨b2, ?_, by omega, ?_⟩
  · unfold put2
    rw [if_neg (by omega), e1, Option.bind_some]
    simpa using e2
  · have : t ++ decs 2 c = (t ++ [digit (c / 10)]) ++ [digit (c % 10)] := by
      simp only [decs, List.nil_append, List.append_assoc]
      rw [Nat.mod_eq_of_lt (show c / 10 < 10 by omega)]
    rw [this]; exact h2

/-- `i` digits of `m` have been printed, the last one at `p`. -/
structure Printed (p m i a : Nat) (old buf : List Byte) : Prop where
  len : buf.length = old.length
  keep : ∀ j, j < a → buf[j]? = old[j]?
  dig : ∀ k, k < i → buf[p - k]? = some (digit (m / 10 ^ k % 10))

theorem Printed.put2 {p m i a c : Nat} {old buf : List Byte} (h : Printed p m i a old buf) (hp : p < old.length) (hi : a + i + 1 ≤ p) (hc : c = m / 10 ^ i % 100) :
    ∃ buf', Ryu.put2 (p - i - 1) c buf = some buf' ∧ Printed p m (i + 2) a old buf' := by
  have hlen := h.len
  unfold Ryu.put2
  rw [if_neg (by omega)]
  unfold put
  rw [if_pos (by omega), Option.bind_some, if_pos (by simp; omega)]
  refine ⟨_, rfl, by simp [hlen], fun j hj => ?_, fun k hk => ?_⟩
  · rw [List.getElem?_set_ne (by omega), List.getElem?_set_ne (by omega), h.keep j hj]
  · have h100 : 10 ^ (i + 1) = 10 ^ i * 10 := Nat.pow_succ _ _
    by_cases h1 : k = i
    · subst h1
      rw [show p - k - 1 + 1 = p - k by omega, List.getElem?_set_self (by simp; omega), hc]
      congr 2; omega
    by_cases h2 : k = i + 1
    · subst h2
      rw [show p - i - 1 + 1 = p - i by omega, List.getElem?_set_ne (by omega), show p - (i + 1) = p - i - 1 by omega, List.getElem?_set_self (by omega), hc, h100,
        ← Nat.div_div_eq_div_mul]
      congr 2; omega
    · rw [List.getElem?_set_ne (by omega), List.getElem?_set_ne (by omega), h.dig k (by omega)]

theorem chars8_spec {m p a : Nat} {buf : List Byte} (hm : m < 10 ^ 17) (hp : p < buf.length) (h10 : 4294967296 ≤ m → a + 9 ≤ p) :
    ∃ b i, chars8 m p buf = some (b, m / 10 ^ i, i) ∧ Printed p m i a buf b ∧ m / 10 ^ i < 4294967296 ∧ (i = 0 ∨ 0 < m / 10 ^ i) := by
  unfold chars8
  rw [Nat.shiftRight_eq_div_pow, show (2 : Nat) ^ 32 = 4294967296 by norm_num]
  rw [show (10 : Nat) ^ 17 = 100000000000000000 by norm_num] at hm
  have h0 : Printed p m 0 a buf buf := ⟨rfl, fun _ _ => rfl, fun k hk => by omega⟩
  by_cases hc : m / 4294967296 ≠ 0
  · rw [if_pos hc]
    have h9 := h10 (by omega)
    have e8 : (10 : Nat) ^ 8 = 100000000 := by norm_num
    obtain ⟨b1, e1, h1⟩ := h0.put2 (c := m % 100000000 % 10000 % 100) hp (by omega) (by norm_num <;> omega)
    obtain ⟨b2, e2, h2⟩ := h1.put2 (c := m % 100000000 % 10000 / 100) hp (by omega) (by norm_num <;> omega)
    obtain ⟨b3, e3, h3⟩ := h2.put2 (c := m % 100000000 / 10000 % 10000 % 100) hp (by omega) (by norm_num <;> omega)
    obtain ⟨b4, e4, h4⟩ := h3.put2 (c := m % 100000000 / 10000 % 10000 / 100) hp (by omega) (by norm_num <;> omega)
    refine ⟨b4, 8, ?_, h4, by rw [e8]; omega, .inr (by rw [e8]; omega)⟩
    dsimp only
    rw [mod32_eq (by decide) (by decide), e8, show m / 100000000 % W32 = m / 100000000 from Nat.mod_eq_of_lt (by rw [show W32 = 4294967296 from rfl]; omega)]
    simp only [Nat.sub_zero, Nat.zero_add] at e1 e2 e3 e4
    rw [show p - 2 - 1 = p - 3 by omega] at e2
    rw [show p - (2 + 2) - 1 = p - 5 by omega] at e3
    rw [show p - (2 + 2 + 2) - 1 = p - 7 by omega] at e4
    rw [e1, Option.bind_eq_bind, Option.bind_some, e2, Option.bind_some, e3, Option.bind_some, e4, Option.bind_some, Option.pure_def]
  · rw [if_neg hc]
    refine ⟨buf, 0, ?_, h0, by simp; omega, .inl rfl⟩
    rw [Nat.pow_zero, Nat.div_one, Nat.mod_eq_of_lt (by rw [show W32 = 4294967296 from rfl]; omega)]

theorem charsLoop_spec {m p a : Nat} {old : List Byte} (hp : p < old.length) (hlo : ∀ k, 10 ^ k ≤ m → a + k ≤ p) : ∀ f buf i, Printed p m i a old buf → m / 10 ^ i < 10000 ^ f → 0 < f →
    ∃ b i', charsLoop p f (buf, m / 10 ^ i, i) = some (b, m / 10 ^ i', i') ∧ Printed p m i' a old b ∧ m / 10 ^ i' < 10000 ∧ (i' = i ∨ 0 < m / 10 ^ i') := by
  intro f
  induction f with
  | zero => intro buf i _ _ h; omega
  | succ f ih =>
    intro buf i h hf _
    rw [charsLoop]
    by_cases hc : m / 10 ^ i ≥ 10000
    · rw [if_pos hc]
      have e4 : m / 10 ^ i / 10000 = m / 10 ^ (i + 4) := by rw [Nat.div_div_eq_div_mul, Nat.pow_add]
      have e2 : m / 10 ^ i / 100 = m / 10 ^ (i + 2) := by rw [Nat.div_div_eq_div_mul, Nat.pow_add]
      have hbig : a + (i + 4) ≤ p := hlo _ (by
        have : 0 < m / 10 ^ (i + 4) := by rw [← e4]; omega
        exact Nat.le_of_lt_succ (Nat.lt_succ_of_le ((Nat.div_pos_iff.1 this).2)))
      obtain ⟨b1, q1, h1⟩ := h.put2 (c := m / 10 ^ i % 10000 % 100) hp (by omega) (by omega)
      obtain ⟨b2, q2, h2⟩ := h1.put2 (c := m / 10 ^ i % 10000 / 100) hp (by omega) (by rw [← e2]; omega)
      rw [show p - (i + 2) - 1 = p - i - 3 by omega] at q2
      have hf0 : 0 < f := by
        rcases Nat.eq_zero_or_pos f with rfl | hf0
        · rw [Nat.zero_add, Nat.pow_one] at hf; omega
        · exact hf0
      obtain ⟨b, i', g1, g2, g3, g4⟩ := ih b2 (i + 4) h2 (by rw [← e4]; rw [Nat.pow_succ] at hf; exact Nat.div_lt_of_lt_mul (by rw [Nat.mul_comm]; exact hf)) hf0
      refine ⟨b, i', ?_, g2, g3, ?_⟩
      · dsimp only
        rw [q1, Option.bind_eq_bind, Option.bind_some, q2, Option.bind_some, e4]
        exact g1
      · rcases g4 with rfl | g4
        · right; rw [← e4]; omega
        · exact .inr g4
    · rw [if_neg hc]
      exact ⟨buf, i, rfl, h, by omega, .inl rfl⟩

theorem charsDigits_spec {m n a : Nat} {buf : List Byte} (hn : 1 ≤ n) (hlo : 10 ^ (n - 1) ≤ m) (hhi : m < 10 ^ n) (hn17 : n ≤ 17) (hp : a + n < buf.length) :
    ∃ b, charsDigits m a n buf = some b ∧ b.length = buf.length ∧ (∀ j, j < a → b[j]? = buf[j]?) ∧ b[a]? = some (digit (m / 10 ^ (n - 1))) ∧
      ∀ k, k < n - 1 → b[a + n - k]? = some (digit (m / 10 ^ k % 10)) := by
  have hm : m < 10 ^ 17 := lt_of_lt_of_le hhi (Nat.pow_le_pow_right (by decide) hn17)
  have hk : ∀ k, 10 ^ k ≤ m → k + 1 ≤ n := by
    intro k h
    by_contra hc
    exact absurd (lt_of_lt_of_le (lt_of_le_of_lt h hhi) (Nat.pow_le_pow_right (by decide) (by omega : n ≤ k))) (lt_irrefl _)
  have hlok : ∀ k, 10 ^ k ≤ m → a + k ≤ a + n := fun k h => by have := hk k h; omega
  obtain ⟨b1, i1, c1, p1, l1, z1⟩ := chars8_spec (a := a) hm hp (fun h => by have := hk 9 (le_trans (by norm_num) h); omega)
  obtain ⟨b2, i2, c2, p2, l2, z2⟩ := charsLoop_spec hp hlok 64 b1 i1 p1 (lt_of_lt_of_le l1 (by norm_num)) (by decide)
  have hz2 : i2 = 0 ∨ 0 < m / 10 ^ i2 := by
    rcases z2 with rfl | z2
    · exact z1
    · exact .inr z2
  have hpos2 : 0 < m / 10 ^ i2 := by
    rcases hz2 with rfl | h
    · simp; exact lt_of_lt_of_le (by positivity) hlo
    · exact h
  -- two digits
  obtain ⟨b3, i3, c3, p3, l3, hpos3⟩ : ∃ b3 i3, chars2 (a + n) (b2, m / 10 ^ i2, i2) = some (b3, m / 10 ^ i3, i3) ∧ Printed (a + n) m i3 a buf b3 ∧ m / 10 ^ i3 < 100 ∧ 0 < m / 10 ^ i3 := by
    unfold chars2
    dsimp only
    by_cases hc : m / 10 ^ i2 ≥ 100
    · rw [if_pos hc]
      have e2 : m / 10 ^ i2 / 100 = m / 10 ^ (i2 + 2) := by rw [Nat.div_div_eq_div_mul, Nat.pow_add]
      have hbig := hk (i2 + 2) (by
        have : 0 < m / 10 ^ (i2 + 2) := by rw [← e2]; omega
        exact (Nat.div_pos_iff.1 this).2)
      obtain ⟨b, q, h⟩ := p2.put2 (c := m / 10 ^ i2 % 100) hp (by omega) rfl
      refine ⟨b, i2 + 2, ?_, h, by rw [← e2]; omega, by rw [← e2]; omega⟩
      rw [q, Option.map_some, e2]
    · rw [if_neg hc]
      exact ⟨b2, i2, rfl, p2, by omega, hpos2⟩
  unfold charsDigits
  rw [c1, Option.bind_some, c2, Option.bind_some, c3, Option.bind_some]
  unfold chars1
  dsimp only
  have e1 : m / 10 ^ i3 / 10 = m / 10 ^ (i3 + 1) := by rw [Nat.div_div_eq_div_mul, Nat.pow_succ]
  have hlen := p3.len
  by_cases hc : m / 10 ^ i3 ≥ 10
  · have hbig := hk (i3 + 1) (by
      have : 0 < m / 10 ^ (i3 + 1) := by rw [← e1]; omega
      exact (Nat.div_pos_iff.1 this).2)
    have hn' : n - 1 = i3 + 1 := by
      by_contra hne
      have h1 : 10 ^ (i3 + 2) ≤ m := le_trans (Nat.pow_le_pow_right (by decide) (by omega)) hlo
      have h2 : 0 < m / 10 ^ (i3 + 2) := Nat.div_pos h1 (by positivity)
      have e2 : m / 10 ^ i3 / 100 = m / 10 ^ (i3 + 2) := by rw [Nat.div_div_eq_div_mul, Nat.pow_add]
      omega
    rw [if_pos hc]
    unfold put
    rw [if_pos (by omega), Option.bind_some, if_pos (by simp; omega)]
    refine ⟨_, rfl, by simp [hlen], fun j hj => ?_, ?_, fun k hk' => ?_⟩
    · rw [List.getElem?_set_ne (by omega), List.getElem?_set_ne (by omega), p3.keep j hj]
    · rw [List.getElem?_set_self (by simp; omega), hn', ← e1, Nat.mod_eq_of_lt (by omega)]
    · rw [List.getElem?_set_ne (by omega)]
      by_cases hki : k = i3
      · subst hki
        rw [List.getElem?_set_self (by omega)]
      · rw [List.getElem?_set_ne (by omega), p3.dig k (by omega)]
  · have hn' : n - 1 = i3 := by
      have h0 : 10 ^ i3 ≤ m := (Nat.div_pos_iff.1 hpos3).2
      have := hk i3 h0
      by_contra hne
      have h1 : 10 ^ (i3 + 1) ≤ m := le_trans (Nat.pow_le_pow_right (by decide) (by omega)) hlo
      have h2 : 0 < m / 10 ^ (i3 + 1) := Nat.div_pos h1 (by positivity)
      rw [← e1] at h2
      omega
    rw [if_neg hc]
    unfold put
    rw [if_pos (by omega)]
    refine ⟨_, rfl, by simp [hlen], fun j hj => ?_, ?_, fun k hk' => ?_⟩
    · rw [List.getElem?_set_ne (by omega), p3.keep j hj]
    · rw [List.getElem?_set_self (by omega), hn']
    · rw [List.getElem?_set_ne (by omega), p3.dig k (by omega)]

/-! ### The parts of the text -/

/-- The number of digits of an exponent. -/
def expLen (e : Nat) : Nat := if e ≥ 100 then 3 else if e ≥ 10 then 2 else 1

/-- The text of the exponent. -/
def expText (e : Int) : List Byte := 0x45#8 :: ((if e < 0 then [0x2D#8] else []) ++ decs (expLen e.natAbs) e.natAbs)

theorem expSign_spec {e : Int} {t buf : List Byte} (h : Begins t buf) (hl : t.length < buf.length) :
    ∃ b, expSign e t.length buf = some (b, (t ++ if e < 0 then [0x2D#8] else []).length) ∧ b.length = buf.length ∧ Begins (t ++ if e < 0 then [0x2D#8] else []) b := by
  unfold expSign
  by_cases hc : e < 0
  · obtain ⟨b, e1, l1, h1⟩ := put_next (b := 0x2D#8) h hl
    rw [if_pos hc, if_pos hc, e1, Option.map_some]
    exact ⟨b, by simp, l1, h1⟩
  · rw [if_neg hc, if_neg hc]
    exact ⟨buf, by simp, rfl, by simpa using h⟩

theorem expDigits_spec {e : Nat} {t buf : List Byte} (h : Begins t buf) (he : e < 1000) (hl : t.length + 3 ≤ buf.length) :
    ∃ b, expDigits e t.length buf = some (b, (t ++ decs (expLen e) e).length) ∧ b.length = buf.length ∧ Begins (t ++ decs (expLen e) e) b := by
  unfold expDigits expLen
  by_cases h1 : e ≥ 100
  · obtain ⟨b1, e1, l1, g1⟩ := put2_next (c := e / 10) h (by omega) (by omega)
    obtain ⟨b2, e2, l2, g2⟩ := put_next (b := digit (e % 10)) g1 (by rw [List.length_append, decs_length]; omega)
    rw [List.length_append, decs_length] at e2
    rw [if_pos h1, if_pos h1, e1, Option.bind_some, e2, Option.map_some]
    have : t ++ decs 3 e = t ++ decs 2 (e / 10) ++ [digit (e % 10)] := by rw [List.append_assoc]; rfl
    rw [this]
    exact ⟨b2, by simp [decs_length], by omega, g2⟩
  by_cases h2 : e ≥ 10
  · obtain ⟨b1, e1, l1, g1⟩ := put2_next (c := e) h (by omega) (by omega)
    rw [if_neg h1, if_neg h1, if_pos h2, if_pos h2, e1, Option.map_some]
    exact ⟨b1, by simp [decs_length], l1, g1⟩
  · obtain ⟨b1, e1, l1, g1⟩ := put_next (b := digit e) h (by omega)
    rw [if_neg h1, if_neg h1, if_neg h2, if_neg h2, e1, Option.map_some]
    have : decs 1 e = [digit e] := by simp only [decs, List.nil_append]; rw [Nat.mod_eq_of_lt (by omega)]
    rw [this]
    exact ⟨b1, by simp, l1, g1⟩

theorem charsExp_spec {e : Int} {t buf : List Byte} (h : Begins t buf) (he : e.natAbs < 1000) (hl : t.length + 5 ≤ buf.length) :
    ∃ b, charsExp e t.length buf = some (b, (t ++ expText e).length) ∧ b.length = buf.length ∧ Begins (t ++ expText e) b := by
  obtain ⟨b1, e1, l1, h1⟩ := put_next (b := 0x45#8) h (by omega)
  obtain ⟨b2, e2, l2, h2⟩ := expSign_spec (e := e) h1 (by simp; omega)
  have hs : (if e < 0 then [0x2D#8] else ([] : List Byte)).length ≤ 1 := by split_ifs <;> simp
  obtain ⟨b3, e3, l3, h3⟩ := expDigits_spec h2 he (by rw [List.length_append, List.length_append, List.length_singleton]; omega)
  rw [show (t ++ [0x45#8]).length = t.length + 1 by simp] at e2
  have ht : t ++ expText e = t ++ [0x45#8] ++ (if e < 0 then [0x2D#8] else []) ++ decs (expLen e.natAbs) e.natAbs := by simp [expText]
  unfold charsExp
  rw [e1, Option.bind_some, e2, Option.bind_some, e3, ht]
  exact ⟨b3, rfl, by omega, h3⟩

/-- The text of `± m · 10 ^ e`, where `m` has `n` digits. -/
def sciText (neg : Bool) (m n : Nat) (e : Int) : List Byte :=
  (if neg then [0x2D#8] else []) ++ (digit (m / 10 ^ (n - 1)) :: (if n ≤ 1 then [] else 0x2E#8 :: decs (n - 1) m)) ++ expText (e + n - 1)

theorem decimalLength_spec {m : Nat} (h0 : 0 < m) (hm : m < 10 ^ 17) : ∃ n, decimalLength17 m = some n ∧ 1 ≤ n ∧ n ≤ 17 ∧ 10 ^ (n - 1) ≤ m ∧ m < 10 ^ n := by
  rw [show (10 : Nat) ^ 17 = 100000000000000000 by norm_num] at hm
  unfold decimalLength17
  rw [if_neg (by omega)]
  by_cases h17 : 10000000000000000 ≤ m
  · rw [if_pos h17]; exact ⟨17, rfl, by norm_num, by norm_num, by rw [show (10 : Nat) ^ (17 - 1) = 10000000000000000 by norm_num]; omega, by rw [show (10 : Nat) ^ 17 = 100000000000000000 by norm_num]; omega⟩
  rw [if_neg h17]
  by_cases h16 : 1000000000000000 ≤ m
  · rw [if_pos h16]; exact ⟨16, rfl, by norm_num, by norm_num, by rw [show (10 : Nat) ^ (16 - 1) = 1000000000000000 by norm_num]; omega, by rw [show (10 : Nat) ^ 16 = 10000000000000000 by norm_num]; omega⟩
  rw [if_neg h16]
  by_cases h15 : 100000000000000 ≤ m
  · rw [if_pos h15]; exact ⟨15, rfl, by norm_num, by norm_num, by rw [show (10 : Nat) ^ (15 - 1) = 100000000000000 by norm_num]; omega, by rw [show (10 : Nat) ^ 15 = 1000000000000000 by norm_num]; omega⟩
  rw [if_neg h15]
  by_cases h14 : 10000000000000 ≤ m
  · rw [if_pos h14]; exact ⟨14, rfl, by norm_num, by norm_num, by rw [show (10 : Nat) ^ (14 - 1) = 10000000000000 by norm_num]; omega, by rw [show (10 : Nat) ^ 14 = 100000000000000 by norm_num]; omega⟩
  rw [if_neg h14]
  by_cases h13 : 1000000000000 ≤ m
  · rw [if_pos h13]; exact ⟨13, rfl, by norm_num, by norm_num, by rw [show (10 : Nat) ^ (13 - 1) = 1000000000000 by norm_num]; omega, by rw [show (10 : Nat) ^ 13 = 10000000000000 by norm_num]; omega⟩
  rw [if_neg h13]
  by_cases h12 : 100000000000 ≤ m
  · rw [if_pos h12]; exact ⟨12, rfl, by norm_num, by norm_num, by rw [show (10 : Nat) ^ (12 - 1) = 100000000000 by norm_num]; omega, by rw [show (10 : Nat) ^ 12 = 1000000000000 by norm_num]; omega⟩
  rw [if_neg h12]
  by_cases h11 : 10000000000 ≤ m
  · rw [if_pos h11]; exact ⟨11, rfl, by norm_num, by norm_num, by rw [show (10 : Nat) ^ (11 - 1) = 10000000000 by norm_num]; omega, by rw [show (10 : Nat) ^ 11 = 100000000000 by norm_num]; omega⟩
  rw [if_neg h11]
  by_cases h10 : 1000000000 ≤ m
  · rw [if_pos h10]; exact ⟨10, rfl, by norm_num, by norm_num, by rw [show (10 : Nat) ^ (10 - 1) = 1000000000 by norm_num]; omega, by rw [show (10 : Nat) ^ 10 = 10000000000 by norm_num]; omega⟩
  rw [if_neg h10]
  by_cases h9 : 100000000 ≤ m
  · rw [if_pos h9]; exact ⟨9, rfl, by norm_num, by norm_num, by rw [show (10 : Nat) ^ (9 - 1) = 100000000 by norm_num]; omega, by rw [show (10 : Nat) ^ 9 = 1000000000 by norm_num]; omega⟩
  rw [if_neg h9]
  by_cases h8 : 10000000 ≤ m
  · rw [if_pos h8]; exact ⟨8, rfl, by norm_num, by norm_num, by rw [show (10 : Nat) ^ (8 - 1) = 10000000 by norm_num]; omega, by rw [show (10 : Nat) ^ 8 = 100000000 by norm_num]; omega⟩
  rw [if_neg h8]
  by_cases h7 : 1000000 ≤ m
  · rw [if_pos h7]; exact ⟨7, rfl, by norm_num, by norm_num, by rw [show (10 : Nat) ^ (7 - 1) = 1000000 by norm_num]; omega, by rw [show (10 : Nat) ^ 7 = 10000000 by norm_num]; omega⟩
  rw [if_neg h7]
  by_cases h6 : 100000 ≤ m
  · rw [if_pos h6]; exact ⟨6, rfl, by norm_num, by norm_num, by rw [show (10 : Nat) ^ (6 - 1) = 100000 by norm_num]; omega, by rw [show (10 : Nat) ^ 6 = 1000000 by norm_num]; omega⟩
  rw [if_neg h6]
  by_cases h5 : 10000 ≤ m
  · rw [if_pos h5]; exact ⟨5, rfl, by norm_num, by norm_num, by rw [show (10 : Nat) ^ (5 - 1) = 10000 by norm_num]; omega, by rw [show (10 : Nat) ^ 5 = 100000 by norm_num]; omega⟩
  rw [if_neg h5]
  by_cases h4 : 1000 ≤ m
  · rw [if_pos h4]; exact ⟨4, rfl, by norm_num, by norm_num, by rw [show (10 : Nat) ^ (4 - 1) = 1000 by norm_num]; omega, by rw [show (10 : Nat) ^ 4 = 10000 by norm_num]; omega⟩
  rw [if_neg h4]
  by_cases h3 : 100 ≤ m
  · rw [if_pos h3]; exact ⟨3, rfl, by norm_num, by norm_num, by rw [show (10 : Nat) ^ (3 - 1) = 100 by norm_num]; omega, by rw [show (10 : Nat) ^ 3 = 1000 by norm_num]; omega⟩
  rw [if_neg h3]
  by_cases h2 : 10 ≤ m
  · rw [if_pos h2]; exact ⟨2, rfl, by norm_num, by norm_num, by rw [show (10 : Nat) ^ (2 - 1) = 10 by norm_num]; omega, by rw [show (10 : Nat) ^ 2 = 100 by norm_num]; omega⟩
  rw [if_neg h2]
  exact ⟨1, rfl, by norm_num, by norm_num, by norm_num; omega, by norm_num; omega⟩

theorem begins_set {t u buf : List Byte} {c : Byte} (h : Begins (t ++ c :: u) buf) (b : Byte) : Begins (t ++ b :: u) (buf.set t.length b) := by
  unfold Begins at *
  rw [show (t ++ b :: u).length = (t ++ c :: u).length by simp, List.take_set, h, List.set_append_right _ _ (le_refl _), Nat.sub_self, List.set_cons_zero]

theorem begins_of_get {t buf : List Byte} (h : ∀ (k : Nat) (b : Byte), t[k]? = some b → buf[k]? = some b) : Begins t buf := by
  unfold Begins
  apply List.ext_getElem?
  intro k
  rcases Nat.lt_or_ge k t.length with hk | hk
  · rw [List.getElem?_take_of_lt hk, h k _ (List.getElem?_eq_getElem hk), List.getElem?_eq_getElem hk]
  · rw [List.getElem?_eq_none hk, List.getElem?_take_eq_none hk]

theorem toChars64_spec {m : Nat} {e : Int} {sign : Bool} {buf : List Byte} (h0 : 0 < m) (hm : m < 10 ^ 17) (he : ∀ n : Nat, 10 ^ (n - 1) ≤ m → m < 10 ^ n → 1 ≤ n → (e + n - 1).natAbs ≤ 324)
    (hl : 25 ≤ buf.length) : ∃ (n : Nat) (b : List Byte), 1 ≤ n ∧ n ≤ 17 ∧ 10 ^ (n - 1) ≤ m ∧ m < 10 ^ n ∧ (e + n - 1).natAbs ≤ 324 ∧ toChars64 m e sign buf = some (b, (sciText sign m n e).length) ∧
      b.length = buf.length ∧ Begins (sciText sign m n e) b := by
  obtain ⟨n, hd, n1, n17, hlo, hhi⟩ := decimalLength_spec h0 hm
  have hen := he n hlo hhi n1
  obtain ⟨b1, c1, l1, g1⟩ : ∃ b1, (if sign then put 0 0x2D#8 buf else some buf) = some b1 ∧ b1.length = buf.length ∧ Begins (if sign then [0x2D#8] else []) b1 := by
    cases sign with
    | false => exact ⟨buf, rfl, rfl, rfl⟩
    | true => exact put_next (t := []) (b := 0x2D#8) rfl (by simp; omega)
  have hsl : (if sign then [0x2D#8] else ([] : List Byte)).length = if sign then 1 else 0 := by cases sign <;> rfl
  have hsn : (if sign then 1 else 0) ≤ 1 := by cases sign <;> simp
  generalize hA : (if sign then 1 else 0) = a at *
  unfold sciText
  generalize hS : (if sign then [0x2D#8] else ([] : List Byte)) = S at *
  obtain ⟨b2, c2, l2, k2, f2, d2⟩ := charsDigits_spec (a := a) (buf := b1) n1 hlo hhi n17 (by omega)
  have gS : ∀ j, j < a → b2[j]? = S[j]? := by
    intro j hj
    rw [k2 j hj]
    unfold Begins at g1
    rw [← g1, List.getElem?_take_of_lt (by omega)]
  obtain ⟨b3, c3, l3, g3⟩ : ∃ b3, charsPoint a n b2 = some (b3, (S ++ (digit (m / 10 ^ (n - 1)) :: (if n ≤ 1 then [] else 0x2E#8 :: decs (n - 1) m))).length) ∧ b3.length = buf.length ∧
      Begins (S ++ (digit (m / 10 ^ (n - 1)) :: (if n ≤ 1 then [] else 0x2E#8 :: decs (n - 1) m))) b3 := by
    unfold charsPoint
    by_cases hn : n > 1
    · rw [if_pos hn, if_neg (by omega), put, if_pos (by omega), Option.map_some]
      refine ⟨b2.set (a + 1) 0x2E#8, by simp [decs_length]; omega, by simp; omega, begins_of_get fun k b hk => ?_⟩
      rcases Nat.lt_or_ge k a with h | h
      · rw [List.getElem?_set_ne (by omega), gS k h, ← hk, List.getElem?_append_left (by omega)]
      rw [List.getElem?_append_right (by omega), hsl] at hk
      obtain ⟨j, rfl⟩ : ∃ j, k = a + j := ⟨k - a, by omega⟩
      rw [Nat.add_sub_cancel_left] at hk
      rcases j with _ | _ | j
      · rw [List.getElem?_cons_zero] at hk
        rw [List.getElem?_set_ne (by omega), Nat.add_zero, f2, hk]
      · rw [List.getElem?_cons_succ, List.getElem?_cons_zero] at hk
        rw [Nat.zero_add, List.getElem?_set_self (by omega), hk]
      · rw [List.getElem?_cons_succ, List.getElem?_cons_succ] at hk
        have hj : j < n - 1 := by
          by_contra hc
          rw [List.getElem?_eq_none (by rw [decs_length]; omega)] at hk
          exact absurd hk (by simp)
        rw [decs_get _ _ _ hj] at hk
        rw [List.getElem?_set_ne (by omega), ← hk]
        have := d2 (n - 1 - 1 - j) (by omega)
        rw [← this]
        congr 1; omega
    · rw [if_neg hn, if_pos (by omega)]
      refine ⟨b2, by simp; omega, by omega, begins_of_get fun k b hk => ?_⟩
      rcases Nat.lt_or_ge k a with h | h
      · rw [gS k h, ← hk, List.getElem?_append_left (by omega)]
      rw [List.getElem?_append_right (by omega), hsl] at hk
      obtain ⟨j, rfl⟩ : ∃ j, k = a + j := ⟨k - a, by omega⟩
      rw [Nat.add_sub_cancel_left] at hk
      rcases j with _ | j
      · rw [List.getElem?_cons_zero] at hk
        rw [Nat.add_zero, f2, hk]
      · simp at hk
  have hlen3 : (S ++ (digit (m / 10 ^ (n - 1)) :: (if n ≤ 1 then [] else 0x2E#8 :: decs (n - 1) m))).length ≤ 19 := by
    split_ifs
    · simp; omega
    · simp [decs_length]; omega
  obtain ⟨b4, c4, l4, g4⟩ := charsExp_spec (e := e + n - 1) g3 (by omega) (by omega)
  refine ⟨n, b4, n1, n17, hlo, hhi, hen, ?_, by omega, g4⟩
  unfold toChars64
  rw [c1, Option.bind_some, hd, Option.bind_some, hA, c2, Option.bind_some, c3, Option.bind_some, c4]

/-! ### What the text means -/

theorem decs_ne_nil {n m : Nat} (h : 1 ≤ n) : decs n m ≠ [] := by
  intro hc
  have := decs_length n m
  rw [hc] at this; simp at this; omega

theorem decs_Digit (n m : Nat) : ∀ b ∈ decs n m, Digit b := by
  intro b hb
  obtain ⟨c, hc, rfl⟩ := decs_mem _ _ _ hb
  exact digit_Digit hc

theorem expLen_pos (e : Nat) : 1 ≤ expLen e := by unfold expLen; split_ifs <;> omega

theorem expLen_val {e : Nat} (h : e < 1000) : e % 10 ^ expLen e = e := by
  apply Nat.mod_eq_of_lt
  unfold expLen
  split_ifs <;> omega

section
variable {neg : Bool} {m n : Nat} {e : Int} (n1 : 1 ≤ n) (hlo : 10 ^ (n - 1) ≤ m) (hhi : m < 10 ^ n)
include n1 hlo hhi

theorem lead_lt : m / 10 ^ (n - 1) < 10 := by
  rw [Nat.div_lt_iff_lt_mul (by positivity), ← Nat.pow_succ']
  rwa [show (n - 1).succ = n by omega]

theorem lead_pos : m / 10 ^ (n - 1) ≠ 0 := (Nat.div_pos hlo (by positivity)).ne'

theorem sciText_eq : sciText neg m n e = (if neg then [0x2D#8] else []) ++ (digit (m / 10 ^ (n - 1)) :: (if decs (n - 1) m = [] then [] else 0x2E#8 :: decs (n - 1) m) ++
    0x45#8 :: ((if decide (e + n - 1 < 0) then [0x2D#8] else []) ++ decs (expLen (e + n - 1).natAbs) (e + n - 1).natAbs)) := by
  unfold sciText expText
  have : (n ≤ 1) = (decs (n - 1) m = []) := by
    rw [← List.length_eq_zero_iff, decs_length, eq_iff_iff]; omega
  simp only [this, decide_eq_true_eq, List.append_assoc]

theorem sciText_short (n17 : n ≤ 17) (he : (e + n - 1).natAbs ≤ 324) : SciShort (sciText neg m n e) := by
  refine ⟨neg, decide (e + n - 1 < 0), _, decs (n - 1) m, decs (expLen (e + n - 1).natAbs) (e + n - 1).natAbs, sciText_eq n1 hlo hhi, digit_Digit (lead_lt n1 hlo hhi),
    digit_ne (lead_lt n1 hlo hhi) (lead_pos n1 hlo hhi), decs_Digit _ _, decs_ne_nil (expLen_pos _), decs_Digit _ _, by rw [decs_length]; omega, ?_⟩
  rw [decs_val, expLen_val (by omega)]; exact he

theorem sciText_decimal (he : (e + n - 1).natAbs ≤ 324) : IsDecimal (sciText neg m n e) ((if neg then -1 else 1) * (m : ℚ) * 10 ^ e) := by
  have hd := lead_lt n1 hlo hhi
  refine ⟨neg, [digit (m / 10 ^ (n - 1))], decs (n - 1) m, expText (e + n - 1), e + n - 1, ?_, ?_, decs_Digit _ _, ?_, ?_⟩
  · rw [sciText_eq n1 hlo hhi]
    simp [expText]
  · exact .inr ⟨_, [], rfl, digit_Digit hd, digit_ne hd (lead_pos n1 hlo hhi), by simp⟩
  · refine .inr ⟨0x45#8, (if e + n - 1 < 0 then [0x2D#8] else []), decs (expLen (e + n - 1).natAbs) (e + n - 1).natAbs, rfl, .inr rfl, decs_ne_nil (expLen_pos _), decs_Digit _ _, ?_⟩
    rw [decs_val, expLen_val (by omega)]
    by_cases hc : e + n - 1 < 0
    · rw [if_pos hc]; exact .inr ⟨rfl, by omega⟩
    · rw [if_neg hc]; exact .inl ⟨.inl rfl, by omega⟩
  · have e1 : digitsVal [digit (m / 10 ^ (n - 1))] = m / 10 ^ (n - 1) := by
      unfold digitsVal; simp [digit_toNat hd]
    rw [e1, decs_val, decs_length, mul_assoc, mul_assoc]
    congr 1
    have h10 : (10 : ℚ) ^ (n - 1) ≠ 0 := by positivity
    have e2 : e + n - 1 = e + ((n - 1 : Nat) : ℤ) := by omega
    have e3 : (m : ℚ) = (10 : ℚ) ^ (n - 1) * ((m / 10 ^ (n - 1) : Nat) : ℚ) + ((m % 10 ^ (n - 1) : Nat) : ℚ) := by
      exact_mod_cast (Nat.div_add_mod m (10 ^ (n - 1))).symm
    rw [e2, zpow_add₀ (by norm_num), zpow_natCast]
    conv_lhs => rw [e3]
    field_simp

theorem sciText_nul : ∀ b ∈ sciText neg m n e, b ≠ 0#8 := by
  have hd : ∀ n m, ∀ b ∈ decs n m, b ≠ 0#8 := by
    intro n m b hb
    obtain ⟨c, hc, rfl⟩ := decs_mem _ _ _ hb
    exact digit_ne_nul hc
  intro b hb
  unfold sciText expText at hb
  simp only [List.mem_append, List.mem_cons] at hb
  rcases hb with (hb | hb | hb) | hb | hb | hb
  · split_ifs at hb <;> simp at hb; rw [hb]; decide
  · rw [hb]; exact digit_ne_nul (lead_lt n1 hlo hhi)
  · split_ifs at hb
    · simp at hb
    · rw [List.mem_cons] at hb
      rcases hb with rfl | hb
      · decide
      · exact hd _ _ b hb
  · rw [hb]; decide
  · split_ifs at hb <;> simp at hb; rw [hb]; decide
  · exact hd _ _ b hb

theorem sciText_length (n17 : n ≤ 17) : (sciText neg m n e).length ≤ 24 := by
  have h3 : expLen (e + n - 1).natAbs ≤ 3 := by unfold expLen; split_ifs <;> omega
  unfold sciText expText
  simp only [List.length_append, List.length_cons, decs_length]
  split_ifs <;> simp [decs_length] <;> omega

end

/-- The terminator is written and the text is what stands before it. -/
theorem terminated {t b : List Byte} (hb : Begins t b) (hl : t.length < b.length) (hn : ∀ c ∈ t, c ≠ 0#8) :
    ∃ b', put t.length 0#8 b = some b' ∧ b'.length = b.length ∧ b'.takeWhile (· != 0#8) = t := by
  obtain ⟨b', e1, l1, g1⟩ := put_next (b := 0#8) hb hl
  refine ⟨b', e1, l1, ?_⟩
  unfold Begins at g1
  rw [← List.take_append_drop (t ++ [0#8]).length b', g1, List.append_assoc, List.takeWhile_append_of_pos (by intro c hc; simpa using hn c hc)]
  simp

end Tg.Ryu
