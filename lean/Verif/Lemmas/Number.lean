import Verif.Lemmas.Text
import Verif.Spec.Number
import Mathlib.Tactic.Ring
import Mathlib.Tactic.FieldSimp
import Mathlib.Tactic.Linarith
import Mathlib.Tactic.NormNum
/-! The text of a number has the value of the decimal that Ryu found. -/
set_option linter.unusedSectionVars false
namespace Tg

open Spec Spec.Json

theorem digitsVal_nil : digitsVal [] = 0 := rfl

theorem digitsVal_foldl (ds : List Byte) (a : Nat) :
    ds.foldl (fun a b => a * 10 + (b.toNat - 48)) a = a * 10 ^ ds.length + digitsVal ds := by
  unfold digitsVal
  induction ds generalizing a with
  | nil => simp
  | cons b ds ih =>
    rw [List.foldl_cons, List.foldl_cons, ih, ih (0 * 10 + (b.toNat - 48)), List.length_cons]
    ring

theorem digitsVal_append (a b : List Byte) : digitsVal (a ++ b) = digitsVal a * 10 ^ b.length + digitsVal b := by
  conv_lhs => unfold digitsVal
  rw [List.foldl_append, digitsVal_foldl]
  rfl

theorem digitsVal_zeros (k : Nat) : digitsVal (List.replicate k 0x30#8) = 0 := by
  induction k with
  | zero => rfl
  | succ k ih =>
    rw [List.replicate_succ, show (0x30#8 :: List.replicate k 0x30#8) = [0x30#8] ++ List.replicate k 0x30#8 from rfl, digitsVal_append, ih]
    simp [digitsVal]

theorem digit_le {b : Byte} (h : Digit b) : (0x30#8 ≤ b && b ≤ 0x39#8) = true := by
  obtain ⟨h1, h2⟩ := h
  simp [BitVec.le_def, h1, h2]

theorem atoiDigits_eq {ds : List Byte} (h : ∀ b ∈ ds, Digit b) (a : Nat) : atoiDigits a ds = ds.foldl (fun a b => a * 10 + (b.toNat - 48)) a := by
  induction ds generalizing a with
  | nil => rfl
  | cons b ds ih =>
    rw [atoiDigits, if_pos (digit_le (h b (by simp))), ih (fun x hx => h x (by simp [hx])), List.foldl_cons]

theorem digit_not {b : Byte} (h : Digit b) : b ≠ 0x2D#8 ∧ b ≠ 0x2B#8 ∧ b ≠ 0x45#8 ∧ b ≠ 0x65#8 ∧ b ≠ 0x2E#8 := by
  obtain ⟨h1, h2⟩ := h
  refine ⟨?_, ?_, ?_, ?_, ?_⟩ <;> (rintro rfl; revert h1 h2; decide)

theorem atoi_eq {xs : List Byte} (h0 : xs ≠ []) (h : ∀ b ∈ xs, Digit b) (neg : Bool) :
    atoi ((if neg then [0x2D#8] else []) ++ xs) = if neg then - (digitsVal xs : ℤ) else digitsVal xs := by
  have hd : atoiDigits 0 xs = digitsVal xs := atoiDigits_eq h 0
  cases neg with
  | true => simp [atoi, hd]
  | false =>
    match xs, h0 with
    | b :: t, _ =>
      have hb := digit_not (h b (by simp))
      simp only [Bool.false_eq_true, if_false, List.nil_append, atoi]
      rw [if_neg (by simpa using hb.1), if_neg (by simpa using hb.2.1), hd]

theorem splitE_none {l : List Byte} (h : ∀ b ∈ l, b ≠ 0x45#8 ∧ b ≠ 0x65#8) : splitE l = none := by
  induction l with
  | nil => rfl
  | cons b l ih =>
    rw [splitE, ih (fun x hx => h x (by simp [hx]))]
    have := h b (by simp)
    simp [this]

theorem splitE_eq {m x : List Byte} (hx : ∀ b ∈ x, b ≠ 0x45#8 ∧ b ≠ 0x65#8) : splitE (m ++ 0x45#8 :: x) = some (m, x) := by
  induction m with
  | nil => simp [splitE, splitE_none hx]
  | cons b m ih => rw [List.cons_append, splitE, ih]

/-- The parts of a text in scientific notation. -/
theorem sci_data {neg neg' : Bool} {d : Byte} {ds xs l : List Byte}
    (hl : l = (if neg then [0x2D#8] else []) ++ (d :: (if ds = [] then [] else 0x2E#8 :: ds) ++ 0x45#8 :: ((if neg' then [0x2D#8] else []) ++ xs)))
    (hd : Digit d) (hxs : xs ≠ []) (hx : ∀ b ∈ xs, Digit b) :
    let x := (if neg' then [0x2D#8] else []) ++ xs
    let k : ℤ := if neg' then - (digitsVal xs : ℤ) else digitsVal xs
    signOf l = (if neg then [0x2D#8] else []) ∧ splitE (unsigned l) = some (d :: (if ds = [] then [] else 0x2E#8 :: ds), x) ∧ atoi x = k ∧
    l = signOf l ++ (d :: (if ds = [] then [] else 0x2E#8 :: ds) ++ 0x45#8 :: x) ∧ IsExpo (0x45#8 :: x) k ∧ IsExpo (0x65#8 :: x) k := by
  subst hl
  have hdn := digit_not hd
  have hxe : ∀ b ∈ (if neg' then [0x2D#8] else []) ++ xs, b ≠ 0x45#8 ∧ b ≠ 0x65#8 := by
    intro b hb
    rcases List.mem_append.1 hb with hb | hb
    · cases neg' <;> simp at hb
      subst hb
      decide
    · have := digit_not (hx b hb)
      exact ⟨this.2.2.1, this.2.2.2.1⟩
  have hsign : signOf ((if neg then [0x2D#8] else []) ++ (d :: (if ds = [] then [] else 0x2E#8 :: ds) ++ 0x45#8 :: ((if neg' then [0x2D#8] else []) ++ xs))) =
      (if neg then [0x2D#8] else []) := by
    cases neg with
    | true => rfl
    | false => simp [signOf, hdn.1]
  have hun : unsigned ((if neg then [0x2D#8] else []) ++ (d :: (if ds = [] then [] else 0x2E#8 :: ds) ++ 0x45#8 :: ((if neg' then [0x2D#8] else []) ++ xs))) =
      d :: (if ds = [] then [] else 0x2E#8 :: ds) ++ 0x45#8 :: ((if neg' then [0x2D#8] else []) ++ xs) := by
    cases neg with
    | true => rfl
    | false => simp [unsigned, hdn.1]
  have hex : ∀ c, (c = 0x65#8 ∨ c = 0x45#8) → IsExpo (c :: ((if neg' then [0x2D#8] else []) ++ xs)) (if neg' then - (digitsVal xs : ℤ) else digitsVal xs) := by
    intro c hc
    refine .inr ⟨c, _, xs, rfl, hc, hxs, hx, ?_⟩
    cases neg' with
    | true => exact .inr ⟨rfl, rfl⟩
    | false => exact .inl ⟨.inl rfl, rfl⟩
  refine ⟨hsign, ?_, atoi_eq hxs hx neg', ?_, hex _ (.inr rfl), hex _ (.inl rfl)⟩
  · rw [hun]
    exact splitE_eq hxe
  · rw [hsign]

theorem sci_parts {l : List Byte} (h : IsSci l) : ∃ (neg : Bool) (d : Byte) (ds x : List Byte) (k : ℤ),
    signOf l = (if neg then [0x2D#8] else []) ∧ splitE (unsigned l) = some (d :: (if ds = [] then [] else 0x2E#8 :: ds), x) ∧ atoi x = k ∧
    l = signOf l ++ (d :: (if ds = [] then [] else 0x2E#8 :: ds) ++ 0x45#8 :: x) ∧ Digit d ∧ d ≠ 0x30#8 ∧ (∀ b ∈ ds, Digit b) ∧
    IsExpo (0x45#8 :: x) k ∧ IsExpo (0x65#8 :: x) k := by
  obtain ⟨neg, neg', d, ds, xs, hl, hd, hd0, hds, hxs, hx⟩ := h
  obtain ⟨e1, e2, e3, e4, e5, e6⟩ := sci_data hl hd hxs hx
  exact ⟨neg, d, ds, _, _, e1, e2, e3, e4, hd, hd0, hds, e5, e6⟩

theorem sciShort_sci {l : List Byte} (h : SciShort l) : IsSci l := by
  obtain ⟨neg, neg', d, ds, xs, hl, h1, h2, h3, h4, h5, -⟩ := h
  exact ⟨neg, neg', d, ds, xs, hl, h1, h2, h3, h4, h5⟩

/-- What is printed of a double is short. -/
theorem fpText_short (g : Bool) {l : List Byte} (h : SciShort l) : (fpText g l).length < 512 := by
  obtain ⟨neg, neg', d, ds, xs, hl, hd, -, -, hxs, hx, hn, hv⟩ := h
  obtain ⟨e1, e2, e3, e4, -⟩ := sci_data hl hd hxs hx
  have hk : (if neg' then - (digitsVal xs : ℤ) else digitsVal xs).natAbs ≤ 324 := by split_ifs <;> omega
  have hsl : (signOf l).length ≤ 1 := by rw [e1]; split_ifs <;> simp
  have hr : ((if ds = [] then [] else 0x2E#8 :: ds).drop 1).length ≤ 16 := by split_ifs <;> simp <;> omega
  generalize (if neg' then - (digitsVal xs : ℤ) else digitsVal xs) = k at *
  generalize hrr : (if ds = [] then [] else 0x2E#8 :: ds) = r at *
  have hf : (fixedText k d (r.drop 1)).length ≤ 400 := by
    unfold fixedText
    split_ifs <;> simp only [List.length_append, List.length_cons, List.length_replicate, List.length_nil, List.length_take, List.length_drop] at * <;> omega
  unfold fpText
  rw [e2]
  dsimp only
  rw [e3]
  by_cases hc : (g && decide (l.length < (signOf l ++ fixedText k d (r.drop 1)).length)) = true
  · rw [if_pos hc]
    rw [Bool.and_eq_true, decide_eq_true_eq] at hc
    have := hc.2
    have e5 := congrArg List.length e4
    simp only [List.length_append, List.length_cons] at *
    omega
  · rw [if_neg hc]
    simp only [List.length_append] at *
    omega

theorem isInt_of {d : Byte} (hd : Digit d) (hd0 : d ≠ 0x30#8) {ds : List Byte} (h : ∀ b ∈ ds, Digit b) : IsInt (d :: ds) :=
  .inr ⟨d, ds, rfl, hd, hd0, h⟩

theorem digit_zero : Digit 0x30#8 := ⟨by decide, by decide⟩

/-- The digits without exponent have the value of those with one. -/
theorem fixedText_decimal {d : Byte} {ds : List Byte} (hd : Digit d) (hd0 : d ≠ 0x30#8) (hds : ∀ b ∈ ds, Digit b) (k : ℤ) :
    ∃ i f, fixedText k d ds = i ++ (if f = [] then [] else 0x2E#8 :: f) ∧ IsInt i ∧ (∀ b ∈ f, Digit b) ∧
      ((digitsVal i : ℚ) + (digitsVal f : ℚ) / 10 ^ f.length) = ((digitsVal [d] : ℚ) + (digitsVal ds : ℚ) / 10 ^ ds.length) * 10 ^ k := by
  have h10 : (10 : ℚ) ≠ 0 := by norm_num
  unfold fixedText
  by_cases hk : k < 0
  · rw [if_pos hk]
    obtain ⟨j, hj⟩ : ∃ j : Nat, k = - ((j : ℤ) + 1) := ⟨k.natAbs - 1, by omega⟩
    refine ⟨[0x30#8], List.replicate (k.natAbs - 1) 0x30#8 ++ d :: ds, ?_, .inl rfl, ?_, ?_⟩
    · rw [if_neg (by simp)]; rfl
    · intro b hb
      rcases List.mem_append.1 hb with hb | hb
      · rw [List.eq_of_mem_replicate hb]; exact digit_zero
      · rcases List.mem_cons.1 hb with rfl | hb
        · exact hd
        · exact hds b hb
    · have hn : k.natAbs - 1 = j := by omega
      rw [hn, digitsVal_append, digitsVal_zeros, show d :: ds = [d] ++ ds from rfl, digitsVal_append, hj]
      simp only [List.length_append, List.length_replicate, List.length_cons, List.length_nil]
      rw [show (digitsVal [0x30#8] : ℚ) = 0 by rfl, zpow_neg, show ((j : ℤ) + 1) = ((j + 1 : ℕ) : ℤ) by push_cast; ring, zpow_natCast]
      push_cast
      field_simp
      ring
  · rw [if_neg hk]
    obtain ⟨j, rfl⟩ : ∃ j : Nat, k = (j : ℤ) := ⟨k.toNat, by omega⟩
    simp only [Int.toNat_natCast, zpow_natCast]
    by_cases hj : ds.length ≤ j
    · refine ⟨d :: (ds.take j ++ List.replicate (j - ds.length) 0x30#8), [], ?_, ?_, by simp, ?_⟩
      · rw [List.drop_eq_nil_of_le hj]; simp
      · refine isInt_of hd hd0 fun b hb => ?_
        rcases List.mem_append.1 hb with hb | hb
        · exact hds b (List.mem_of_mem_take hb)
        · rw [List.eq_of_mem_replicate hb]; exact digit_zero
      · rw [List.take_of_length_le hj, show d :: (ds ++ List.replicate (j - ds.length) 0x30#8) = [d] ++ (ds ++ List.replicate (j - ds.length) 0x30#8) from rfl,
          digitsVal_append, digitsVal_append, digitsVal_zeros]
        obtain ⟨m, rfl⟩ := Nat.exists_eq_add_of_le hj
        simp only [List.length_append, List.length_replicate, Nat.add_sub_cancel_left, List.length_nil, digitsVal_nil]
        push_cast
        field_simp
        ring
    · have hj' : j < ds.length := by omega
      have hrep : List.replicate (j - ds.length) 0x30#8 = [] := by rw [show j - ds.length = 0 by omega]; rfl
      rw [hrep, List.append_nil]
      have hsum : digitsVal ([d] ++ ds) = digitsVal ([d] ++ ds.take j) * 10 ^ (ds.drop j).length + digitsVal (ds.drop j) := by
        rw [← digitsVal_append, List.append_assoc, List.take_append_drop]
      have hlen : ds.length = j + (ds.drop j).length := by rw [List.length_drop]; omega
      have hval : ((digitsVal ([d] ++ ds.take j) : ℚ) + (digitsVal (ds.drop j) : ℚ) / 10 ^ (ds.drop j).length) =
          ((digitsVal [d] : ℚ) + (digitsVal ds : ℚ) / 10 ^ ds.length) * 10 ^ j := by
        have h1 : (digitsVal ([d] ++ ds) : ℚ) = digitsVal [d] * 10 ^ ds.length + digitsVal ds := by
          rw [digitsVal_append]; push_cast; ring
        have h2 : (digitsVal ([d] ++ ds) : ℚ) = digitsVal ([d] ++ ds.take j) * 10 ^ (ds.drop j).length + digitsVal (ds.drop j) := by
          rw [hsum]; push_cast; ring
        have e1 : ((digitsVal [d] : ℚ) + (digitsVal ds : ℚ) / 10 ^ ds.length) = digitsVal ([d] ++ ds) / 10 ^ ds.length := by
          rw [h1]; field_simp
        have e2 : ((digitsVal ([d] ++ ds.take j) : ℚ) + (digitsVal (ds.drop j) : ℚ) / 10 ^ (ds.drop j).length) =
            digitsVal ([d] ++ ds) / 10 ^ (ds.drop j).length := by
          rw [h2]; field_simp
        rw [e1, e2]
        have : (10 : ℚ) ^ ds.length = 10 ^ j * 10 ^ (ds.drop j).length := by rw [← pow_add, ← hlen]
        rw [this]
        field_simp
      have hint : IsInt (d :: ds.take j) := isInt_of hd hd0 fun b hb => hds b (List.mem_of_mem_take hb)
      by_cases hz : ds.drop j ≠ [] ∧ ds.drop j ≠ [0x30#8]
      · rw [if_pos hz]
        refine ⟨d :: ds.take j, ds.drop j, by rw [if_neg hz.1], hint, fun b hb => hds b (List.mem_of_mem_drop hb), hval⟩
      · rw [if_neg hz]
        refine ⟨d :: ds.take j, [], by simp, hint, by simp, ?_⟩
        rw [← hval]
        have : digitsVal (ds.drop j) = 0 := by
          rcases not_and_or.1 hz with h | h
          · rw [not_not.1 h]; rfl
          · rw [not_not.1 h]; rfl
        rw [this]
        simp [digitsVal_nil]

/-- The decimal of Ryu has a value. -/
theorem sci_decimal {l : List Byte} (h : IsSci l) : ∃ q, IsDecimal l q := by
  obtain ⟨neg, d, ds, x, k, hs, -, -, hl, hd, hd0, hds, he, -⟩ := sci_parts h
  rw [hs] at hl
  refine ⟨_, neg, [d], ds, 0x45#8 :: x, k, ?_, isInt_of hd hd0 (by simp), hds, he, rfl⟩
  rw [hl]
  simp

/-- The text has the value of the decimal. -/
theorem fpText_decimal (g : Bool) {l : List Byte} (h : IsSci l) : ∃ q, IsDecimal l q ∧ IsDecimal (fpText g l) q := by
  obtain ⟨neg, d, ds, x, k, hs, hsp, hat, hl, hd, hd0, hds, he, he'⟩ := sci_parts h
  have hdrop : (if ds = [] then [] else 0x2E#8 :: ds).drop 1 = ds := by
    by_cases h0 : ds = []
    · rw [if_pos h0, h0]; rfl
    · rw [if_neg h0]; rfl
  refine ⟨(if neg then -1 else 1) * ((digitsVal [d] : ℚ) + (digitsVal ds : ℚ) / 10 ^ ds.length) * 10 ^ k, ?_, ?_⟩
  · refine ⟨neg, [d], ds, 0x45#8 :: x, k, ?_, isInt_of hd hd0 (by simp), hds, he, rfl⟩
    rw [hs] at hl
    conv_lhs => rw [hl]
    simp
  · unfold fpText
    rw [hsp]
    dsimp only
    rw [hdrop, hat]
    by_cases hc : (g && decide (l.length < (signOf l ++ fixedText k d ds).length)) = true
    · rw [if_pos hc]
      refine ⟨neg, [d], ds, 0x65#8 :: x, k, ?_, isInt_of hd hd0 (by simp), hds, he', rfl⟩
      rw [hs]
      simp
    · rw [if_neg hc]
      obtain ⟨i, f, h1, h2, h3, h4⟩ := fixedText_decimal hd hd0 hds k
      refine ⟨neg, i, f, [], 0, ?_, h2, h3, .inl ⟨rfl, rfl⟩, ?_⟩
      · rw [hs, h1, List.append_nil]
      · rw [h4, zpow_zero]; ring

/-- A number text is a number of JSON. -/
theorem decimal_number {l : List Byte} {q : ℚ} (h : IsDecimal l q) : IsNumber l := by
  obtain ⟨neg, i, f, e, k, rfl, hi, hf, he, -⟩ := h
  refine ⟨_, i, _, e, rfl, by cases neg <;> simp, hi, ?_, ?_⟩
  · by_cases h0 : f = []
    · rw [if_pos h0]; exact .inl rfl
    · rw [if_neg h0]
      match f, h0 with
      | d :: ds, _ => exact .inr ⟨d, ds, rfl, hf d (by simp), fun b hb => hf b (by simp [hb])⟩
  · rcases he with ⟨rfl, -⟩ | ⟨c, s, ds, rfl, hc, hds, hd, hk⟩
    · exact .inl rfl
    · match ds, hds with
      | d :: ds, _ =>
        refine .inr ⟨c, s, d, ds, rfl, hc, ?_, hd d (by simp), fun b hb => hd b (by simp [hb])⟩
        rcases hk with ⟨h | h, -⟩ | ⟨h, -⟩ <;> simp [h]

theorem sci_split {l : List Byte} (h : IsSci l) : ∃ d r e, splitE (unsigned l) = some (d :: r, e) := by
  obtain ⟨neg, d, ds, x, k, -, h, -⟩ := sci_parts h
  exact ⟨_, _, _, h⟩

end Tg
