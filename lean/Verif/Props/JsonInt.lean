import Verif.Model.JsonInt
import Mathlib.Data.Nat.Digits.Defs
import Mathlib.Data.List.TakeWhile
import Mathlib.Tactic.NormNum
import Mathlib.Tactic.Linarith
import Mathlib.Tactic.SplitIfs
/-!
C94: what `json_int64`, `json_int` and `json_uint64` return.
-/
namespace Tg

open Json Spec.Double

/-- The number that a text of digits spells. -/
def Spec.Json.digitsNum (ds : List Byte) : ℕ := Nat.ofDigits 10 (ds.map fun b => b.toNat - 48).reverse

/-- The nearest number from `lo` to `hi`. -/
def Spec.Json.cut (lo hi n : ℤ) : ℤ := max lo (min hi n)

/-- A number without its fraction. -/
def Spec.Json.whole (q : ℚ) : ℤ := if q < 0 then ⌈q⌉ else ⌊q⌋

open Spec.Json

theorem Json.digitsVal_eq (ds : List Byte) : digitsVal ds = digitsNum ds := by
  suffices h : ∀ a, ds.foldl (fun n b => n * 10 + (b.toNat - 48)) a = digitsNum ds + 10 ^ ds.length * a by simpa [digitsVal] using h 0
  induction ds with
  | nil => intro a; simp [digitsNum]
  | cons b t ih =>
    intro a
    rw [List.foldl_cons, ih]
    simp only [digitsNum, List.map_cons, List.reverse_cons, Nat.ofDigits_append, Nat.ofDigits_singleton, List.length_reverse, List.length_map, List.length_cons, pow_succ]
    ring

theorem Json.takeWhile_digits {ds : List Byte} (hd : ∀ b ∈ ds, 48 ≤ b.toNat ∧ b.toNat ≤ 57) : ds.takeWhile isDigit = ds := by
  rw [List.takeWhile_eq_self_iff]
  intro b hb
  have := hd b hb
  simp only [isDigit, Bool.and_eq_true, decide_eq_true_eq, BitVec.le_def]
  exact ⟨this.1, this.2⟩

theorem Json.scanInt_neg {ds : List Byte} (h0 : ds ≠ []) (hd : ∀ b ∈ ds, 48 ≤ b.toNat ∧ b.toNat ≤ 57) : scanInt (0x2D#8 :: ds) = (true, digitsNum ds, ds.length + 1) := by
  have e : (0x2D#8 :: ds).takeWhile isSpace = [] := by rw [List.takeWhile_cons, if_neg (by decide)]
  simp [scanInt, e, signOf, takeWhile_digits hd, h0, digitsVal_eq, Nat.add_comm]

theorem Json.scanInt_pos {ds : List Byte} (h0 : ds ≠ []) (hd : ∀ b ∈ ds, 48 ≤ b.toNat ∧ b.toNat ≤ 57) : scanInt ds = (false, digitsNum ds, ds.length) := by
  obtain ⟨b, t, rfl⟩ := List.exists_cons_of_ne_nil h0
  obtain ⟨h1, h2⟩ := hd b List.mem_cons_self
  have e : (b :: t).takeWhile isSpace = [] := by
    rw [List.takeWhile_cons, if_neg]
    simp only [isSpace, Bool.or_eq_true, Bool.and_eq_true, beq_iff_eq, decide_eq_true_eq, BitVec.le_def, not_or, not_and]
    exact ⟨by rintro rfl; simp at h1, fun _ h => by simp at h; omega⟩
  have s : signOf (b :: t) = (false, 0) := by
    rw [signOf, if_neg (by rintro rfl; simp at h1), if_neg (by rintro rfl; simp at h1)]
  simp [scanInt, e, s, takeWhile_digits hd, digitsVal_eq]

/-- C94. An integer that is spelled with at most 20 bytes is read exactly and cut to the range of the type. -/
theorem C94_integer (sd : List Byte → F64 × Nat) (ds : List Byte) (h0 : ds ≠ []) (hd : ∀ b ∈ ds, 48 ≤ b.toNat ∧ b.toNat ≤ 57) :
    (ds.length ≤ 20 → int64 sd .number ds = some (cut (-2 ^ 63) (2 ^ 63 - 1) (digitsNum ds)) ∧ int sd .number ds = some (cut (-2 ^ 31) (2 ^ 31 - 1) (digitsNum ds)) ∧
      uint64 sd .number ds = some (cut 0 (2 ^ 64 - 1) (digitsNum ds))) ∧
    (ds.length ≤ 19 → int64 sd .number (0x2D#8 :: ds) = some (cut (-2 ^ 63) (2 ^ 63 - 1) (-digitsNum ds)) ∧
      int sd .number (0x2D#8 :: ds) = some (cut (-2 ^ 31) (2 ^ 31 - 1) (-digitsNum ds))) := by
  have hl : 0 < ds.length := List.length_pos_iff.2 h0
  refine ⟨fun h => ?_, fun h => ?_⟩
  · have a : int64 sd .number ds = some (cut (-2 ^ 63) (2 ^ 63 - 1) (digitsNum ds)) := by
      simp only [int64, parseInt64, strtoll, scanInt_pos h0 hd]
      rw [if_neg (by omega), if_pos (by omega), if_pos trivial]
      simp only [cut, Option.some.injEq, Bool.false_eq_true, if_false]
      split_ifs <;> omega
    refine ⟨a, ?_, ?_⟩
    · simp only [int, a, cut, Option.some.injEq]
      split_ifs <;> omega
    · obtain ⟨b, t, rfl⟩ := List.exists_cons_of_ne_nil h0
      have hb := hd b List.mem_cons_self
      simp only [uint64, parseUint64, strtoull, scanInt_pos h0 hd]
      rw [if_neg (by omega), if_pos ⟨by omega, by rw [List.head?_cons, Ne, Option.some.injEq]; rintro rfl; simp at hb⟩, if_pos trivial]
      simp only [cut, Option.some.injEq, Bool.false_eq_true, if_false]
      split_ifs <;> omega
  · have a : int64 sd .number (0x2D#8 :: ds) = some (cut (-2 ^ 63) (2 ^ 63 - 1) (-digitsNum ds)) := by
      simp only [int64, parseInt64, strtoll, scanInt_neg h0 hd, List.length_cons]
      rw [if_neg (by omega), if_pos (by omega), if_pos trivial]
      simp only [cut, Option.some.injEq, if_true]
      split_ifs <;> omega
    refine ⟨a, ?_⟩
    simp only [int, a, cut, Option.some.injEq]
    split_ifs <;> omega

theorem Json.clamp_finite {lo hi : ℤ} (h1 : lo ≤ 0) (h2 : 0 ≤ hi) {y : F64} (hy : IsFinite y) :
    (if dLt y lo then some lo else if dGt y (hi + 1) then some hi else dCast lo hi y) = if val y = hi + 1 then none else some (cut lo hi (whole (val y))) := by
  unfold IsFinite at hy
  simp only [dLt, dGt, dCast, if_pos hy, decide_eq_true_eq, gt_iff_lt]
  generalize val y = q
  change _ = if q = hi + 1 then none else some (cut lo hi (whole q))
  have hlo : (lo : ℚ) ≤ 0 := by exact_mod_cast h1
  have hhi : (0 : ℚ) ≤ hi := by exact_mod_cast h2
  have hw : (if q < 0 then ⌈q⌉ else ⌊q⌋) = whole q := rfl
  rw [hw]
  push_cast
  by_cases a : q < lo
  · have : whole q ≤ lo := by
      rw [whole, if_pos (by linarith)]
      exact Int.ceil_le.2 a.le
    rw [if_pos a, if_neg (by intro h; linarith), cut]
    congr 1; omega
  · rw [if_neg a]
    by_cases b : (hi : ℚ) + 1 < q
    · have : hi ≤ whole q := by
        rw [whole, if_neg (by linarith)]
        exact Int.le_floor.2 (by linarith)
      rw [if_pos b, if_neg (by intro h; linarith), cut]
      congr 1; omega
    · rw [if_neg b]
      by_cases c : q = hi + 1
      · have : whole q = hi + 1 := by
          rw [whole, if_neg (by linarith), c, ← Int.cast_one, ← Int.cast_add, Int.floor_intCast]
        rw [if_pos c, this, if_neg (by omega)]
      · have c' : q < hi + 1 := lt_of_le_of_ne (not_lt.1 b) c
        have : lo ≤ whole q ∧ whole q ≤ hi := by
          unfold whole
          split_ifs with d
          · exact ⟨by exact_mod_cast (not_lt.1 a).trans (Int.le_ceil q), (Int.ceil_le.2 (by simpa using d.le)).trans h2⟩
          · refine ⟨h1.trans (Int.floor_nonneg.2 (not_lt.1 d)), ?_⟩
            have : ⌊q⌋ < hi + 1 := Int.floor_lt.2 (by push_cast; exact c')
            omega
        rw [if_neg c, if_pos this, cut]
        congr 1; omega

theorem Json.scanInt_part {t : List Byte} {c : Byte} (hc : c ∈ t) (h1 : isSpace c = false) (h2 : isDigit c = false) (h3 : c ≠ 0x2D#8) (h4 : c ≠ 0x2B#8) :
    (scanInt t).2.2 ≠ t.length := by
  intro h
  unfold scanInt at h
  dsimp only at h
  split_ifs at h with h0
  · exact absurd (List.length_eq_zero_iff.1 h.symm) (List.ne_nil_of_mem hc)
  · have e1 : t.takeWhile isSpace ++ t.drop (t.takeWhile isSpace).length = t := by
      conv_lhs => rw [List.prefix_iff_eq_take.1 (List.takeWhile_prefix (l := t) isSpace)]
      rw [List.length_take, Nat.min_eq_left (List.takeWhile_prefix (l := t) isSpace).length_le, List.take_append_drop]
    generalize t.drop (t.takeWhile isSpace).length = r at h h0 e1
    have hcr : c ∈ r := by
      rw [← e1, List.mem_append] at hc
      rcases hc with hc | hc
      · exact absurd (List.mem_takeWhile_imp hc) (by simp [h1])
      · exact hc
    have hl : (t.takeWhile isSpace).length + r.length = t.length := by rw [← List.length_append, e1]
    have hs : (signOf r).2 ≤ r.length ∧ c ∈ r.drop (signOf r).2 := by
      cases r with
      | nil => simp at hcr
      | cons b r =>
        rw [signOf]
        split_ifs with i1 i2
        · subst i1; exact ⟨by simp, by simpa [h3] using hcr⟩
        · subst i2; exact ⟨by simp, by simpa [h4] using hcr⟩
        · exact ⟨by simp, hcr⟩
    have hl2 : ((r.drop (signOf r).2).takeWhile isDigit).length = (r.drop (signOf r).2).length := by
      have h' := hs.1
      dsimp only at h
      rw [List.length_drop]; omega
    have := List.IsPrefix.eq_of_length (List.takeWhile_prefix isDigit) hl2
    rw [← this] at hs
    exact absurd (List.mem_takeWhile_imp hs.2) (by simp [h2])

theorem Json.by_double (sd : List Byte → F64 × Nat) (t : List Byte) (hc : 21 ≤ t.length ∨ ∃ c ∈ t, c = 0x2E#8 ∨ c = 0x65#8 ∨ c = 0x45#8) (hl : t.length < 512) (hr : (sd t).2 = t.length) :
    int64 sd .number t = clampI (sd t).1 ∧ uint64 sd .number t = clampU (sd t).1 := by
  have hp : Gp.parseDouble sd t = (sd t).1 := by rw [Gp.parseDouble, if_neg (by omega), if_pos hr]
  simp only [int64, uint64, parseInt64, parseUint64, strtoll, strtoull, if_pos hr, hp, ite_self]
  rcases hc with hc | ⟨c, hm, hc⟩
  · rw [if_neg (by omega), if_neg (by omega), if_neg (by omega), if_neg (by omega)]
    exact ⟨rfl, rfl⟩
  · have hs : (scanInt t).2.2 ≠ t.length := by
      rcases hc with rfl | rfl | rfl <;> exact scanInt_part hm (by decide) (by decide) (by decide) (by decide)
    have h0 : t.length ≠ 0 := fun h => List.ne_nil_of_mem hm (List.length_eq_zero_iff.1 h)
    simp only [if_neg hs, if_neg h0, ite_self, and_self]

/-- C94. A number that is spelled with a point or an exponent or with more than 20 bytes and that `strtod` reads as a finite double loses its fraction and is cut to the range of the type. The only exception is the double
just above the range, `2 ^ 63` or `2 ^ 64`: for it the conversion has no defined behavior. -/
theorem C94_fraction (sd : List Byte → F64 × Nat) (t : List Byte) (hc : 21 ≤ t.length ∨ ∃ c ∈ t, c = 0x2E#8 ∨ c = 0x65#8 ∨ c = 0x45#8) (hl : t.length < 512) (hr : (sd t).2 = t.length)
    (hf : IsFinite (sd t).1) :
    int64 sd .number t = (if val (sd t).1 = 2 ^ 63 then none else some (cut (-2 ^ 63) (2 ^ 63 - 1) (whole (val (sd t).1)))) ∧
    int sd .number t = (if val (sd t).1 = 2 ^ 63 then none else some (cut (-2 ^ 31) (2 ^ 31 - 1) (whole (val (sd t).1)))) ∧
    uint64 sd .number t = (if val (sd t).1 = 2 ^ 64 then none else some (cut 0 (2 ^ 64 - 1) (whole (val (sd t).1)))) := by
  obtain ⟨p1, p2⟩ := by_double sd t hc hl hr
  have e1 : ((2 ^ 63 - 1 : ℤ) : ℚ) + 1 = 2 ^ 63 := by norm_num
  have e2 : ((2 ^ 64 - 1 : ℤ) : ℚ) + 1 = 2 ^ 64 := by norm_num
  have a : int64 sd .number t = (if val (sd t).1 = 2 ^ 63 then none else some (cut (-2 ^ 63) (2 ^ 63 - 1) (whole (val (sd t).1)))) := by
    have := clamp_finite (lo := -2 ^ 63) (hi := 2 ^ 63 - 1) (by norm_num) (by norm_num) hf
    rw [e1] at this
    rw [← this]
    exact p1
  refine ⟨a, ?_, ?_⟩
  · rw [int, a]
    split_ifs with h
    · rfl
    · simp only [cut, Option.some.injEq]
      split_ifs <;> omega
  · have := clamp_finite (lo := 0) (hi := 2 ^ 64 - 1) (by norm_num) (by norm_num) hf
    rw [e2] at this
    rw [← this]
    exact p2

/-- C94. The exception happens: `9223372036854775808.0` is the double `2 ^ 63`, and `json_int64` of it is not defined. -/
theorem C94_undefined (sd : List Byte → F64 × Nat) (h : sd (txt "9223372036854775808.0") = (0x43E0000000000000#64, 21)) :
    val 0x43E0000000000000#64 = 2 ^ 63 ∧ int64 sd .number (txt "9223372036854775808.0") = none := by
  have e : val 0x43E0000000000000#64 = 2 ^ 63 := by decide +kernel
  refine ⟨e, ?_⟩
  have := (C94_fraction sd (txt "9223372036854775808.0") (.inr ⟨0x2E#8, by decide, .inl rfl⟩) (by decide) (by rw [h]; decide) (by rw [h]; unfold IsFinite; decide)).1
  rwa [h, if_pos e] at this

/-- C94. A number that is spelled with a point or an exponent or with more than 20 bytes and that `strtod` reads as infinite becomes the end of the range of the type. -/
theorem C94_infinite (sd : List Byte → F64 × Nat) (t : List Byte) (hc : 21 ≤ t.length ∨ ∃ c ∈ t, c = 0x2E#8 ∨ c = 0x65#8 ∨ c = 0x45#8) (hl : t.length < 512) (hr : (sd t).2 = t.length)
    (hf : ¬IsFinite (sd t).1) (hn : F64.isNaN (sd t).1 = false) :
    int64 sd .number t = some (if neg (sd t).1 then -2 ^ 63 else 2 ^ 63 - 1) ∧ int sd .number t = some (if neg (sd t).1 then -2 ^ 31 else 2 ^ 31 - 1) ∧
    uint64 sd .number t = some (if neg (sd t).1 then 0 else 2 ^ 64 - 1) := by
  obtain ⟨p1, p2⟩ := by_double sd t hc hl hr
  have a : int64 sd .number t = some (if neg (sd t).1 then -2 ^ 63 else 2 ^ 63 - 1) := by
    unfold IsFinite at hf
    simp only [p1, clampI, dLt, dGt, if_neg hf, hn]
    cases neg (sd t).1 <;> rfl
  refine ⟨a, ?_, ?_⟩
  · rw [int, a]
    cases neg (sd t).1 <;> rfl
  · unfold IsFinite at hf
    simp only [p2, clampU, dLt, dGt, if_neg hf, hn]
    cases neg (sd t).1 <;> rfl

/-- C94. `strtod` also reads `nan`: `json_int64` and `json_uint64` of the JSON string `"nan"` are not defined. -/
theorem C94_nan (sd : List Byte → F64 × Nat) (y : F64) (h : sd (txt "nan") = (y, 3)) (hy : F64.isNaN y = true) (hf : ¬IsFinite y) :
    int64 sd .string (txt "\"nan\"") = none ∧ uint64 sd .string (txt "\"nan\"") = none := by
  have e : ((txt "\"nan\"").drop 1).take ((txt "\"nan\"").length - 2) = txt "nan" := by decide
  have e0 : (txt "nan").length = 3 := by decide
  have e1 : (scanInt (txt "nan")).2.2 = 0 := by decide
  have e2 : (txt "nan").head? ≠ some 0x2D#8 := by decide
  unfold IsFinite at hf
  constructor
  · rw [int64, if_neg (by decide), e]
    simp [parseInt64, strtoll, e0, e1, h, clampI, dLt, dGt, dCast, hf, hy]
  · rw [uint64, if_neg (by decide), e]
    simp [parseUint64, strtoull, e0, e1, e2, h, clampU, dLt, dGt, dCast, hf, hy]

/-- C94. A number that is spelled with 512 bytes or more is read as 0. -/
theorem C94_long (sd : List Byte → F64 × Nat) (t : List Byte) (h : 512 ≤ t.length) : int64 sd .number t = some 0 ∧ int sd .number t = some 0 ∧ uint64 sd .number t = some 0 := by
  have hp : Gp.parseDouble sd t = 0#64 := by rw [Gp.parseDouble, if_pos h]
  have f0 : IsFinite 0#64 := by unfold IsFinite; decide
  have v0 : val 0#64 = 0 := by norm_num [val, neg, units, sig, expo, frac]
  have w0 : whole 0 = 0 := by simp [whole]
  have a : int64 sd .number t = some 0 := by
    have := clamp_finite (lo := -2 ^ 63) (hi := 2 ^ 63 - 1) (by norm_num) (by norm_num) f0
    simp only [int64, parseInt64]
    rw [if_neg (by omega), if_neg (by omega), hp]
    refine Eq.trans this ?_
    rw [v0, w0, if_neg (by norm_num)]
    simp [cut]
  refine ⟨a, by rw [int, a]; rfl, ?_⟩
  have := clamp_finite (lo := 0) (hi := 2 ^ 64 - 1) (by norm_num) (by norm_num) f0
  simp only [uint64, parseUint64]
  rw [if_neg (by omega), if_neg (by omega), hp]
  refine Eq.trans this ?_
  rw [v0, w0, if_neg (by norm_num)]
  simp [cut]

/-- C94. `json_uint64` tests the first byte for a minus sign, but `strtoull` skips white space: the JSON string `" -5"` is read as `2 ^ 64 - 5`. -/
theorem C94_space (sd : List Byte → F64 × Nat) : uint64 sd .string (txt "\" -5\"") = some (2 ^ 64 - 5) := by
  have e1 : strtoull (txt " -5") = (2 ^ 64 - 5, 3) := by decide +kernel
  have e2 : ((txt "\" -5\"").drop 1).take ((txt "\" -5\"").length - 2) = txt " -5" := by decide
  rw [uint64, if_neg (by decide), e2, parseUint64, e1, if_neg (by decide), if_pos (by decide), if_pos (by decide)]

/-- The hypotheses of `C94_integer`: `-9223372036854775809` is cut to `-2 ^ 63`. -/
example (sd : List Byte → F64 × Nat) : int64 sd .number (txt "-9223372036854775809") = some (-2 ^ 63) :=
  ((C94_integer sd (txt "9223372036854775809") (by decide) (by decide)).2 (by decide)).1

/-- The hypotheses of `C94_fraction`: `-1.5` is read as `-1`. -/
example : int64 (fun _ => (0xBFF8000000000000#64, 4)) .number (txt "-1.5") = some (-1) := by
  have e : val 0xBFF8000000000000#64 = -3 / 2 := by decide +kernel
  rw [(C94_fraction _ (txt "-1.5") (.inr ⟨0x2E#8, by decide, .inl rfl⟩) (by decide) (by decide) (by unfold IsFinite; decide)).1]
  dsimp only
  rw [e]
  norm_num [whole, cut]

/-- The hypotheses of `C94_infinite` and `C94_nan`. -/
example : int64 (fun _ => (0xFFF0000000000000#64, 6)) .number (txt "-1e999") = some (-2 ^ 63) :=
  (C94_infinite _ (txt "-1e999") (.inr ⟨0x65#8, by decide, .inr (.inl rfl)⟩) (by decide) (by decide) (by unfold IsFinite; decide) (by decide)).1
example : int64 (fun _ => (F64.nan, 3)) .string (txt "\"nan\"") = none := (C94_nan _ F64.nan rfl (by decide) (by unfold IsFinite; decide)).1

end Tg
