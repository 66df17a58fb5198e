import Verif.Lemmas.RyuWhole
import Verif.Lemmas.WktNum
import Verif.Props.GeojsonRound
/-!
Property C65: the text that `d2s_buffered` (Ryu) prints for a double, and with it the round trips through WKT and GeoJSON.
-/
namespace Tg
open Spec Spec.Json Spec.Double

theorem mag_of_units {x : F64} (h : units x ≠ 0) : 1 ≤ Double.mag x := by
  rcases Nat.eq_zero_or_pos (Double.mag x) with h0 | h0
  · rw [Double.units_mag, h0, Double.U_zero] at h; exact absurd rfl h
  · exact h0

/-- A number that is neither infinite, NaN nor zero. -/
theorem ryu_spec {x : F64} (hx : IsFinite x) (h0 : units x ≠ 0) (junk : List Byte) (hj : 25 ≤ junk.length) : ∃ m n e, Ryu.Shown x (Ryu.d2s junk x) m n e := by
  obtain ⟨t, m, n, e, h1, h2⟩ := Ryu.d2s_spec x hx (mag_of_units h0)
  obtain ⟨b, e1, -, e2, -⟩ := h2 junk hj
  refine ⟨m, n, e, ?_⟩
  rw [Ryu.d2s, e1, Option.getD_some, e2]; exact h1

/-- C65. `d2s_buffered` never fails, for any double: no assertion is violated, no index is out of the bounds of its tables and of its buffer of 25 bytes, no loop runs forever.
The text is terminated in the buffer, and does not depend on what was in the buffer before. -/
theorem C65_safe (x : F64) : ∃ t : List Byte, t.length < 25 ∧ ∀ buf : List Byte, 25 ≤ buf.length → ∃ r, Ryu.d2sBuffered x buf = some (t ++ 0#8 :: r) ∧ t.length + 1 + r.length = buf.length ∧
    Ryu.d2s buf x = t := by
  have fin : ∀ (t b buf : List Byte), Ryu.d2sBuffered x buf = some b → b.length = buf.length → b.takeWhile (· != 0#8) = t → t.length < 25 → 25 ≤ buf.length →
      ∃ r, Ryu.d2sBuffered x buf = some (t ++ 0#8 :: r) ∧ t.length + 1 + r.length = buf.length ∧ Ryu.d2s buf x = t := by
    intro t b buf e1 e2 e3 e4 e5
    have hsplit := List.takeWhile_append_dropWhile (p := (· != 0#8)) (l := b)
    rw [e3] at hsplit
    cases hd : b.dropWhile (· != 0#8) with
    | nil =>
      rw [hd, List.append_nil] at hsplit
      rw [← hsplit] at e2; omega
    | cons c r =>
      have hc : c = 0#8 := by
        have := List.head_dropWhile_not (· != 0#8) (l := b) (by rw [hd]; simp)
        simp only [hd, List.head_cons] at this
        simpa using this
      rw [hd, hc] at hsplit
      refine ⟨r, by rw [e1, hsplit], ?_, by rw [Ryu.d2s, e1, Option.getD_some, e3]⟩
      rw [← hsplit, List.length_append, List.length_cons] at e2
      omega
  by_cases hx : expo x = 2047 ∨ Double.mag x = 0
  · have hall : ∀ a b c, (Ryu.specialText a b c).length < 25 := by decide
    refine ⟨_, hall (neg x) (expo x != 0) (frac x != 0), fun buf hb => ?_⟩
    obtain ⟨b, e1, e2, e3⟩ := Ryu.d2s_special x hx buf hb
    exact fin _ b buf e1 e2 e3 (hall _ _ _) hb
  · have hl : expo x < 2 ^ 11 := Nat.mod_lt _ (by norm_num)
    obtain ⟨t, m, n, e, h1, h2⟩ := Ryu.d2s_spec x (by unfold IsFinite; omega) (by omega)
    obtain ⟨b, -, -, -, ht⟩ := h2 (List.replicate 25 0#8) (by simp)
    refine ⟨t, ht, fun buf hb => ?_⟩
    obtain ⟨b, e1, e2, e3, -⟩ := h2 buf hb
    exact fin t b buf e1 e2 e3 ht hb

/-- C65. The text of NaN, of the infinities and of zero. -/
theorem C65_special (x : F64) (buf : List Byte) (hb : 25 ≤ buf.length) :
    (expo x = 2047 → frac x ≠ 0 → Ryu.d2s buf x = txt "NaN") ∧
    (expo x = 2047 → frac x = 0 → Ryu.d2s buf x = txt (if neg x then "-Infinity" else "Infinity")) ∧
    (IsFinite x → units x = 0 → Ryu.d2s buf x = txt (if neg x then "-0E0" else "0E0")) := by
  have key : expo x = 2047 ∨ Double.mag x = 0 → Ryu.d2s buf x = Ryu.specialText (neg x) (expo x != 0) (frac x != 0) := by
    intro h
    obtain ⟨b, e1, -, e3⟩ := Ryu.d2s_special x h buf hb
    rw [Ryu.d2s, e1, Option.getD_some, e3]
  refine ⟨fun h1 h2 => ?_, fun h1 h2 => ?_, fun h1 h2 => ?_⟩
  · rw [key (.inl h1), bne_iff_ne.2 h2, Ryu.specialText, if_pos rfl]
  · rw [key (.inl h1), h1, h2]
    cases neg x <;> decide
  · have h0 : Double.mag x = 0 := by
      rw [Double.units_mag, ← Double.U_zero] at h2
      exact Double.U_mono.injective h2
    have := Ryu.mag_fields x
    rw [key (.inr h0), show expo x = 0 by omega, show frac x = 0 by omega]
    cases neg x <;> decide

/-- C65. The decimal that is printed for any other number has at most 17 digits and an exponent from -324 to 324; it is rounded to the double it was printed for, and to no other. -/
theorem C65_reads_back (x : F64) (hx : IsFinite x) (h0 : units x ≠ 0) (buf : List Byte) (hb : 25 ≤ buf.length) :
    SciShort (Ryu.d2s buf x) ∧ ∀ q, IsDecimal (Ryu.d2s buf x) q → Rounds q x ∧ ∀ y, Rounds q y → y = x := by
  obtain ⟨m, n, e, h⟩ := ryu_spec hx h0 buf hb
  rw [h.text]
  refine ⟨Ryu.sciText_short h.n1 h.lo h.hi h.n17 h.exp, fun q hq => ?_⟩
  have e1 : q = Double.sg (neg x) * (m * 10 ^ e) := by
    rw [← Wp.decVal_of hq, Wp.decVal_of (Ryu.sciText_decimal (neg := neg x) h.n1 h.lo h.hi h.exp), mul_assoc]; rfl
  rw [e1]
  exact ⟨Double.near_rounds h.near (mag_of_units h0) hx, fun y hy => Double.near_only h.near (mag_of_units h0) hx hy⟩

/-- C65. It is the shortest: a decimal with fewer digits, whatever its exponent, is not rounded to the double. And of the decimals with the same last place it is the closest. -/
theorem C65_shortest (x : F64) (hx : IsFinite x) (h0 : units x ≠ 0) (buf : List Byte) (hb : 25 ≤ buf.length) :
    ∃ (n n' : Bool) (d : Byte) (ds xs : List Byte) (k : ℤ),
      Ryu.d2s buf x = (if n then [0x2D#8] else []) ++ (d :: (if ds = [] then [] else 0x2E#8 :: ds) ++ 0x45#8 :: ((if n' then [0x2D#8] else []) ++ xs)) ∧
      (∀ b ∈ d :: ds ++ xs, Digit b) ∧ d ≠ 0x30#8 ∧ k = (if n' then -1 else 1) * (digitsVal xs : ℤ) - ds.length ∧
      IsDecimal (Ryu.d2s buf x) ((if n then -1 else 1) * (digitsVal (d :: ds) : ℚ) * 10 ^ k) ∧
      (∀ (s : Bool) (c : ℕ) (j : ℤ), Rounds ((if s then -1 else 1) * (c : ℚ) * 10 ^ j) x → 10 ^ ds.length ≤ c) ∧
      ∀ c : ℕ, Rounds ((if n then -1 else 1) * (c : ℚ) * 10 ^ k) x →
        |(if n then -1 else 1) * (digitsVal (d :: ds) : ℚ) * 10 ^ k - val x| ≤ |(if n then -1 else 1) * (c : ℚ) * 10 ^ k - val x| := by
  obtain ⟨m, n, e, h⟩ := ryu_spec hx h0 buf hb
  have hm := mag_of_units h0
  have hl := Ryu.lead_lt h.n1 h.lo h.hi
  have hexp := h.exp
  have hn1 := h.n1
  have key : ∀ (s : Bool) (c : ℕ) (j : ℤ), Rounds ((if s then -1 else 1) * (c : ℚ) * 10 ^ j) x → Double.Near (Double.mag x) (c * 10 ^ j) := by
    intro s c j hr
    rw [mul_assoc] at hr
    obtain ⟨d, d1, d2, d3⟩ := Double.rounds_near hm hr
    have h1 : (0 : ℚ) ≤ c * 10 ^ j := mul_nonneg (Nat.cast_nonneg _) (zpow_pos (by norm_num) _).le
    have h2 := congrArg abs d1
    rw [Double.sg_abs, show (if s then -1 else 1 : ℚ) = Double.sg s from rfl, Double.sg_abs, abs_of_nonneg h1, abs_of_pos d2] at h2
    rw [h2]; exact d3
  have hk : e = (if decide (e + n - 1 < 0) then -1 else 1) * (digitsVal (Ryu.decs (Ryu.expLen (e + n - 1).natAbs) (e + n - 1).natAbs) : ℤ) - (Ryu.decs (n - 1) m).length := by
    rw [Ryu.decs_val, Ryu.expLen_val (by omega), Ryu.decs_length]
    by_cases hc : e + n - 1 < 0
    · rw [decide_eq_true hc, if_pos rfl]; omega
    · rw [decide_eq_false hc, if_neg (by decide)]; omega
  refine ⟨neg x, _, _, Ryu.decs (n - 1) m, _, e, h.text.trans (Ryu.sciText_eq h.n1 h.lo h.hi), ?_, Ryu.digit_ne hl (Ryu.lead_pos h.n1 h.lo h.hi), hk, ?_, ?_, ?_⟩
  · intro b hb
    rw [List.cons_append, List.mem_cons, List.mem_append] at hb
    rcases hb with rfl | hb | hb
    · exact Ryu.digit_Digit hl
    · exact Ryu.decs_Digit _ _ b hb
    · exact Ryu.decs_Digit _ _ b hb
  · rw [h.text, Ryu.sci_digits h.n1 h.lo h.hi]
    exact Ryu.sciText_decimal h.n1 h.lo h.hi h.exp
  · intro s c j hr
    rw [Ryu.decs_length]
    exact h.digits hm (key s c j hr)
  · intro c hr
    rw [Ryu.sci_digits h.n1 h.lo h.hi, mul_assoc, mul_assoc, Double.val_mag, show (if neg x then -1 else 1 : ℚ) = Double.sg (neg x) from rfl, Double.dist_same, Double.dist_same]
    exact h.closest c (key _ c e hr)

/-! ### What follows for the writers -/

theorem and_field (n : ℕ) : n &&& 0x7ff0000000000000 = n / 2 ^ 52 % 2 ^ 11 * 2 ^ 52 := by
  rw [show 0x7ff0000000000000 = (2 ^ 11 - 1) <<< 52 from rfl, ← Nat.shiftRight_eq_div_pow, ← Nat.and_two_pow_sub_one_eq_mod, ← Nat.shiftLeft_eq]
  apply Nat.eq_of_testBit_eq
  intro i
  simp only [Nat.testBit_and, Nat.testBit_shiftLeft, Nat.testBit_shiftRight]
  by_cases h : 52 ≤ i
  · simp [h, Nat.add_sub_cancel' h]
  · simp [h]

/-- `isnormal` of `math.h`. -/
theorem normal_iff (x : F64) : x.isNormal = true ↔ expo x ≠ 0 ∧ expo x ≠ 2047 := by
  have hl : expo x < 2 ^ 11 := Nat.mod_lt _ (by norm_num)
  have e : (x &&& 0x7ff0000000000000#64).toNat = expo x * 2 ^ 52 := by
    rw [BitVec.toNat_and]; exact and_field _
  unfold F64.isNormal
  rw [Bool.and_eq_true, bne_iff_ne, bne_iff_ne, ne_eq, ne_eq, ← BitVec.toNat_inj, ← BitVec.toNat_inj, e, show (0#64).toNat = 0 from rfl,
    show (0x7ff0000000000000#64).toNat = 2047 * 2 ^ 52 from rfl]
  omega

theorem normal_finite {x : F64} (hx : x.isNormal = true) : IsFinite x ∧ units x ≠ 0 := by
  obtain ⟨h1, h2⟩ := (normal_iff x).1 hx
  have hl : expo x < 2 ^ 11 := Nat.mod_lt _ (by norm_num)
  refine ⟨by unfold IsFinite; omega, ?_⟩
  rw [units, sig, if_neg h1]
  exact Nat.mul_ne_zero (by omega) (Nat.two_pow_pos _).ne'

/-- The number format of `write_string_double`: `buf` is what is in the buffer of `fp_utoa` before. -/
def ryuFmt (fixed : Bool) (buf : List Byte) : NumFmt := ⟨fixed, Ryu.d2s buf⟩

/-- C65. What the writers assume of the number format (C12, C13, C18, C50, C51, C56, C59, C60) is true of Ryu. -/
theorem C65_shape (fixed : Bool) (buf : List Byte) (hb : 25 ≤ buf.length) : ∀ x, x.isNormal = true → SciShort ((ryuFmt fixed buf).d2s x) := fun x hx =>
  (C65_reads_back x (normal_finite hx).1 (normal_finite hx).2 buf hb).1

/-- C65. If `strtod` rounds to the nearest double, then every coordinate that is normal or `+0` can be read back. -/
theorem C65_readable (buf : List Byte) (hb : 25 ≤ buf.length) (rnd : ℚ → F64) (hr : Rounding rnd) (x : F64) (hx : x.isNormal = true ∨ x = 0#64) : Readable (Ryu.d2s buf) rnd x := by
  rcases hx with hx | hx
  · refine .inl ⟨hx, fun q hq => ?_⟩
    obtain ⟨h1, h2⟩ := (C65_reads_back x (normal_finite hx).1 (normal_finite hx).2 buf hb).2 q hq
    exact h2 _ (hr q h1.1)
  · exact .inr hx

/-- C65, with C14: the round trip through WKT, for the numbers that Ryu prints. -/
theorem C65_wkt_round_trip (fixed : Bool) (buf : List Byte) (hb : 25 ≤ buf.length) (rnd : ℚ → F64) (hr : Rounding rnd) (h0 : rnd 0 = 0#64) (sd : List Byte → F64) (hs : Wkt.Strtod sd rnd)
    (g : Geom) (v : GV) (hg : NoNull g) (hf : Filled g) (hv : view g = some v) (hw : Wkt.Wf v) (hc : Wkt.AllCoords (fun x => x.isNormal = true ∨ x = 0#64) v) (hn : Wkt.groups v ≤ 1024)
    (dst : List Byte) (n : Nat) (hd : n ≤ dst.length) (hfit : (tgGeomWkt (ryuFmt fixed buf) g dst n).count < n) :
    ∃ g', Wp.tgParseWkt sd ((tgGeomWkt (ryuFmt fixed buf) g dst n).dst.take (tgGeomWkt (ryuFmt fixed buf) g dst n).count) = .geom g' ∧ view g' = some (Wkt.bare v) :=
  C14_wkt_round_trip_partial (ryuFmt fixed buf) (fun x hx => sciShort_sci (C65_shape fixed buf hb x hx)) rnd h0 sd hs g v hg hf hv hw
    (Wp.AllCoords.mono (fun x hx => C65_readable buf hb rnd hr x hx) v hc) hn dst n hd hfit

/-- C65, with C56: the round trip through GeoJSON. -/
theorem C65_geojson_round_trip (fixed : Bool) (buf : List Byte) (hb : 25 ≤ buf.length) (rnd : ℚ → F64) (hr : Rounding rnd) (h0 : rnd 0 = 0#64) (sd : List Byte → F64 × Nat)
    (hs : StrtodAll sd rnd) (g : Geom) (v : GV) (hg : NoNull g) (hbare : Bare g) (hv : view g = some v) (hw : Wkt.Wf v) (hc : Wkt.AllCoords (fun x => x.isNormal = true ∨ x = 0#64) v)
    (hn : Geojson.levels v ≤ 1024) (dst : List Byte) (n : Nat) (hd : n ≤ dst.length) (hfit : (tgGeomGeojson (ryuFmt fixed buf) g dst n).count < n) :
    ∃ g', Gp.tgParseGeojson sd ((tgGeomGeojson (ryuFmt fixed buf) g dst n).dst.take (tgGeomGeojson (ryuFmt fixed buf) g dst n).count) = .geom g' ∧
      view g' = some (Geojson.reread (Geojson.zForM v)) :=
  C56_geojson_round_trip (ryuFmt fixed buf) (C65_shape fixed buf hb) rnd h0 sd hs g v hg hbare hv hw (Wp.AllCoords.mono (fun x hx => C65_readable buf hb rnd hr x hx) v hc) hn dst n hd hfit

/-! ### Examples -/

/-- There is a rounding. -/
example : ∃ rnd, Rounding rnd ∧ rnd 0 = 0#64 := Double.exists_rounding

/-- A tenth, a third, the least and the greatest double, two powers of two with different gaps, an integer. -/
example : IsFinite 0x3FB999999999999A#64 ∧ units 0x3FB999999999999A#64 ≠ 0 := by
  unfold IsFinite; decide +kernel
set_option maxRecDepth 100000 in
example : (let b := List.replicate 25 0xFF#8
    Ryu.d2s b 0x3FB999999999999A#64 = txt "1E-1" ∧ Ryu.d2s b 0x3FD5555555555555#64 = txt "3.333333333333333E-1" ∧ Ryu.d2s b 1#64 = txt "5E-324" ∧
    Ryu.d2s b 0xFFEFFFFFFFFFFFFF#64 = txt "-1.7976931348623157E308" ∧ Ryu.d2s b 0x4340000000000000#64 = txt "9.007199254740992E15" ∧ Ryu.d2s b 0x3CB0000000000000#64 = txt "2.220446049250313E-16" ∧
    Ryu.d2s b 0x40C3880000000000#64 = txt "1E4" ∧ Ryu.d2s b 0x8000000000000000#64 = txt "-0E0" ∧ Ryu.d2s b 0xFFF0000000000000#64 = txt "-Infinity") := by decide +kernel

/-- The collection of C14 meets the conditions of the round trips. -/
example : NoNull roundGeom ∧ Filled roundGeom ∧ Bare roundGeom ∧ view roundGeom = some roundView ∧ Wkt.Wf roundView ∧ Wkt.AllCoords (fun x => x.isNormal = true ∨ x = 0#64) roundView ∧
    Wkt.groups roundView ≤ 1024 ∧ Geojson.levels roundView ≤ 1024 := by
  obtain ⟨h1, h2, h3, h4, -, h6, -⟩ := round_meets
  refine ⟨h1, h2, by simp [roundGeom, Bare, Bares, BareFlags], h3, h4, ?_, h6, by decide +kernel⟩
  have n1 : F64.isNormal 0x3FF8000000000000#64 = true := by decide
  have n2 : F64.isNormal 0xC033000000000000#64 = true := by decide
  simp [roundView, Wkt.AllCoords, Wkt.AllCoordss, n1, n2]

end Tg
