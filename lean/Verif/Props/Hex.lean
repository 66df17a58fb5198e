import Verif.Lemmas.Hex
import Verif.Props.Geobin
/-!
Properties C06 and C07: hexadecimal text.
-/
namespace Tg
open Spec

/-! ### C06  Hex writer -/

/-- C06. `tg_geom_hex` returns the length of the hex text of the WKB encoding; for every buffer size `n > 0` the buffer holds as much of the text
as fits in `n - 1` characters, then a null byte, and the rest of it is unchanged; for `n = 0` it is unchanged.
Nothing outside the object is read or stored, although the conversion happens inside the buffer. -/
theorem C06_hex_writer (g : Geom) (v : GV) (hg : view g = some v) (hf : Fits v) (dst : List Byte) (n : Nat)
    (hn : n ≤ dst.length) :
    let t := hexText (encode v)
    (tgGeomHex g dst n).ub = false ∧ (tgGeomHex g dst n).count = 2 * (encode v).length ∧
    (tgGeomHex g dst n).dst =
      if n = 0 then dst else t.take (n - 1) ++ 0#8 :: dst.drop (min (n - 1) t.length + 1) :=
  tgGeomHex_eq hg hf dst n hn

set_option maxRecDepth 100000 in
/-- The hypotheses hold, with a buffer that is cut in the middle of a byte. -/
example : ∃ v, view wkbSample = some v ∧ Fits v ∧ 44 ≤ (List.replicate 50 (0xAA : Byte)).length ∧
    44 < 2 * (encode v).length := by
  refine ⟨_, rfl, ?_, by decide, by decide⟩
  simp [Fits, Fitss, posnss, posns, takePad, rings, dims]

/-! ### C07  Hex parser -/

/-- C07, first half. The hex text of a byte string, each digit in either case, parses to exactly what the binary parser gives on the
bytes: the GeoBIN parser if they start with 2, 3 or 4, the WKB parser otherwise. -/
theorem C07_hex_parser (s bs : List Byte) (h : HexOf s bs) :
    tgParseHex s = if bs.head? = some 2#8 ∨ bs.head? = some 3#8 ∨ bs.head? = some 4#8 then tgParseGeobin bs else tgParseWkb bs := by
  have hl := hexOf_length h
  unfold tgParseHex
  dsimp only
  cases hb : bs with
  | nil =>
    subst hb
    rw [if_pos (by simp at hl; simp [hl])]
    rfl
  | cons b t =>
    rw [if_neg (by rw [hb] at hl; simp at hl; omega)]
    rw [hexDecode_hexOf h _ [] (by simp; split <;> omega)]
    rw [List.nil_append, hb]
    dsimp only
    have : ∀ b : Byte, (2#8 ≤ b ∧ b ≤ 4#8) ↔ (b = 2#8 ∨ b = 3#8 ∨ b = 4#8) := by decide
    simp only [List.head?_cons, Option.some.injEq]
    by_cases hc : 2#8 ≤ b ∧ b ≤ 4#8
    · rw [if_pos hc, if_pos ((this b).1 hc)]; rfl
    · rw [if_neg hc, if_neg (fun h => hc ((this b).2 h))]; rfl

/-- C07, second half. Text of odd length, or with a character that is not a hex digit, is an error. -/
theorem C07_hex_invalid (s : List Byte) (h : s.length % 2 = 1 ∨ ∃ c ∈ s, ∀ v, ¬ IsHex c v) :
    ∃ e, tgParseHex s = .error e := by
  unfold tgParseHex
  dsimp only
  by_cases h0 : s.length = 0 ∨ s.length % 2 = 1
  · rw [if_pos h0]; exact ⟨_, rfl⟩
  · rw [if_neg h0]
    rcases hexDecode_cases (if s.length / 2 > 128 then s.length / 2 else 128) (s.length / 2) s [] (by omega)
      (by simp; split <;> omega) with ⟨bs, g1, -⟩ | ⟨-, g2⟩
    · exfalso
      rcases h with h | ⟨c, hc, hv⟩
      · omega
      · clear h0
        induction g1 with
        | nil => simp at hc
        | cons c' d u v s bs h1 h2 _ ih =>
          simp only [List.mem_cons] at hc
          rcases hc with rfl | rfl | hc
          · exact hv _ h1
          · exact hv _ h2
          · exact ih hc
    · rw [g2]; exact ⟨_, rfl⟩

/-- Text that is not covered by either half does not exist: it is the hex text of some bytes or it is invalid. -/
theorem C07_hex_complete (s : List Byte) : (s.length % 2 = 1 ∨ ∃ c ∈ s, ∀ v, ¬ IsHex c v) ∨ ∃ bs, HexOf s bs := by
  by_cases h : s.length % 2 = 1
  · exact .inl (.inl h)
  · rcases hexDecode_cases (s.length / 2) (s.length / 2) s [] (by omega) (by simp) with ⟨bs, g1, -⟩ | ⟨g, -⟩
    · exact .inr ⟨bs, g1⟩
    · exact .inl (.inr g)

/-- Writing as hex and parsing gives the geometry back. -/
theorem C07_hex_roundtrip (g : Geom) (v : GV) (hg : view g = some v) (hv : Valid v) (hh : height v ≤ 1024)
    (dst : List Byte) (n : Nat) (hn : n ≤ dst.length) (hbig : (tgGeomHex g dst n).count < n) :
    ∃ g', tgParseHex ((tgGeomHex g dst n).dst.take (tgGeomHex g dst n).count) = .geom g' ∧ view g' = some v := by
  obtain ⟨_, h2, h3⟩ := C06_hex_writer g v hg (valid_fits v hv) dst n hn
  rw [h2] at hbig
  have hl := hexText_length (encode v)
  rw [h2, h3, if_neg (by omega), List.take_of_length_le (i := n - 1) (by omega), List.take_left' hl,
    C07_hex_parser _ _ (hexOf_hexText _)]
  have he := tgParseWkb_enc (enc_encode v hv) hv hh []
  rw [List.append_nil] at he
  rw [if_neg, he]
  · exact ⟨_, rfl, view_build v hv⟩
  · have : (encode v).head? = some 1#8 := by unfold encode; split <;> simp [header]
    rw [this]; decide

/-- `HexOf` with mixed case: "0a0B" is the bytes 10, 11. -/
example : HexOf [0x30, 0x61, 0x30, 0x42] [10, 11] :=
  .cons _ _ 0 10 _ _ (by unfold IsHex; decide) (by unfold IsHex; decide)
    (.cons _ _ 0 11 _ _ (by unfold IsHex; decide) (by unfold IsHex; decide) .nil)

set_option maxRecDepth 100000 in
/-- The hypotheses of `C07_hex_roundtrip` hold of `wkbSample`. -/
example : ∃ v, view wkbSample = some v ∧ Valid v ∧ height v ≤ 1024 ∧
    (tgGeomHex wkbSample (List.replicate 900 0) 900).count < 900 := by
  refine ⟨_, rfl, ?_, ?_, by decide⟩
  · simp [posnss, posns, takePad, rings, Valid, Valids, polyOk, ringOk, posOk, dims, pointOk, lineOk, F64.isNaN, F64.feq]
  · simp [height, heights, posns]

end Tg
