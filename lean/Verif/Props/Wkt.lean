import Verif.Lemmas.WktNum
import Verif.Props.Text
/-!
Properties C14, C15, C52: the WKT parser.

`strtod` is a parameter. C15 holds for any; C14 and C52 assume `Strtod`.
-/
namespace Tg
open Spec Spec.Wkt Spec.Json

/-! ### C15: safety -/

/-- C15. On every byte string the WKT parser reads inside its slice, converts a number only where a `)` follows, never uses the negative result of `wkt_balance_coords`, and ends. -/
theorem C15_wkt_safe (sd : List Byte → F64) (data : List Byte) : Wp.tgParseWkt sd data ≠ .ub := Wp.tgParseWkt_safe data

/-- What it builds is at most 1024 collections deep, so that the recursive functions of the library use a bounded stack. -/
theorem C15_wkt_depth (sd : List Byte → F64) (data : List Byte) (g : Geom) (h : Wp.tgParseWkt sd data = .geom g) : nest g ≤ 1024 := by
  unfold Wp.tgParseWkt at h
  split at h
  · cases h
  · cases h
  · rename_i g' hg
    cases h
    have := Wp.parseWkt_nest _ _ _ _ hg
    unfold MAXDEPTH at this; omega

/-- The rounding of the examples. -/
def demoRnd (q : ℚ) : F64 := if q = 3 / 2 then 0x3FF8000000000000#64 else if q = -19 then 0xC033000000000000#64 else 0#64

/-- A `strtod` with the assumed property. -/
theorem demo_strtod : Strtod (Wp.readNum demoRnd) demoRnd := Wp.readNum_strtod demoRnd

/-- Truncated texts, unbalanced parentheses, a number at the end of the text. -/
example : (Wp.tgParseWkt (Wp.readNum demoRnd) (txt "POINT(1 2") matches .error _) = true ∧
    (Wp.tgParseWkt (Wp.readNum demoRnd) (txt "GEOMETRYCOLLECTION(POINT(1 2)),") matches .error _) = true ∧
    (Wp.tgParseWkt (Wp.readNum demoRnd) (txt "POLYGON((1 2,") matches .error _) = true ∧
    (Wp.tgParseWkt (Wp.readNum demoRnd) (txt "POINT(1 2)") matches .geom _) = true := by decide +kernel

/-! ### C52: the parser accepts Well-Known Text -/

/-- C52. Every text of a geometry, whatever the case of its letters and the white space in it, with at most 1024 opening parentheses, is parsed, and the result shows this geometry.
What is empty loses its Z and M. -/
theorem C52_wkt_accepted (sd : List Byte → F64) (rnd : ℚ → F64) (hs : Strtod sd rnd) (v : GV) (hv : Wf v) (d : List Byte) (hd : IsText (NumOf rnd) v d)
    (hc : d.count 0x28#8 ≤ 1024) : ∃ g, Wp.tgParseWkt sd d = .geom g ∧ view g = some (bare v) := by
  obtain ⟨w, t, w', hw, ht, hw', rfl⟩ := hd
  have ht' := Wp.IsWkt.mono (fun t x hx => Wp.numOf_num hs hx) v t ht
  have ho : Wp.opens t ≤ 1024 := by
    have : Wp.opens (w ++ (t ++ w')) ≤ 1024 := hc
    simp only [Wp.opens_append] at this; omega
  obtain ⟨g, h1, h2⟩ := Wp.read_wkt v t ht' hv 1024 ho ho w w' [] hw hw'
  refine ⟨g, ?_, h2⟩
  unfold Wp.tgParseWkt
  rw [show MAXDEPTH + 1 = 1024 + 1 from rfl, h1]

/-- Every text of a geometry with more than 1024 opening parentheses is rejected, even when it is not nested. -/
theorem C52_many_groups_rejected (sd : List Byte → F64) (rnd : ℚ → F64) (hs : Strtod sd rnd) (v : GV) (d : List Byte) (hd : IsText (NumOf rnd) v d)
    (hc : 1024 < d.count 0x28#8) : Wp.tgParseWkt sd d = .error "ParseError: invalid text" := by
  obtain ⟨w, t, w', hw, ht, hw', rfl⟩ := hd
  have ht' := Wp.IsWkt.mono (fun t x hx => Wp.numOf_num hs hx) v t ht
  have ho : 1024 < Wp.opens t := by
    have : 1024 < Wp.opens (w ++ (t ++ w')) := hc
    simp only [Wp.opens_append, Wp.ws_opens hw, Wp.ws_opens hw'] at this; omega
  unfold Wp.tgParseWkt
  rw [show MAXDEPTH + 1 = 1024 + 1 from rfl, Wp.limit_wkt v t ht' ho 1024 w w' [] hw]
  rfl

theorem num_one_half : NumOf demoRnd (txt "1.5") 0x3FF8000000000000#64 := by
  have hd : ∀ l : List Byte, (∀ b ∈ l, 0x30 ≤ b.toNat ∧ b.toNat ≤ 0x39) → ∀ b ∈ l, Digit b := fun l h => h
  refine ⟨3 / 2, ⟨false, [0x31#8], [0x35#8], [], 0, by decide, .inr ⟨_, [], rfl, hd [0x31#8] (by decide) _ (by simp), by decide, by simp⟩, hd _ (by decide), .inl ⟨rfl, rfl⟩, ?_⟩, ?_⟩
  · norm_num [digitsVal]
  · rw [double, if_neg (by norm_num)]; simp [demoRnd]

theorem num_zero : NumOf demoRnd (txt "0") 0#64 := by
  refine ⟨0, ⟨false, [0x30#8], [], [], 0, by decide, .inl rfl, by simp, .inl ⟨rfl, rfl⟩, ?_⟩, ?_⟩
  · norm_num [digitsVal]
  · rw [double, if_neg (by simp [txt])]; norm_num [demoRnd]

/-- A text with white space, small letters and parentheses around the points. -/
theorem demo_isText : IsText (NumOf demoRnd) (.mpoint true false [[0x3FF8000000000000#64, 0#64, 0#64], [0#64, 0#64, 0x3FF8000000000000#64]])
    (txt " MultiPoint z ((1.5 0 0) ,( 0 0\t1.5))") := by
  have ws1 : Ws [0x20#8] := by intro b hb; rw [List.mem_singleton] at hb; exact .inl hb
  have ws2 : Ws [0x09#8] := by intro b hb; rw [List.mem_singleton] at hb; exact .inr (.inl hb)
  have ws0 : Ws [] := by simp [Ws]
  refine ⟨[0x20#8], txt "MultiPoint z ((1.5 0 0) ,( 0 0\t1.5))", [], ws1, ?_, ws0, rfl⟩
  rw [IsWkt, if_neg (by simp)]
  refine ⟨txt "MultiPoint z", [0x20#8], txt "(1.5 0 0) ,( 0 0\t1.5)", .inr ⟨rfl, txt "MultiPoint", [0x20#8], txt "z", by unfold Kw; decide, ws1, by unfold Kw; decide, rfl⟩, ws1, .inr ?_, rfl⟩
  refine .cons [] (txt "(1.5 0 0)") [0x20#8] _ (txt "( 0 0\t1.5)") _ ws0 ⟨txt "1.5 0 0", ?_, rfl⟩ ws1 (.one [] (txt "( 0 0\t1.5)") [] _ ws0 ⟨txt " 0 0\t1.5", ?_, rfl⟩ ws0)
  · exact .one [] (txt "1.5 0 0") [] _ ws0 (.cons (txt "1.5") _ [0x20#8] (txt "0 0") _ num_one_half ws1 (by simp) (.cons (txt "0") _ [0x20#8] (txt "0") _ num_zero ws1 (by simp) (.one _ _ num_zero))) ws0
  · exact .one [0x20#8] (txt "0 0\t1.5") [] _ ws1 (.cons (txt "0") _ [0x20#8] (txt "0\t1.5") _ num_zero ws1 (by simp) (.cons (txt "0") _ [0x09#8] (txt "1.5") _ num_zero ws2 (by simp) (.one _ _ num_one_half))) ws0

/-- It is parsed. -/
example : ∃ g, Wp.tgParseWkt (Wp.readNum demoRnd) (txt " MultiPoint z ((1.5 0 0) ,( 0 0\t1.5))") = .geom g ∧
    view g = some (.mpoint true false [[0x3FF8000000000000#64, 0#64, 0#64], [0#64, 0#64, 0x3FF8000000000000#64]]) :=
  C52_wkt_accepted _ _ demo_strtod _ (by simp [Wf, posOk, dims]) _ demo_isText (by decide +kernel)

/-! ### C14: round trip -/

/-- The number of a coordinate can be read back: Ryu's digits round to it, or it is `+0`. -/
def Readable (d2s : F64 → List Byte) (rnd : ℚ → F64) (x : F64) : Prop := (x.isNormal = true ∧ ∀ q, IsDecimal (d2s x) q → rnd q = x) ∨ x = 0#64

theorem readable_num {nf : NumFmt} {rnd : ℚ → F64} (h0 : rnd 0 = 0#64) {num : F64 → List Byte}
    (h1 : ∀ x, x.isNormal = true → ∃ q, IsDecimal (nf.d2s x) q ∧ IsDecimal (num x) q) (h2 : ∀ x, x.isNormal = false → num x = txt "0") (x : F64)
    (hx : Readable nf.d2s rnd x) : NumOf rnd (num x) x := by
  rcases hx with ⟨hx, hq⟩ | rfl
  · obtain ⟨q, e1, e2⟩ := h1 x hx
    have e3 := hq q e1
    refine ⟨q, e2, ?_⟩
    rw [double, if_neg, e3]
    rintro ⟨rfl, -⟩
    rw [h0] at e3
    rw [← e3] at hx
    exact absurd hx (by decide)
  · rw [h2 0#64 (by decide)]
    refine ⟨0, ⟨false, [0x30#8], [], [], 0, by decide, .inl rfl, by simp, .inl ⟨rfl, rfl⟩, by norm_num [digitsVal]⟩, ?_⟩
    rw [double, if_neg (by simp [txt]), h0]

theorem written_text {dst : List Byte} {n : Nat} {t : List Byte} {w : Wr} (h : Written dst n t w) (hn : w.count < n) : w.dst.take w.count = t := by
  obtain ⟨-, h1, -, h2, -⟩ := h
  have h3 := h2 (by omega)
  rw [Nat.min_eq_left (by omega), List.take_of_length_le (l := t) (by omega)] at h3
  have h4 := congrArg (List.take t.length) h3
  rw [List.take_take, Nat.min_eq_left (by omega)] at h4
  rw [h1, h4]; simp

/-- C14, for at most 1024 lists in parentheses: the text that `tg_geom_wkt` leaves in a buffer that is large enough is parsed to a geometry of the same type, dimensions and
coordinates. What is missing for the full statement is wrong: more lists are rejected (`C14_many_groups_lost`), and doubles that are neither normal nor `+0` are written as `0`
(`C50_subnormal_zero`). -/
theorem C14_wkt_round_trip_partial (nf : NumFmt) (hnf : ∀ x, x.isNormal = true → IsSci (nf.d2s x)) (rnd : ℚ → F64) (h0 : rnd 0 = 0#64) (sd : List Byte → F64) (hs : Strtod sd rnd)
    (g : Geom) (v : GV) (hg : NoNull g) (hf : Filled g) (hv : view g = some v) (hw : Wf v) (hc : AllCoords (Readable nf.d2s rnd) v) (hn : groups v ≤ 1024)
    (dst : List Byte) (n : Nat) (hd : n ≤ dst.length) (hfit : (tgGeomWkt nf g dst n).count < n) :
    ∃ g', Wp.tgParseWkt sd ((tgGeomWkt nf g dst n).dst.take (tgGeomWkt nf g dst n).count) = .geom g' ∧ view g' = some (bare v) := by
  obtain ⟨num, n1, n2, n3⟩ := C12_wkt_text nf hnf
  have hc' : AllCoords (fun x => NumOf rnd (num x) x) v := Wp.AllCoords.mono (readable_num h0 n1 n2) v hc
  rw [written_text (n3 g v hg hf hv dst n hd) hfit]
  refine C52_wkt_accepted sd rnd hs v hw _ ⟨[], _, [], by simp [Ws], Wp.text_wkt v hw hc', by simp [Ws], by simp⟩ ?_
  have := Wp.text_opens (num := num) v (Wp.AllCoords.mono (fun x hx => by obtain ⟨q, hq, -⟩ := hx; exact decimal_number hq) v hc')
  show Wp.opens _ ≤ 1024
  omega

/-- With more lists than that, the text that was written is always rejected. -/
theorem C14_many_groups_lost (nf : NumFmt) (hnf : ∀ x, x.isNormal = true → IsSci (nf.d2s x)) (rnd : ℚ → F64) (h0 : rnd 0 = 0#64) (sd : List Byte → F64) (hs : Strtod sd rnd)
    (g : Geom) (v : GV) (hg : NoNull g) (hf : Filled g) (hv : view g = some v) (hw : Wf v) (hc : AllCoords (Readable nf.d2s rnd) v) (hn : 1024 < groups v)
    (dst : List Byte) (n : Nat) (hd : n ≤ dst.length) (hfit : (tgGeomWkt nf g dst n).count < n) :
    Wp.tgParseWkt sd ((tgGeomWkt nf g dst n).dst.take (tgGeomWkt nf g dst n).count) = .error "ParseError: invalid text" := by
  obtain ⟨num, n1, n2, n3⟩ := C12_wkt_text nf hnf
  have hc' : AllCoords (fun x => NumOf rnd (num x) x) v := Wp.AllCoords.mono (readable_num h0 n1 n2) v hc
  rw [written_text (n3 g v hg hf hv dst n hd) hfit]
  refine C52_many_groups_rejected sd rnd hs v _ ⟨[], _, [], by simp [Ws], Wp.text_wkt v hw hc', by simp [Ws], by simp⟩ ?_
  have := Wp.text_opens (num := num) v (Wp.AllCoords.mono (fun x hx => by obtain ⟨q, hq, -⟩ := hx; exact decimal_number hq) v hc')
  show 1024 < Wp.opens _
  omega

/-- The coordinates of the examples can be read back. -/
theorem demo_readable : Readable (demoFmt false).d2s demoRnd 0x3FF8000000000000#64 ∧ Readable (demoFmt false).d2s demoRnd 0xC033000000000000#64 ∧
    Readable (demoFmt false).d2s demoRnd 0#64 := by
  have hd : ∀ l : List Byte, (∀ b ∈ l, 0x30 ≤ b.toNat ∧ b.toNat ≤ 0x39) → ∀ b ∈ l, Digit b := fun l h => h
  refine ⟨.inl ⟨by decide, fun q hq => ?_⟩, .inl ⟨by decide, fun q hq => ?_⟩, .inr rfl⟩
  · have h1 : IsDecimal ((demoFmt false).d2s 0x3FF8000000000000#64) (3 / 2) :=
      ⟨false, [0x31#8], [0x35#8], [0x45#8, 0x30#8], 0, by decide, .inr ⟨_, [], rfl, hd [0x31#8] (by decide) _ (by simp), by decide, by simp⟩, hd _ (by decide),
        .inr ⟨0x45#8, [], [0x30#8], rfl, .inr rfl, by simp, hd _ (by decide), .inl ⟨.inl rfl, by decide⟩⟩, by norm_num [digitsVal]⟩
    rw [← Wp.decVal_of hq, Wp.decVal_of h1]; simp [demoRnd]
  · have h1 : IsDecimal ((demoFmt false).d2s 0xC033000000000000#64) (-19) :=
      ⟨true, [0x31#8], [0x39#8], [0x45#8, 0x31#8], 1, by decide, .inr ⟨_, [], rfl, hd [0x31#8] (by decide) _ (by simp), by decide, by simp⟩, hd _ (by decide),
        .inr ⟨0x45#8, [], [0x31#8], rfl, .inr rfl, by simp, hd _ (by decide), .inl ⟨.inl rfl, by decide⟩⟩, by norm_num [digitsVal]⟩
    rw [← Wp.decVal_of hq, Wp.decVal_of h1]; norm_num [demoRnd]

/-- A collection with an empty polygon and a line with M. -/
def roundGeom : Geom := .coll {} true
  [.gpoly { isEmpty := true } none [] none,
   .gline { hasM := true } (some [⟨0x3FF8000000000000#64, 0xC033000000000000#64⟩, ⟨0#64, 0#64⟩]) [0x3FF8000000000000#64, 0xC033000000000000#64] none] [] none

/-- What it shows. -/
def roundView : GV := .coll [.poly false false [], .line false true [[0x3FF8000000000000#64, 0xC033000000000000#64, 0x3FF8000000000000#64], [0#64, 0#64, 0xC033000000000000#64]]]

/-- The collection meets the conditions of C14. -/
theorem round_meets : NoNull roundGeom ∧ Filled roundGeom ∧ view roundGeom = some roundView ∧ Wf roundView ∧ AllCoords (Readable (demoFmt false).d2s demoRnd) roundView ∧
    groups roundView ≤ 1024 ∧ demoRnd 0 = 0#64 := by
  obtain ⟨h1, h2, h3⟩ := demo_readable
  refine ⟨by simp [roundGeom, NoNull, NoNulls], by simp [roundGeom, Filled, Filleds], rfl, ?_, ?_, by decide, by norm_num [demoRnd]⟩
  · simp [roundView, Wf, Wfs, LineWf, posOk, dims]
  · simp [roundView, AllCoords, AllCoordss, h1, h2, h3]

/-- So it survives the round trip through a buffer of 100 bytes. -/
example : ∃ g', Wp.tgParseWkt (Wp.readNum demoRnd) ((tgGeomWkt (demoFmt false) roundGeom (List.replicate 100 0#8) 100).dst.take
    (tgGeomWkt (demoFmt false) roundGeom (List.replicate 100 0#8) 100).count) = .geom g' ∧ view g' = some roundView := by
  obtain ⟨h1, h2, h3, h4, h5, h6, h7⟩ := round_meets
  obtain ⟨g', e1, e2⟩ := C14_wkt_round_trip_partial (demoFmt false) (demo_sci false) demoRnd h7 _ demo_strtod roundGeom roundView h1 h2 h3 h4 h5 h6 (List.replicate 100 0#8) 100 (by simp)
    (by decide +kernel)
  exact ⟨g', e1, by rw [e2]; simp [roundView, bare, bares]⟩

/-- A MultiLineString of 1024 lines: valid, not nested, and lost. -/
theorem C14_flat_lost_case : Wf (.mline false false (List.replicate 1024 [[0#64, 0#64], [0#64, 0#64]])) ∧ 1024 < groups (.mline false false (List.replicate 1024 [[0#64, 0#64], [0#64, 0#64]])) := by
  constructor
  · intro l hl
    rw [List.eq_of_mem_replicate hl]
    exact ⟨by simp, by simp [posOk, dims]⟩
  · rw [groups, if_neg (by simp), List.length_replicate]; omega

/-! ### Texts that are not Well-Known Text and are accepted, or the other way round -/

/-- An empty MultiPoint gets Z and M when it is written with an empty list. -/
theorem C52_empty_list_gets_zm : (Wp.tgParseWkt (Wp.readNum demoRnd) (txt "MULTIPOINT()") matches .geom (.mpoint ⟨true, true, _, _, _, _, _⟩ _ _ _)) = true := by
  decide +kernel

/-- After `EMPTY` anything that starts with a parenthesis is accepted. -/
theorem C52_after_empty_ignored : (Wp.tgParseWkt (Wp.readNum demoRnd) (txt "POINT EMPTY(what)ever") matches .geom (.gpoint ..)) = true := by decide +kernel

/-- A number that starts with a point is accepted in a Point and rejected in a LineString. -/
theorem C52_leading_point : (Wp.tgParseWkt (Wp.readNum demoRnd) (txt "POINT(.5 1)") matches .geom (.point ..)) = true ∧
    (Wp.tgParseWkt (Wp.readNum demoRnd) (txt "LINESTRING(.5 1,2 3)") matches .error _) = true := by decide +kernel

/-- What follows a null byte in the name is ignored. -/
theorem C52_nul_in_name : (Wp.tgParseWkt (Wp.readNum demoRnd) (txt "POINT" ++ [0#8] ++ txt "X(1 2)") matches .geom (.point ..)) = true := by decide +kernel

end Tg
