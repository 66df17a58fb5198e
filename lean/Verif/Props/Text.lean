import Verif.Lemmas.TextWrite
import Verif.Lemmas.GeojsonText
import Verif.Lemmas.GeojsonValid
import Verif.Props.Json
/-!
Properties C12, C18, C50, C51: the WKT and GeoJSON writers.

Ryu's conversion of a double to scientific notation (`d2s`) is a parameter; what is assumed of it is the shape of its output (`IsSci`), which C65 proves.
-/
namespace Tg
open Spec Spec.Json

/-- The number format of the examples. -/
def demoFmt (fixed : Bool) : NumFmt :=
  ⟨fixed, fun x => if x = 0x3FF8000000000000#64 then txt "1.5E0" else if x = 0xC033000000000000#64 then txt "-1.9E1" else if x = 0x7E37E43C8800759C#64 then txt "1E300" else txt "2E-7"⟩

theorem demo_sci (fixed : Bool) : ∀ x : F64, x.isNormal = true → IsSci ((demoFmt fixed).d2s x) := by
  intro x _
  simp only [demoFmt]
  have hd : ∀ l : List Byte, (∀ b ∈ l, 0x30 ≤ b.toNat ∧ b.toNat ≤ 0x39) → ∀ b ∈ l, Digit b := fun l h => h
  split_ifs
  · exact ⟨false, false, 0x31#8, [0x35#8], [0x30#8], by decide, hd [0x31#8] (by decide) _ (by simp), by decide, hd _ (by decide), by decide, hd _ (by decide)⟩
  · exact ⟨true, false, 0x31#8, [0x39#8], [0x31#8], by decide, hd [0x31#8] (by decide) _ (by simp), by decide, hd _ (by decide), by decide, hd _ (by decide)⟩
  · exact ⟨false, false, 0x31#8, [], [0x33#8, 0x30#8, 0x30#8], by decide, hd [0x31#8] (by decide) _ (by simp), by decide, hd _ (by decide), by decide, hd _ (by decide)⟩
  · exact ⟨false, true, 0x32#8, [], [0x37#8], by decide, hd [0x32#8] (by decide) _ (by simp), by decide, hd _ (by decide), by decide, hd _ (by decide)⟩

theorem holds_start (dst : List Byte) (n : Nat) (hn : n ≤ dst.length) : Holds dst n [] ⟨dst, n, 0, false⟩ :=
  ⟨rfl, rfl, rfl, rfl, by simp, by simp⟩

/-! ### C50: numbers -/

/-- C50. Both formats of `write_string_double` write, for every size of the buffer, a JSON number whose decimal value is that of the digits Ryu produced. -/
theorem C50_number_text (fixed : Bool) (d2s : F64 → List Byte) (x : F64) (hx : x.isNormal = true) (hs : IsSci (d2s x)) :
    ∃ q t, IsDecimal (d2s x) q ∧ IsDecimal t q ∧ IsNumber t ∧
      ∀ dst n, n ≤ dst.length → Written dst n t ((⟨dst, n, 0, false⟩ : Wr).double fixed d2s x).nullterm := by
  obtain ⟨q, h1, h2⟩ := fpText_decimal (!fixed) hs
  refine ⟨q, _, h1, h2, decimal_number h2, fun dst n hn => ?_⟩
  have h := (holds_start dst n hn).double hn fixed (d2s := d2s) (x := x) (fun _ => sci_split hs)
  have e : numText fixed d2s x = fpText (!fixed) (d2s x) := by simp [numText, hx]
  rw [List.nil_append, e] at h
  exact h.final hn

/-- The two formats, in a buffer that is too small and in one that is not. -/
example : ((⟨List.replicate 8 0xFF#8, 4, 0, false⟩ : Wr).double true (demoFmt true).d2s 0#64).nullterm.dst = txt "0" ++ [0#8] ++ List.replicate 6 0xFF#8 := by decide
example : ((⟨List.replicate 12 0xFF#8, 6, 0, false⟩ : Wr).double true (demoFmt true).d2s 0x1#64).nullterm.dst = txt "0" ++ [0#8] ++ List.replicate 10 0xFF#8 := by decide
example : ((⟨List.replicate 12 0xFF#8, 6, 0, false⟩ : Wr).double true (demoFmt true).d2s 0x3E8AD7F29ABCAF48#64).nullterm.dst =
    txt "0.000" ++ [0#8] ++ List.replicate 6 0xFF#8 ∧
    ((⟨List.replicate 12 0xFF#8, 12, 0, false⟩ : Wr).double true (demoFmt true).d2s 0x3E8AD7F29ABCAF48#64).nullterm.dst = txt "0.0000002" ++ [0#8] ++ List.replicate 2 0xFF#8 ∧
    ((⟨List.replicate 12 0xFF#8, 12, 0, false⟩ : Wr).double false (demoFmt false).d2s 0x3E8AD7F29ABCAF48#64).nullterm.dst.take 5 = txt "2e-7" ++ [0#8] := by decide

/-- Doubles that are not normal are written as `0`, the subnormal ones included: the value is lost. -/
theorem C50_subnormal_zero (fixed : Bool) (d2s : F64 → List Byte) (x : F64) (hx : x.isNormal = false) (dst : List Byte) (n : Nat) (hn : n ≤ dst.length) :
    Written dst n (txt "0") ((⟨dst, n, 0, false⟩ : Wr).double fixed d2s x).nullterm := by
  have h := (holds_start dst n hn).double hn fixed (d2s := d2s) (x := x) (by simp [hx])
  have e : numText fixed d2s x = txt "0" := by simp only [numText, hx]; rfl
  rw [List.nil_append, e] at h
  exact h.final hn

/-- The least subnormal, an infinity. -/
example : F64.isNormal 1#64 = false ∧ F64.isNormal 0x7FF0000000000000#64 = false ∧ F64.isNormal 0x3FF8000000000000#64 = true := by decide

/-! ### C12: the writers and the size of the buffer -/

/-- C12 for `tg_geom_wkt`. -/
theorem C12_wkt (nf : NumFmt) (hnf : ∀ x, x.isNormal = true → IsSci (nf.d2s x)) (g : Geom) (hg : NoNull g) :
    ∃ t, ∀ dst n, n ≤ dst.length → Written dst n t (tgGeomWkt nf g dst n) :=
  ⟨_, fun dst n hn => (by simpa using writeWkt_holds hnf hn g hg (holds_start dst n hn) : Holds dst n (wktT nf.text g) _).final hn⟩

/-- C12 for `tg_geom_geojson`. -/
theorem C12_geojson (nf : NumFmt) (hnf : ∀ x, x.isNormal = true → IsSci (nf.d2s x)) (g : Geom) (hg : NoNull g) :
    ∃ t, ∀ dst n, n ≤ dst.length → Written dst n t (tgGeomGeojson nf g dst n) :=
  ⟨_, fun dst n hn => (by simpa using writeJson_holds hnf hn g hg (holds_start dst n hn) : Holds dst n (jsonT nf.text g) _).final hn⟩

/-- A collection with an empty polygon and a line with a Z coordinate missing. -/
def demoGeom : Geom := .coll {} true
  [.gpoly { isEmpty := true } none [] none,
   .gline { hasZ := true } (some [⟨0x3FF8000000000000#64, 0xC033000000000000#64⟩, ⟨0#64, 0x7E37E43C8800759C#64⟩]) [0x3FF8000000000000#64] none] [] none

theorem demo_noNull : NoNull demoGeom := by simp [demoGeom, NoNull, NoNulls]

set_option maxRecDepth 100000 in
/-- Cut off inside a number. -/
example : tgGeomWkt (demoFmt false) demoGeom (List.replicate 70 0xFF#8) 51 =
    ⟨txt "GEOMETRYCOLLECTION(POLYGON EMPTY,LINESTRING(1.5 -1" ++ [0#8] ++ List.replicate 19 0xFF#8, 51, 67, false⟩ := by decide +kernel

/-- Why NULL lines are excluded: a child that is NULL is dereferenced. -/
theorem C12_null_child_undefined : (tgGeomWkt (demoFmt false) (.mline {} (some [none]) [] none) (List.replicate 50 0#8) 50).ub = true ∧
    (tgGeomGeojson (demoFmt false) (.mline {} (some [none]) [] none) (List.replicate 50 0#8) 50).ub = true := by decide +kernel

/-! ### What is written -/

/-- C12 and C51 for `tg_geom_wkt`: the text is the Well-Known Text of what the user sees, and a number in it has the value Ryu gave or is `0`. -/
theorem C12_wkt_text (nf : NumFmt) (hnf : ∀ x, x.isNormal = true → IsSci (nf.d2s x)) :
    ∃ num : F64 → List Byte, (∀ x, x.isNormal = true → ∃ q, IsDecimal (nf.d2s x) q ∧ IsDecimal (num x) q) ∧ (∀ x, x.isNormal = false → num x = txt "0") ∧
      ∀ g v, NoNull g → Filled g → view g = some v → ∀ dst n, n ≤ dst.length → Written dst n (Wkt.text num v) (tgGeomWkt nf g dst n) := by
  refine ⟨nf.text, fun x hx => ?_, fun x hx => ?_, fun g v hg hf hv dst n hn => ?_⟩
  · obtain ⟨q, h1, h2⟩ := fpText_decimal (!nf.fixed) (hnf x hx)
    exact ⟨q, h1, by simpa [NumFmt.text, numText, hx] using h2⟩
  · simp only [NumFmt.text, numText, hx]; rfl
  · rw [← wktT_view nf.text g v hv hf]
    exact (by simpa using writeWkt_holds hnf hn g hg (holds_start dst n hn) : Holds dst n (wktT nf.text g) _).final hn

/-- C51 for `tg_geom_geojson`. -/
theorem C51_geojson_text (nf : NumFmt) (hnf : ∀ x, x.isNormal = true → IsSci (nf.d2s x)) :
    ∃ num : F64 → List Byte, (∀ x, x.isNormal = true → ∃ q, IsDecimal (nf.d2s x) q ∧ IsDecimal (num x) q) ∧ (∀ x, x.isNormal = false → num x = txt "0") ∧
      ∀ g v, NoNull g → Bare g → view g = some v → ∀ dst n, n ≤ dst.length → Written dst n (Geojson.text num v) (tgGeomGeojson nf g dst n) := by
  refine ⟨nf.text, fun x hx => ?_, fun x hx => ?_, fun g v hg hf hv dst n hn => ?_⟩
  · obtain ⟨q, h1, h2⟩ := fpText_decimal (!nf.fixed) (hnf x hx)
    exact ⟨q, h1, by simpa [NumFmt.text, numText, hx] using h2⟩
  · simp only [NumFmt.text, numText, hx]; rfl
  · rw [← jsonT_view nf.text g v hv hf]
    exact (by simpa using writeJson_holds hnf hn g hg (holds_start dst n hn) : Holds dst n (jsonT nf.text g) _).final hn

/-- The collection of the examples meets the conditions. -/
example : NoNull demoGeom ∧ Filled demoGeom ∧ Bare demoGeom ∧ view demoGeom = some (.coll [.poly false false [], .line true false
    [[0x3FF8000000000000#64, 0xC033000000000000#64, 0x3FF8000000000000#64], [0#64, 0x7E37E43C8800759C#64, 0#64]]]) := by
  refine ⟨demo_noNull, by simp [demoGeom, Filled, Filleds], by simp [demoGeom, Bare, Bares, BareFlags], rfl⟩

/-! ### C18: the GeoJSON text is JSON -/

/-- C18. For every geometry, Feature or collection whose extra JSON is JSON, the text of `tg_geom_geojson` is one JSON value. Missing for the full statement: extra JSON
that is not JSON. `json_validn` accepts some (C16), and the parser then keeps it and the writer copies it. Also missing: what `C18_unlocated_extra_invalid` shows to be wrong. -/
theorem C18_geojson_valid_partial (nf : NumFmt) (hnf : ∀ x, x.isNormal = true → IsSci (nf.d2s x)) (g : Geom) (hg : NoNull g) (hx : ExtraAll Str g) :
    ∃ t, (∃ n, Val Str n t) ∧ ∀ dst n, n ≤ dst.length → Written dst n t (tgGeomGeojson nf g dst n) :=
  ⟨_, (Json.jsonT_obj Json.utf8_noAscii (Json.num_val hnf) g hx).val, fun dst n hn =>
    (by simpa using writeJson_holds hnf hn g hg (holds_start dst n hn) : Holds dst n (jsonT nf.text g) _).final hn⟩

/-- A Feature with an id, whose geometry has a member of its own. -/
def demoFeature : Geom := .gpoint { isFeature := true } ⟨0x3FF8000000000000#64, 0xC033000000000000#64⟩ 0#64 0#64 (some (txt " [{\"id\":7},{\"b\":[]}]"))

/-- Its extra JSON is JSON. -/
theorem demo_extra : NoNull demoFeature ∧ ExtraAll Str demoFeature := by
  refine ⟨trivial, ?_⟩
  rw [demoFeature, ExtraAll]
  rintro d ⟨⟩
  have h1 : Json.IsVal Utf8 (txt "{\"id\":7}") :=
    Json.IsObj.val ⟨_, Json.lit_mem "id" (by decide) (v := txt "7") ⟨1, .num _ _ ⟨[], [0x37], [], [], rfl, .inl rfl, .inr ⟨0x37, [], rfl, ⟨by decide, by decide⟩, by simp⟩, .inl rfl, .inl rfl⟩⟩, by decide⟩
  have h2 : Json.IsVal Utf8 (txt "{\"b\":[]}") :=
    Json.IsObj.val ⟨_, Json.lit_mem "b" (by decide) (v := txt "[]") ⟨1, .arr0 0 [] Json.ws_none⟩, by decide⟩
  obtain ⟨n, h⟩ := Json.IsVal.arr (U := Utf8) (ts := [txt "{\"id\":7}", txt "{\"b\":[]}"]) (by
    intro t ht
    rcases List.mem_cons.1 ht with rfl | ht
    · exact h1
    · rw [List.mem_singleton] at ht; subst ht; exact h2)
  exact ⟨n, txt " ", _, [], by intro b hb; rw [show txt " " = [0x20#8] from rfl, List.mem_singleton] at hb; exact .inl hb, h, Json.ws_none, by decide, by simp⟩

set_option maxRecDepth 100000 in
example : tgGeomGeojson (demoFmt false) demoFeature (List.replicate 110 0xFF#8) 110 =
    ⟨txt "{\"type\":\"Feature\",\"id\":7,\"geometry\":{\"type\":\"Point\",\"coordinates\":[1.5,-19],\"b\":[]},\"properties\":{}}" ++ [0#8] ++ List.replicate 9 0xFF#8, 110, 100, false⟩ := by
  decide +kernel

/-- Why a Feature without a geometry must not have an array as its extra JSON: the step back over the closing brace of the geometry takes the last letter of `null`. The parser does
not make such a geometry. -/
def badFeature : Geom := .gpoint { isFeature := true, isEmpty := true, unlocated := true } ⟨0#64, 0#64⟩ 0#64 0#64 (some (txt "[{},{\"b\":1}]"))

set_option maxRecDepth 100000 in
theorem C18_unlocated_extra_invalid : (tgGeomGeojson (demoFmt false) badFeature (List.replicate 70 0#8) 70).dst.take 57 =
    txt "{\"type\":\"Feature\",\"geometry\":nul,\"b\":1},\"properties\":{}}" ++ [0#8] := by
  decide +kernel

end Tg
