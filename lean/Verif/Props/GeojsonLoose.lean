import Verif.Lemmas.GeojsonLooseAll
import Verif.Props.GeojsonFeature
/-!
Property C64: which JSON texts the GeoJSON parser accepts.
-/
namespace Tg
open Spec Spec.Json

/-- The double that tg takes for a number: the one the number stands for, or 0 if the number has 512 bytes or more. -/
def TgNum (rnd : ℚ → F64) (t : List Byte) (x : F64) : Prop := (t.length < 512 ∧ Wkt.NumOf rnd t x) ∨ (512 ≤ t.length ∧ IsNumber t ∧ x = 0#64)

theorem number_decimal {t : List Byte} (h : IsNumber t) : ∃ q, IsDecimal t q := by
  obtain ⟨s, i, f, e, rfl, hs, hi, hf, he⟩ := h
  obtain ⟨neg, rfl⟩ : ∃ neg : Bool, s = if neg then [0x2D#8] else [] := by
    rcases hs with rfl | rfl
    · exact ⟨false, rfl⟩
    · exact ⟨true, rfl⟩
  obtain ⟨f', rfl, hf'⟩ : ∃ f', f = (if f' = [] then [] else 0x2E#8 :: f') ∧ ∀ b ∈ f', Digit b := by
    rcases hf with rfl | ⟨d, ds, rfl, hd, hds⟩
    · exact ⟨[], rfl, by simp⟩
    · refine ⟨d :: ds, by rw [if_neg (by simp)]; rfl, fun b hb => ?_⟩
      rcases List.mem_cons.1 hb with rfl | hb
      · exact hd
      · exact hds b hb
  obtain ⟨k, hk⟩ : ∃ k, IsExpo e k := by
    rcases he with rfl | ⟨c, s, d, ds, rfl, hc, hs, hd, hds⟩
    · exact ⟨0, .inl ⟨rfl, rfl⟩⟩
    · have hall : ∀ b ∈ d :: ds, Digit b := fun b hb => by
        rcases List.mem_cons.1 hb with rfl | hb
        · exact hd
        · exact hds b hb
      rcases hs with rfl | rfl | rfl
      · exact ⟨_, .inr ⟨c, [], d :: ds, rfl, hc, by simp, hall, .inl ⟨.inl rfl, rfl⟩⟩⟩
      · exact ⟨_, .inr ⟨c, [0x2B#8], d :: ds, rfl, hc, by simp, hall, .inl ⟨.inr rfl, rfl⟩⟩⟩
      · exact ⟨_, .inr ⟨c, [0x2D#8], d :: ds, rfl, hc, by simp, hall, .inr ⟨rfl, rfl⟩⟩⟩
  exact ⟨_, neg, i, f', e, k, rfl, hi, hf', hk, rfl⟩

theorem num_tgNum {sd : List Byte → F64 × Nat} {rnd : ℚ → F64} (hs : StrtodAll sd rnd) : Gp.Num sd = TgNum rnd := by
  funext t x
  apply propext
  constructor
  · rintro ⟨hn, rfl⟩
    by_cases hl : 512 ≤ t.length
    · exact .inr ⟨hl, hn, C55_long_number_zero sd t hl⟩
    · obtain ⟨q, hq⟩ := number_decimal hn
      refine .inl ⟨by omega, q, hq, ?_⟩
      rw [Gp.parseDouble, if_neg hl, hs t q hq, if_pos rfl]
  · rintro (⟨hl, hn⟩ | ⟨hl, hn, rfl⟩)
    · exact short_num hs ⟨hn, hl⟩
    · exact ⟨hn, C55_long_number_zero sd t hl⟩

/-- What is parsed was valid, and what the parser gives. -/
theorem parsed_iff {sd : List Byte → F64 × Nat} {data : List Byte} (h : Text Str data) (hn : ¬ ([0xF4, 0x8F, 0xBF, 0xBF] : List Byte) <:+: data) (g : Geom) :
    Gp.tgParseGeojson sd data = .geom g ↔ Gp.parseGeojson sd (data.length + 1) (Json.parse data) false = .ok g := by
  unfold Gp.tgParseGeojson
  rw [C16_json_complete _ h hn]
  dsimp only
  cases Gp.parseGeojson sd (data.length + 1) (Json.parse data) false <;> simp

section
variable (sd : List Byte → F64 × Nat) (rnd : ℚ → F64) (hs : StrtodAll sd rnd) (t w w' : List Byte) (hw : Ws w) (hw' : Ws w') (hd : Val Str 1024 t)
  (hn : ¬ ([0xF4, 0x8F, 0xBF, 0xBF] : List Byte) <:+: w ++ (t ++ w'))
include hs hw hw' hd hn

/-- C64. Which JSON texts are parsed as a geometry, and as which. -/
theorem C64_geometry (u : GV) :
    (∃ g, Gp.tgParseGeojson sd (w ++ (t ++ w')) = .geom g ∧ g.flags.isFeature = false ∧ g.flags.isFeatureCol = false ∧ view g = some u) ↔
      ∃ v, Geojson.Loose (TgNum rnd) v t ∧ Wkt.Wf v ∧ Geojson.ZFirst v ∧ u = Geojson.reread v := by
  have hj := Json.parse_good Json.utf8_noAscii hw hd hw'
  have hsz := Gp.size_parse (w ++ (t ++ w'))
  simp only [parsed_iff ⟨w, t, w', hw, hd, hw', rfl⟩ hn, ← num_tgNum hs]
  constructor
  · rintro ⟨g, hg, f1, f2, hu⟩
    rcases Gp.parse_inv _ t _ _ _ g ⟨_, hd⟩ hj hg with ⟨v, i1, i2, i3, i4, -⟩ | ⟨_, -, -, -, i4, -⟩ | ⟨_, -, -, -, -, i5⟩
    · rw [hu] at i4; exact ⟨v, i1, i2, i3, Option.some.inj i4⟩
    · rw [f1] at i4; cases i4
    · rw [f2] at i5; cases i5
  · rintro ⟨v, i1, i2, i3, rfl⟩
    obtain ⟨g, h1, h2, h3, -⟩ := Gp.read_loose v t i1 i2 i3 ((w ++ (t ++ w')).length + 1) _ w' hj (by omega) false
    exact ⟨g, h1, h3.1, h3.2.1, h2⟩

/-- C64. Which JSON texts are parsed as a Feature, and as which. -/
theorem C64_feature (u : GV) :
    (∃ g, Gp.tgParseGeojson sd (w ++ (t ++ w')) = .geom g ∧ g.flags.isFeature = true ∧ view g = some u) ↔
      ∃ f, Geojson.LooseFeature (TgNum rnd) f t ∧ (∀ v, f = some v → Wkt.Wf v ∧ Geojson.ZFirst v) ∧ u = Geojson.shown f := by
  have hj := Json.parse_good Json.utf8_noAscii hw hd hw'
  have hsz := Gp.size_parse (w ++ (t ++ w'))
  simp only [parsed_iff ⟨w, t, w', hw, hd, hw', rfl⟩ hn, ← num_tgNum hs]
  constructor
  · rintro ⟨g, hg, f1, hu⟩
    rcases Gp.parse_inv _ t _ _ _ g ⟨_, hd⟩ hj hg with ⟨_, -, -, -, -, i5⟩ | ⟨f, i1, i2, i3, -⟩ | ⟨_, -, -, -, i4, -⟩
    · have := i5.1; rw [f1] at this; cases this
    · rw [hu] at i3; exact ⟨f, i1, i2, Option.some.inj i3⟩
    · rw [f1] at i4; cases i4
  · rintro ⟨f, i1, i2, rfl⟩
    obtain ⟨g, h1, h2, h3, -⟩ := Gp.read_looseFeature f t i1 i2 ((w ++ (t ++ w')).length + 1) _ w' hj (by omega) false
    exact ⟨g, h1, h3, h2⟩

/-- C64. Which JSON texts are parsed as a FeatureCollection, and as which. -/
theorem C64_collection (u : GV) :
    (∃ g, Gp.tgParseGeojson sd (w ++ (t ++ w')) = .geom g ∧ g.flags.isFeatureCol = true ∧ view g = some u) ↔
      ∃ fs, Geojson.LooseFeatures (TgNum rnd) fs t ∧ (∀ v, some v ∈ fs → Wkt.Wf v ∧ Geojson.ZFirst v) ∧ u = .coll (fs.map Geojson.shown) := by
  have hj := Json.parse_good Json.utf8_noAscii hw hd hw'
  have hsz := Gp.size_parse (w ++ (t ++ w'))
  simp only [parsed_iff ⟨w, t, w', hw, hd, hw', rfl⟩ hn, ← num_tgNum hs]
  constructor
  · rintro ⟨g, hg, f1, hu⟩
    rcases Gp.parse_inv _ t _ _ _ g ⟨_, hd⟩ hj hg with ⟨_, -, -, -, -, i5⟩ | ⟨_, -, -, -, -, i4⟩ | ⟨fs, i1, i2, i3, -⟩
    · have := i5.2.1; rw [f1] at this; cases this
    · rw [f1] at i4; cases i4
    · rw [hu] at i3; exact ⟨fs, i1, i2, Option.some.inj i3⟩
  · rintro ⟨fs, i1, i2, rfl⟩
    obtain ⟨g, h1, h2, -, h3⟩ := Gp.read_looseCollection fs t i1 i2 ((w ++ (t ++ w')).length + 1) _ w' hj (by omega) false
    exact ⟨g, h1, h3, h2⟩

/-- C64. Every other JSON text gives an error. -/
theorem C64_others (h1 : ∀ v, Geojson.Loose (TgNum rnd) v t → ¬ (Wkt.Wf v ∧ Geojson.ZFirst v))
    (h2 : ∀ f, Geojson.LooseFeature (TgNum rnd) f t → ∃ v, f = some v ∧ ¬ (Wkt.Wf v ∧ Geojson.ZFirst v))
    (h3 : ∀ fs, Geojson.LooseFeatures (TgNum rnd) fs t → ∃ v, some v ∈ fs ∧ ¬ (Wkt.Wf v ∧ Geojson.ZFirst v)) :
    ∃ e, Gp.tgParseGeojson sd (w ++ (t ++ w')) = .error e := by
  have hj := Json.parse_good Json.utf8_noAscii hw hd hw'
  cases hg : Gp.tgParseGeojson sd (w ++ (t ++ w')) with
  | ub => exact absurd hg (C54_geojson_safe sd _)
  | error e => exact ⟨e, rfl⟩
  | geom g =>
    exfalso
    rw [parsed_iff ⟨w, t, w', hw, hd, hw', rfl⟩ hn] at hg
    rw [← num_tgNum hs] at h1 h2 h3
    rcases Gp.parse_inv _ t _ _ _ g ⟨_, hd⟩ hj hg with ⟨v, i1, i2, i3, -⟩ | ⟨f, i1, i2, -⟩ | ⟨fs, i1, i2, -⟩
    · exact h1 v i1 ⟨i2, i3⟩
    · obtain ⟨v, hv, hh⟩ := h2 f i1; exact hh (i2 v hv)
    · obtain ⟨v, hv, hh⟩ := h3 fs i1; exact hh (i2 v hv)

end

/-! ### Examples -/

/-- Two members `type`, two members `coordinates`, and a name that goes on after `\u0000`. -/
def oddMembers : List (List Byte × List Byte) :=
  [(txt "\"type\"", txt "\"Point\\u0000x\""), (txt "\"coordinates\"", txt "0"), (txt "\"coordinates\"", txt "[1.5, 0,0]"), (txt "\"type\"", txt "null")]
/-- The object. -/
def oddObject : List Byte := txt "{\"type\":\"Point\\u0000x\",\"coordinates\":0,\"coordinates\":[1.5, 0,0],\"type\":null}"

theorem odd_obj : Geojson.IsObj oddMembers oddObject ∧ ∀ m ∈ oddMembers, Val Str 2 m.2 := by
  have hc : Val Str 2 (txt "[1.5, 0,0]") := by
    obtain ⟨ts, h1, h2, -⟩ := demo_coords
    exact Gp.arr_level h1 fun v hv => .num 0 _ (h2 v hv)
  have ht : Str (txt "\"Point\\u0000x\"") := by
    have ha : ∀ b : Byte, 0x20 ≤ b.toNat ∧ b.toNat < 0x80 ∧ b ≠ 0x22#8 ∧ b ≠ 0x5C#8 → Chr Utf8 [b] := fun b h => .ascii b h.1 h.2.1 h.2.2.1 h.2.2.2
    refine ⟨txt "Point\\u0000x", ?_, rfl⟩
    exact .cons [0x50#8] _ (ha _ (by decide)) (.cons [0x6F#8] _ (ha _ (by decide)) (.cons [0x69#8] _ (ha _ (by decide)) (.cons [0x6E#8] _ (ha _ (by decide)) (.cons [0x74#8] _ (ha _ (by decide))
      (.cons (txt "\\u0000") (txt "x") (.uesc 0x30#8 0x30#8 0x30#8 0x30#8 (by simp [HexDigit]) (by simp [HexDigit]) (by simp [HexDigit]) (by simp [HexDigit])) (.cons [0x78#8] _ (ha _ (by decide)) .nil))))))
  have hz : IsNumber (txt "0") := by obtain ⟨q, hq, -⟩ := num_zero; exact decimal_number hq
  have hm : ∀ m ∈ oddMembers, Str m.1 ∧ Val Str 2 m.2 := by
    intro m hm
    simp only [oddMembers, List.mem_cons, List.not_mem_nil, or_false] at hm
    rcases hm with rfl | rfl | rfl | rfl
    · exact ⟨ascii_str (cs := txt "type") (by decide), .str 1 _ ht⟩
    · exact ⟨ascii_str (cs := txt "coordinates") (by decide), .num 1 _ hz⟩
    · exact ⟨ascii_str (cs := txt "coordinates") (by decide), hc⟩
    · exact ⟨ascii_str (cs := txt "type") (by decide), .null 1⟩
  refine ⟨⟨fun m h => ⟨(hm m h).1, 2, (hm m h).2⟩, txt "\"type\":\"Point\\u0000x\",\"coordinates\":0,\"coordinates\":[1.5, 0,0],\"type\":null", .inr ?_, rfl⟩, fun m h => (hm m h).2⟩
  exact .cons [] _ [] [] _ [] (txt "\"coordinates\":0,\"coordinates\":[1.5, 0,0],\"type\":null") _ ws_none ws_none ws_none ws_none
    (.cons [] _ [] [] _ [] (txt "\"coordinates\":[1.5, 0,0],\"type\":null") _ ws_none ws_none ws_none ws_none
      (.cons [] _ [] [] _ [] (txt "\"type\":null") _ ws_none ws_none ws_none ws_none (.one [] _ [] [] _ [] ws_none ws_none ws_none ws_none)))

theorem odd_loose : Geojson.Loose (TgNum demoRnd) (.point true false (some [0x3FF8000000000000#64, 0#64, 0#64])) oddObject := by
  rw [Geojson.Loose]
  refine ⟨txt "[1.5, 0,0]", ⟨oddMembers, _, odd_obj.1, ⟨[], _, _, rfl, plain_named (cs := txt "type") rfl (by decide), by simp⟩, ?_, ?_⟩, ?_⟩
  · refine ⟨txt "Point\\u0000x", rfl, .inr ⟨txt "Point", txt "x", rfl, ?_⟩⟩
    exact .plain _ _ _ (by decide) (.plain _ _ _ (by decide) (.plain _ _ _ (by decide) (.plain _ _ _ (by decide) (.plain _ _ _ (by decide) .nil))))
  · refine ⟨[(txt "\"type\"", txt "\"Point\\u0000x\""), (txt "\"coordinates\"", txt "0")], _, [(txt "\"type\"", txt "null")], rfl, plain_named (cs := txt "coordinates") rfl (by decide), ?_⟩
    intro m hm
    rw [List.mem_singleton] at hm
    subst hm
    intro h
    exact absurd (named_iff (cs := txt "type") h) (by decide +kernel)
  · obtain ⟨ts, h1, h2, h3⟩ := demo_coords
    exact ⟨ts, h1, h2, h3.imp fun _ _ h => .inl ⟨h.2, h.1⟩⟩

/-- It is read as the point. -/
theorem C64_odd_accepted : ∃ g, Gp.tgParseGeojson (Gp.readAll demoRnd) ([] ++ (oddObject ++ [])) = .geom g ∧ g.flags.isFeature = false ∧ g.flags.isFeatureCol = false ∧
    view g = some (.point true false (some [0x3FF8000000000000#64, 0#64, 0#64])) :=
  (C64_geometry _ demoRnd (readAll_strtod _) oddObject [] [] ws_none ws_none (Json.val_up (Gp.obj_level odd_obj.1 odd_obj.2) (by omega)) (by decide +kernel) _).2
    ⟨_, odd_loose, by simp [Wkt.Wf, posOk, dims], by simp [Geojson.ZFirst], rfl⟩

/-- Of two `properties` or two `id` only the first is looked at; of two `geometry` the last. -/
example : (Gp.tgParseGeojson (Gp.readAll demoRnd) (txt "{\"type\":\"Feature\",\"geometry\":7,\"properties\":null,\"id\":0,\"properties\":0,\"id\":[],\"geometry\":null}") matches .geom _) = true ∧
    (Gp.tgParseGeojson (Gp.readAll demoRnd) (txt "{\"type\":\"Feature\",\"geometry\":null,\"properties\":0,\"properties\":null}") matches .error _) = true ∧
    (Gp.tgParseGeojson (Gp.readAll demoRnd) (txt "{\"type\":\"Feature\",\"geometry\":null,\"geometry\":7}") matches .error _) = true := by
  decide +kernel

/-- Errors: an array as a coordinate, one coordinate, positions of different length, an open ring, a name that ends too late. -/
example : (Gp.tgParseGeojson (Gp.readAll demoRnd) (txt "{\"type\":\"Point\",\"coordinates\":[[],[]]}") matches .error _) = true ∧
    (Gp.tgParseGeojson (Gp.readAll demoRnd) (txt "{\"type\":\"Point\",\"coordinates\":[0]}") matches .error _) = true ∧
    (Gp.tgParseGeojson (Gp.readAll demoRnd) (txt "{\"type\":\"LineString\",\"coordinates\":[[0,0],[1,1,1]]}") matches .error _) = true ∧
    (Gp.tgParseGeojson (Gp.readAll demoRnd) (txt "{\"type\":\"Polygon\",\"coordinates\":[[[0,0],[1.5,0],[1.5,1.5],[0,1.5]]]}") matches .error _) = true ∧
    (Gp.tgParseGeojson (Gp.readAll demoRnd) (txt "{\"type\":\"Points\",\"coordinates\":[0,0]}") matches .error _) = true := by
  decide +kernel

end Tg
