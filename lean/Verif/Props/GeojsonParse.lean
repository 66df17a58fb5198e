import Verif.Lemmas.GeojsonMono
import Verif.Lemmas.GeojsonDepth
import Verif.Lemmas.GeojsonDeep
import Verif.Lemmas.GeojsonValid
import Verif.Props.Json
import Verif.Props.Wkt
/-!
Properties C54, C55: the GeoJSON parser.

`strtod` is a parameter: for a text it gives the number and how many bytes were read. C54 holds for any; C55 assumes `StrtodAll`.
-/
namespace Tg
open Spec Spec.Json

/-! ### C54: safety -/

/-- C54. On every byte string the GeoJSON parser reads inside its slice, sets the extra members and the flags only on a `struct tg_geom`, and ends. -/
theorem C54_geojson_safe (sd : List Byte → F64 × Nat) (data : List Byte) : Gp.tgParseGeojson sd data ≠ .ub := Gp.tgParseGeojson_safe data

/-- Of standard JSON no more than 1024 calls of `parse_geojson` are open at a time … -/
theorem C54_geojson_calls (sd : List Byte → F64 × Nat) (data : List Byte) (h : Text Str data) (req : Bool) : Gp.parseGeojson sd 1024 (Json.parse data) req ≠ .ub := by
  obtain ⟨w, v, w', hw, hv, hw', rfl⟩ := h
  exact Gp.depth_safe 1024 1024 le_rfl _ req ⟨v, w', hv, Json.parse_good Json.utf8_noAscii hw hv hw'⟩

/-- … and what is built is at most 512 collections deep. -/
theorem C54_geojson_depth (sd : List Byte → F64 × Nat) (data : List Byte) (h : Text Str data) (g : Geom) (hg : Gp.tgParseGeojson sd data = .geom g) : nest g ≤ 512 := by
  obtain ⟨w, v, w', hw, hv, hw', rfl⟩ := h
  unfold Gp.tgParseGeojson at hg
  split at hg
  · cases hg
  · cases hg
  · split at hg
    · cases hg
    · cases hg
    · rename_i g' hp
      cases hg
      have := Gp.depth_nest _ 1024 _ false ⟨v, w', hv, Json.parse_good Json.utf8_noAscii hw hv hw'⟩ _ hp
      omega

/-- The bound of the validator does not bound the parser on other texts. For every `n` there is a text that the validator accepts as one object whose members are all strings, and of which
the parser builds `2 * n` nested collections with as many open calls: the validator ends a string at a bad escape (C16), the parser does not. -/
theorem C54_depth_unbounded (sd : List Byte → F64 × Nat) (n : Nat) :
    ∃ data g, (∃ l, Mems TgStr 1 l ∧ data = 0x7B#8 :: (l ++ [0x7D#8])) ∧ Gp.tgParseGeojson sd data = .geom g ∧ nest g = 2 * n :=
  ⟨Gp.deepText n, Gp.deepGeom n, Gp.deep_flat n, Gp.deep_result n, Gp.deep_nest n⟩

/-- The text for `n = 1`. -/
example : Gp.deepText 1 = txt "{\"type\\:\"\\\"GeometryCollection\\,\"\\\"geometries\\:\"[{\\\"type\\,\"\\\"GeometryCollection\\:\"\\\"geometries\\,\"[{\\\"type\\:\"\\\"GeometryCollection\\,\"\\\"geometries\\:\"[]}]}]\\}" := by
  decide +kernel

/-! ### C55: the parser accepts GeoJSON -/

/-- What is assumed of `strtod`: it reads all of a number. -/
def StrtodAll (sd : List Byte → F64 × Nat) (rnd : ℚ → F64) : Prop := ∀ t q, IsDecimal t q → sd t = (Wkt.double rnd t q, t.length)

/-- Numbers of fewer than 512 bytes, and the doubles they stand for. -/
def ShortNum (rnd : ℚ → F64) (t : List Byte) (x : F64) : Prop := Wkt.NumOf rnd t x ∧ t.length < 512

theorem short_num {sd : List Byte → F64 × Nat} {rnd : ℚ → F64} (hs : StrtodAll sd rnd) {t : List Byte} {x : F64} (h : ShortNum rnd t x) : Gp.Num sd t x := by
  obtain ⟨⟨q, hq, rfl⟩, hl⟩ := h
  refine ⟨decimal_number hq, ?_⟩
  rw [Gp.parseDouble, if_neg (by omega), hs t q hq, if_pos rfl]

/-- C55. Every geometry object of RFC 7946, with its members in any order and spelling, any foreign members, and any white space, of at most 1024 levels and without U+10FFFF, is parsed.
The result shows the geometry (what is empty loses its Z and M, an empty MultiPoint, MultiLineString or MultiPolygon has both), and it and everything in it keep their foreign members. -/
theorem C55_geojson_accepted (sd : List Byte → F64 × Nat) (rnd : ℚ → F64) (hs : StrtodAll sd rnd) (v : GV) (hv : Wkt.Wf v) (hz : Geojson.ZFirst v) (t w w' : List Byte)
    (ht : Geojson.IsGeometry (ShortNum rnd) v t) (hw : Ws w) (hw' : Ws w') (hd : Val Str 1024 t) (hn : ¬ ([0xF4, 0x8F, 0xBF, 0xBF] : List Byte) <:+: w ++ (t ++ w')) :
    ∃ g, Gp.tgParseGeojson sd (w ++ (t ++ w')) = .geom g ∧ view g = some (Geojson.reread v) ∧ Geojson.Keeps t g := by
  have hj := Json.parse_good Json.utf8_noAscii hw hd hw'
  have hsz := Gp.size_parse (w ++ (t ++ w'))
  obtain ⟨g, h1, h2, h3, -⟩ := Gp.read_geo v t (Gp.IsGeometry.mono (fun t x => short_num hs) v t ht) hv hz ((w ++ (t ++ w')).length + 1) _ w' hj (by omega) false
  refine ⟨g, ?_, h2, h3⟩
  unfold Gp.tgParseGeojson
  rw [C16_json_complete _ ⟨w, t, w', hw, hd, hw', rfl⟩ hn]
  simp only [h1]

/-- What is parsed is neither a Feature nor a FeatureCollection. -/
theorem C55_geojson_plain (sd : List Byte → F64 × Nat) (rnd : ℚ → F64) (hs : StrtodAll sd rnd) (v : GV) (hv : Wkt.Wf v) (hz : Geojson.ZFirst v) (t w w' : List Byte)
    (ht : Geojson.IsGeometry (ShortNum rnd) v t) (hw : Ws w) (hw' : Ws w') (hd : Val Str 1024 t) (hn : ¬ ([0xF4, 0x8F, 0xBF, 0xBF] : List Byte) <:+: w ++ (t ++ w')) :
    ∃ g, Gp.tgParseGeojson sd (w ++ (t ++ w')) = .geom g ∧ view g = some (Geojson.reread v) ∧ Geojson.Keeps t g ∧ g.flags.isFeature = false ∧ g.flags.isFeatureCol = false := by
  have hj := Json.parse_good Json.utf8_noAscii hw hd hw'
  have hsz := Gp.size_parse (w ++ (t ++ w'))
  obtain ⟨g, h1, h2, h3, h4, -⟩ := Gp.read_geo v t (Gp.IsGeometry.mono (fun t x => short_num hs) v t ht) hv hz ((w ++ (t ++ w')).length + 1) _ w' hj (by omega) false
  refine ⟨g, ?_, h2, h3, h4.1, h4.2.1⟩
  unfold Gp.tgParseGeojson
  rw [C16_json_complete _ ⟨w, t, w', hw, hd, hw', rfl⟩ hn]
  simp only [h1]

/-- A number of 512 bytes or more is read as 0. -/
theorem C55_long_number_zero (sd : List Byte → F64 × Nat) (t : List Byte) (h : 512 ≤ t.length) : Gp.parseDouble sd t = 0#64 := by rw [Gp.parseDouble, if_pos h]

/-- A `strtod` with the assumed property. -/
theorem readAll_strtod (rnd : ℚ → F64) : StrtodAll (Gp.readAll rnd) rnd := by
  intro t q h
  rw [Gp.readAll, Wp.decVal_of h]

theorem named_iff {cs : List Byte} {s : String} : Geojson.Named (0x22#8 :: (cs ++ [0x22#8])) s → Json.unescape cs = txt s := by
  rintro ⟨cs', h, hs⟩
  have : cs = cs' := by simpa using h
  rw [this]; exact Gp.spells_unescape hs

theorem plain_named {cs : List Byte} {s : String} (h : cs = txt s) (hb : ∀ b ∈ cs, b ≠ 0x5C#8) : Geojson.Named (0x22#8 :: (cs ++ [0x22#8])) s := by
  refine ⟨cs, rfl, ?_⟩
  rw [← h]
  clear h
  induction cs with
  | nil => exact .nil
  | cons b cs ih => exact .plain b _ _ (hb b (by simp)) (ih fun x hx => hb x (by simp [hx]))

theorem ascii_str {cs : List Byte} (h : ∀ b ∈ cs, 0x20 ≤ b.toNat ∧ b.toNat < 0x80 ∧ b ≠ 0x22#8 ∧ b ≠ 0x5C#8) : Str (0x22#8 :: (cs ++ [0x22#8])) := by
  refine ⟨cs, ?_, rfl⟩
  induction cs with
  | nil => exact .nil
  | cons b cs ih =>
    obtain ⟨h1, h2, h3, h4⟩ := h b (by simp)
    exact .cons [b] cs (.ascii b h1 h2 h3 h4) (ih fun x hx => h x (by simp [hx]))

/-- The members of the example. -/
def demoMembers : List (List Byte × List Byte) := [(txt "\"coordinates\"", txt "[1.5, 0,0]"), (txt "\"name\"", txt "\"x\""), (txt "\"t\\u0079pe\"", txt "\"Point\"")]
/-- A Point with a foreign member and an escape in the name of a member. -/
def demoObject : List Byte := txt "{\"coordinates\" :[1.5, 0,0],\"name\":\"x\", \"t\\u0079pe\":\"Point\"}"

theorem demo_coords : Geojson.IsPosn (ShortNum demoRnd) [0x3FF8000000000000#64, 0#64, 0#64] (txt "[1.5, 0,0]") := by
  have ws0 : Ws [] := by simp [Ws]
  have ws1 : Ws [0x20#8] := by intro b hb; rw [List.mem_singleton] at hb; exact .inl hb
  have n0 : ShortNum demoRnd (txt "0") 0#64 := ⟨num_zero, by decide⟩
  have n1 : ShortNum demoRnd (txt "1.5") 0x3FF8000000000000#64 := ⟨num_one_half, by decide⟩
  refine ⟨[txt "1.5", txt "0", txt "0"], ⟨txt "1.5, 0,0", .inr ?_, rfl⟩, ?_, .cons n1 (.cons n0 (.cons n0 .nil))⟩
  · exact .cons [] (txt "1.5") [] (txt " 0,0") _ ws0 ws0 (.cons [0x20#8] (txt "0") [] (txt "0") _ ws1 ws0 (.one [] (txt "0") [] ws0 ws0))
  · intro n hn
    simp only [List.mem_cons, List.not_mem_nil, or_false] at hn
    rcases hn with rfl | rfl | rfl
    · obtain ⟨q, hq, -⟩ := num_one_half; exact decimal_number hq
    · obtain ⟨q, hq, -⟩ := num_zero; exact decimal_number hq
    · obtain ⟨q, hq, -⟩ := num_zero; exact decimal_number hq

theorem demo_type : Geojson.Named (txt "\"t\\u0079pe\"") "type" := by
  have hx : ∀ b : Byte, b ∈ [0x30#8, 0x37#8, 0x39#8] → HexDigit b := by
    intro b hb; simp only [List.mem_cons, List.not_mem_nil, or_false] at hb
    rcases hb with rfl | rfl | rfl <;> simp [HexDigit]
  exact ⟨txt "t\\u0079pe", rfl, .plain _ _ _ (by decide) (.uni 0x30#8 0x30#8 0x37#8 0x39#8 0x79#8 (txt "pe") (txt "pe") (hx _ (by decide)) (hx _ (by decide)) (hx _ (by decide)) (hx _ (by decide)) (by decide) (by decide)
    (.plain _ _ _ (by decide) (.plain _ _ _ (by decide) .nil)))⟩

theorem demo_obj : Geojson.IsObj demoMembers demoObject ∧ ∀ m ∈ demoMembers, Val Str 2 m.2 := by
  have ws0 : Ws [] := by simp [Ws]
  have ws1 : Ws [0x20#8] := by intro b hb; rw [List.mem_singleton] at hb; exact .inl hb
  have hs : ∀ cs : List Byte, (∀ b ∈ cs, 0x20 ≤ b.toNat ∧ b.toNat < 0x80 ∧ b ≠ 0x22#8 ∧ b ≠ 0x5C#8) → Val Str 2 (0x22#8 :: (cs ++ [0x22#8])) := fun cs h => .str 1 _ (ascii_str h)
  have hc : Val Str 2 (txt "[1.5, 0,0]") := by
    obtain ⟨ts, h1, h2, -⟩ := demo_coords
    exact Gp.arr_level h1 fun v hv => .num 0 _ (h2 v hv)
  have ht : Str (txt "\"t\\u0079pe\"") := by
    refine ⟨txt "t\\u0079pe", ?_, rfl⟩
    refine .cons [0x74#8] _ (.ascii _ (by decide) (by decide) (by decide) (by decide)) (.cons (txt "\\u0079") (txt "pe") (.uesc 0x30#8 0x30#8 0x37#8 0x39#8 ?_ ?_ ?_ ?_)
      (.cons [0x70#8] _ (.ascii _ (by decide) (by decide) (by decide) (by decide)) (.cons [0x65#8] _ (.ascii _ (by decide) (by decide) (by decide) (by decide)) .nil))) <;> simp [HexDigit]
  have hm : ∀ m ∈ demoMembers, Str m.1 ∧ Val Str 2 m.2 := by
    intro m hm
    simp only [demoMembers, List.mem_cons, List.not_mem_nil, or_false] at hm
    rcases hm with rfl | rfl | rfl
    · exact ⟨ascii_str (cs := txt "coordinates") (by decide), hc⟩
    · exact ⟨ascii_str (cs := txt "name") (by decide), hs (txt "x") (by decide)⟩
    · exact ⟨ht, hs (txt "Point") (by decide)⟩
  refine ⟨⟨fun m h => ⟨(hm m h).1, 2, (hm m h).2⟩, txt "\"coordinates\" :[1.5, 0,0],\"name\":\"x\", \"t\\u0079pe\":\"Point\"", .inr ?_, rfl⟩, fun m h => (hm m h).2⟩
  exact .cons [] _ [0x20#8] [] _ [] (txt "\"name\":\"x\", \"t\\u0079pe\":\"Point\"") _ ws0 ws1 ws0 ws0
    (.cons [] _ [] [] _ [] (txt " \"t\\u0079pe\":\"Point\"") _ ws0 ws0 ws0 ws0 (.one [0x20#8] _ [] [] _ [] ws1 ws0 ws0 ws0))

theorem demo_geometry : Geojson.IsGeometry (ShortNum demoRnd) (.point true false (some [0x3FF8000000000000#64, 0#64, 0#64])) demoObject := by
  rw [Geojson.IsGeometry]
  refine ⟨txt "[1.5, 0,0]", ⟨demoMembers, txt "\"Point\"", demo_obj.1, ⟨[(txt "\"coordinates\"", txt "[1.5, 0,0]"), (txt "\"name\"", txt "\"x\"")], _, [], rfl, demo_type, ?_⟩,
    plain_named (cs := txt "Point") rfl (by decide), ⟨[], _, [(txt "\"name\"", txt "\"x\""), (txt "\"t\\u0079pe\"", txt "\"Point\"")], rfl, plain_named (cs := txt "coordinates") rfl (by decide), ?_⟩⟩, demo_coords⟩
  · intro m hm
    simp only [List.append_nil, List.mem_cons, List.not_mem_nil, or_false] at hm
    rcases hm with rfl | rfl <;> intro h
    · exact absurd (named_iff (cs := txt "coordinates") h) (by decide +kernel)
    · exact absurd (named_iff (cs := txt "name") h) (by decide +kernel)
  · intro m hm
    simp only [List.nil_append, List.mem_cons, List.not_mem_nil, or_false] at hm
    rcases hm with rfl | rfl <;> intro h
    · exact absurd (named_iff (cs := txt "name") h) (by decide +kernel)
    · exact absurd (named_iff (cs := txt "t\\u0079pe") h) (by decide +kernel)

/-- It is parsed, with white space around. -/
example : ∃ g, Gp.tgParseGeojson (Gp.readAll demoRnd) ([0x20#8] ++ (demoObject ++ [0x0A#8])) = .geom g ∧
    view g = some (.point true false (some [0x3FF8000000000000#64, 0#64, 0#64])) ∧ Geojson.Keeps demoObject g := by
  refine C55_geojson_accepted _ demoRnd (readAll_strtod _) (.point true false (some [0x3FF8000000000000#64, 0#64, 0#64])) (by simp [Wkt.Wf, posOk, dims]) (by simp [Geojson.ZFirst]) demoObject _ _ demo_geometry ?_ ?_ ?_ ?_
  · intro b hb; rw [List.mem_singleton] at hb; exact .inl hb
  · intro b hb; rw [List.mem_singleton] at hb; exact .inr (.inr (.inl hb))
  · exact Json.val_up (Gp.obj_level demo_obj.1 demo_obj.2) (by omega)
  · decide +kernel

/-- The same by computation; the foreign member is stored. -/
example : (Gp.tgParseGeojson (Gp.readAll demoRnd) demoObject matches .geom (.gpoint _ ⟨0x3FF8000000000000#64, 0#64⟩ 0#64 _ (some _))) = true := by decide +kernel

/-- Truncated texts, a position of one number, a ring that is not closed, another type, a Feature in a GeometryCollection. -/
example : (Gp.tgParseGeojson (Gp.readAll demoRnd) (txt "{\"type\":\"Point\",\"coordinates\":[1.5") matches .error _) = true ∧
    (Gp.tgParseGeojson (Gp.readAll demoRnd) (txt "{\"type\":\"Point\",\"coordinates\":[1.5]}") matches .error _) = true ∧
    (Gp.tgParseGeojson (Gp.readAll demoRnd) (txt "{\"type\":\"Polygon\",\"coordinates\":[[[0,0],[1.5,0],[1.5,1.5],[0,1.5]]]}") matches .error _) = true ∧
    (Gp.tgParseGeojson (Gp.readAll demoRnd) (txt "{\"type\":\"Circle\",\"coordinates\":[0,0]}") matches .error _) = true ∧
    (Gp.tgParseGeojson (Gp.readAll demoRnd) (txt "{\"type\":\"GeometryCollection\",\"geometries\":[{\"type\":\"Feature\",\"geometry\":null,\"properties\":null}]}") matches .error _) = true := by
  decide +kernel

end Tg
