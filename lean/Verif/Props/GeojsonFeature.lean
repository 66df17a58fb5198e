import Verif.Lemmas.GeojsonFeature
import Verif.Props.GeojsonParse
/-!
Property C57: the GeoJSON parser accepts Features and FeatureCollections.
-/
namespace Tg
open Spec Spec.Json

theorem feature_num {sd : List Byte → F64 × Nat} {rnd : ℚ → F64} (hs : StrtodAll sd rnd) {f : Option GV} {t : List Byte} (h : Geojson.IsFeature (ShortNum rnd) f t) :
    Geojson.IsFeature (Gp.Num sd) f t := by
  obtain ⟨ms, ty, c, h1, h2, h3, h4, h5, h6⟩ := h
  refine ⟨ms, ty, c, h1, h2, h3, h4, h5, ?_⟩
  cases f with
  | none => exact h6
  | some v => exact Gp.IsGeometry.mono (fun t x => short_num hs) v c h6

/-- C57. Every Feature of RFC 7946, with its members in any order and spelling, any foreign members, and any white space, of at most 1024 levels and without U+10FFFF, is parsed.
The result shows the geometry, an empty point if it is null, and says that it is a Feature, whether it has null properties, and whether its geometry is null. It keeps the id, the properties
unless they are null or without members, and the foreign members, both of the Feature and of the geometry. -/
theorem C57_feature_accepted (sd : List Byte → F64 × Nat) (rnd : ℚ → F64) (hs : StrtodAll sd rnd) (f : Option GV) (hf : ∀ v, f = some v → Wkt.Wf v ∧ Geojson.ZFirst v) (t w w' : List Byte)
    (ht : Geojson.IsFeature (ShortNum rnd) f t) (hw : Ws w) (hw' : Ws w') (hd : Val Str 1024 t) (hn : ¬ ([0xF4, 0x8F, 0xBF, 0xBF] : List Byte) <:+: w ++ (t ++ w')) :
    ∃ g, Gp.tgParseGeojson sd (w ++ (t ++ w')) = .geom g ∧ view g = some (Geojson.shown f) ∧ Geojson.FeatureKeeps t g := by
  have hj := Json.parse_good Json.utf8_noAscii hw hd hw'
  have hsz := Gp.size_parse (w ++ (t ++ w'))
  obtain ⟨g, h1, h2, h3⟩ := Gp.read_feature f t (feature_num hs ht) hf ((w ++ (t ++ w')).length + 1) _ w' hj (by omega) false
  refine ⟨g, ?_, h2, h3⟩
  unfold Gp.tgParseGeojson
  rw [C16_json_complete _ ⟨w, t, w', hw, hd, hw', rfl⟩ hn]
  simp only [h1]

/-- C57. Every FeatureCollection is parsed; the result is a collection of the Features, each with what is its own, and with the foreign members of the FeatureCollection. -/
theorem C57_collection_accepted (sd : List Byte → F64 × Nat) (rnd : ℚ → F64) (hs : StrtodAll sd rnd) (fs : List (Option GV)) (hf : ∀ v, some v ∈ fs → Wkt.Wf v ∧ Geojson.ZFirst v)
    (t w w' : List Byte) (ht : Geojson.IsFeatures (ShortNum rnd) fs t) (hw : Ws w) (hw' : Ws w') (hd : Val Str 1024 t) (hn : ¬ ([0xF4, 0x8F, 0xBF, 0xBF] : List Byte) <:+: w ++ (t ++ w')) :
    ∃ g, Gp.tgParseGeojson sd (w ++ (t ++ w')) = .geom g ∧ view g = some (.coll (fs.map Geojson.shown)) ∧ Geojson.CollectionKeeps t g := by
  have hj := Json.parse_good Json.utf8_noAscii hw hd hw'
  have hsz := Gp.size_parse (w ++ (t ++ w'))
  obtain ⟨c, ts, h1, h2, h3⟩ := ht
  obtain ⟨g, h1, h2, h3⟩ := Gp.read_collection fs t ⟨c, ts, h1, h2, h3.imp fun _ _ => feature_num hs⟩ hf ((w ++ (t ++ w')).length + 1) _ w' hj (by omega) false
  refine ⟨g, ?_, h2, h3⟩
  unfold Gp.tgParseGeojson
  rw [C16_json_complete _ ⟨w, t, w', hw, hd, hw', rfl⟩ hn]
  simp only [h1]

/-! ### Examples -/

/-- The members of a Feature whose geometry has a foreign member. -/
def featMembers : List (List Byte × List Byte) :=
  [(txt "\"type\"", txt "\"Feature\""), (txt "\"properties\"", txt "null"), (txt "\"geometry\"", demoObject), (txt "\"id\"", txt "0")]
/-- The Feature. -/
def featText : List Byte := txt "{\"type\":\"Feature\",\"properties\":null, \"geometry\":" ++ (demoObject ++ txt ",\"id\":0}")
/-- A Feature without a geometry. -/
def nowhereMembers : List (List Byte × List Byte) :=
  [(txt "\"type\"", txt "\"Feature\""), (txt "\"geometry\"", txt "null"), (txt "\"properties\"", txt "{}")]
/-- The text of it. -/
def nowhereText : List Byte := txt "{\"type\":\"Feature\",\"geometry\":null,\"properties\":{}}"

theorem ws_none : Ws [] := by simp [Ws]
theorem ws_one : Ws [0x20#8] := by intro b hb; rw [List.mem_singleton] at hb; exact .inl hb

theorem featText_obj : Geojson.IsObj featMembers featText ∧ ∀ m ∈ featMembers, Val Str 3 m.2 := by
  have hm : ∀ m ∈ featMembers, Str m.1 ∧ Val Str 3 m.2 := by
    intro m hm
    simp only [featMembers, List.mem_cons, List.not_mem_nil, or_false] at hm
    rcases hm with rfl | rfl | rfl | rfl
    · exact ⟨ascii_str (cs := txt "type") (by decide), .str 2 _ (ascii_str (cs := txt "Feature") (by decide))⟩
    · exact ⟨ascii_str (cs := txt "properties") (by decide), .null 2⟩
    · exact ⟨ascii_str (cs := txt "geometry") (by decide), Gp.obj_level demo_obj.1 demo_obj.2⟩
    · exact ⟨ascii_str (cs := txt "id") (by decide), .num 2 _ (by obtain ⟨q, hq, -⟩ := num_zero; exact decimal_number hq)⟩
  refine ⟨⟨fun m h => ⟨(hm m h).1, 3, (hm m h).2⟩, txt "\"type\":\"Feature\",\"properties\":null, \"geometry\":" ++ (demoObject ++ txt ",\"id\":0"), .inr ?_, by simp [featText, txt]⟩, fun m h => (hm m h).2⟩
  exact .cons [] _ [] [] _ [] (txt "\"properties\":null, \"geometry\":" ++ (demoObject ++ txt ",\"id\":0")) _ ws_none ws_none ws_none ws_none
    (.cons [] _ [] [] _ [] (txt " \"geometry\":" ++ (demoObject ++ txt ",\"id\":0")) _ ws_none ws_none ws_none ws_none
      (.cons [0x20#8] _ [] [] demoObject [] (txt "\"id\":0") _ ws_one ws_none ws_none ws_none (.one [] _ [] [] _ [] ws_none ws_none ws_none ws_none)))

theorem nowhereText_obj : Geojson.IsObj nowhereMembers nowhereText ∧ ∀ m ∈ nowhereMembers, Val Str 3 m.2 := by
  have hm : ∀ m ∈ nowhereMembers, Str m.1 ∧ Val Str 3 m.2 := by
    intro m hm
    simp only [nowhereMembers, List.mem_cons, List.not_mem_nil, or_false] at hm
    rcases hm with rfl | rfl | rfl
    · exact ⟨ascii_str (cs := txt "type") (by decide), .str 2 _ (ascii_str (cs := txt "Feature") (by decide))⟩
    · exact ⟨ascii_str (cs := txt "geometry") (by decide), .null 2⟩
    · exact ⟨ascii_str (cs := txt "properties") (by decide), Json.val_up (.obj0 0 [] ws_none) (by omega)⟩
  refine ⟨⟨fun m h => ⟨(hm m h).1, 3, (hm m h).2⟩, txt "\"type\":\"Feature\",\"geometry\":null,\"properties\":{}", .inr ?_, rfl⟩, fun m h => (hm m h).2⟩
  exact .cons [] _ [] [] _ [] (txt "\"geometry\":null,\"properties\":{}") _ ws_none ws_none ws_none ws_none
    (.cons [] _ [] [] _ [] (txt "\"properties\":{}") _ ws_none ws_none ws_none ws_none (.one [] _ [] [] _ [] ws_none ws_none ws_none ws_none))

/-- A name without escapes. -/
theorem named_plain {cs : List Byte} {s : String} (hb : ∀ b ∈ cs, b ≠ 0x5C#8) : Geojson.Named (0x22#8 :: (cs ++ [0x22#8])) s ↔ cs = txt s := by
  constructor
  · rintro ⟨cs', h, hs⟩
    have : cs = cs' := by simpa using h
    subst this
    revert hs
    generalize txt s = l
    intro hs
    clear h
    induction hs with
    | nil => rfl
    | plain b cs s h _ ih => rw [ih fun x hx => hb x (by simp [hx])]
    | esc => exact absurd rfl (hb _ (by simp))
    | uni => exact absurd rfl (hb _ (by simp))
  · exact fun h => plain_named h hb

/-- Members with names without escapes. -/
def Plainly (ms : List (List Byte × List Byte)) : Prop := ∀ m ∈ ms, ∃ cs, m.1 = 0x22#8 :: (cs ++ [0x22#8]) ∧ ∀ b ∈ cs, b ≠ 0x5C#8

theorem plain_iff {ms : List (List Byte × List Byte)} (hp : Plainly ms) {m : List Byte × List Byte} (hm : m ∈ ms) (s : String) : Geojson.Named m.1 s ↔ m.1 = 0x22#8 :: (txt s ++ [0x22#8]) := by
  obtain ⟨cs, h1, h2⟩ := hp m hm
  rw [h1, named_plain h2]
  simp

theorem plain_once {ms : List (List Byte × List Byte)} (hp : Plainly ms) (hd : (ms.map Prod.fst).Nodup) (s : String) : Geojson.Once ms s := by
  rw [List.Nodup, List.pairwise_map] at hd
  refine hd.imp_of_mem fun {x y} hx hy hne h => hne ?_
  rw [(plain_iff hp hx s).1 h.1, (plain_iff hp hy s).1 h.2]

theorem plain_member {ms a b : List (List Byte × List Byte)} {v : List Byte} {s : String} (hp : Plainly ms) (hd : (ms.map Prod.fst).Nodup) (h : ms = a ++ (0x22#8 :: (txt s ++ [0x22#8]), v) :: b) :
    Geojson.Member ms s v := by
  refine ⟨a, _, b, h, (plain_iff (m := (_, v)) hp (by rw [h]; simp) s).2 rfl, fun m hm hn => ?_⟩
  have hm' : m ∈ ms := by rw [h]; simp only [List.mem_append, List.mem_cons] at hm ⊢; rcases hm with h | h <;> simp [h]
  have e := (plain_iff hp hm' s).1 hn
  rw [h, List.map_append, List.map_cons, List.nodup_append, List.nodup_cons] at hd
  obtain ⟨-, ⟨h1, -⟩, h2⟩ := hd
  rcases List.mem_append.1 hm with hm | hm
  · exact h2 m.1 (List.mem_map.2 ⟨m, hm, rfl⟩) _ (List.mem_cons_self ..) e
  · exact h1 (List.mem_map.2 ⟨m, hm, e⟩)

theorem featText_plain : Plainly featMembers := by
  intro m hm
  simp only [featMembers, List.mem_cons, List.not_mem_nil, or_false] at hm
  rcases hm with rfl | rfl | rfl | rfl
  · exact ⟨txt "type", rfl, by decide⟩
  · exact ⟨txt "properties", rfl, by decide⟩
  · exact ⟨txt "geometry", rfl, by decide⟩
  · exact ⟨txt "id", rfl, by decide⟩

theorem nowhereText_plain : Plainly nowhereMembers := by
  intro m hm
  simp only [nowhereMembers, List.mem_cons, List.not_mem_nil, or_false] at hm
  rcases hm with rfl | rfl | rfl
  · exact ⟨txt "type", rfl, by decide⟩
  · exact ⟨txt "geometry", rfl, by decide⟩
  · exact ⟨txt "properties", rfl, by decide⟩

theorem featText_feature : Geojson.IsFeature (ShortNum demoRnd) (some (.point true false (some [0x3FF8000000000000#64, 0#64, 0#64]))) featText := by
  have hd : (featMembers.map Prod.fst).Nodup := by decide +kernel
  refine ⟨featMembers, txt "\"Feature\"", demoObject, featText_obj.1, plain_member (a := []) featText_plain hd rfl, plain_named (cs := txt "Feature") rfl (by decide),
    plain_member (a := [(txt "\"type\"", txt "\"Feature\""), (txt "\"properties\"", txt "null")]) featText_plain hd rfl, ⟨plain_once featText_plain hd _, plain_once featText_plain hd _, ?_⟩, demo_geometry⟩
  intro m hm
  rw [plain_iff featText_plain hm, plain_iff featText_plain hm]
  simp only [featMembers, List.mem_cons, List.not_mem_nil, or_false] at hm
  rcases hm with rfl | rfl | rfl | rfl
  · exact ⟨fun h => absurd h (by decide +kernel), fun h => absurd h (by decide +kernel)⟩
  · exact ⟨fun _ => .inl rfl, fun h => absurd h (by decide +kernel)⟩
  · exact ⟨fun h => absurd h (by decide +kernel), fun h => absurd h (by decide +kernel)⟩
  · exact ⟨fun h => absurd h (by decide +kernel), fun _ => .inr (by obtain ⟨q, hq, -⟩ := num_zero; exact decimal_number hq)⟩

theorem nowhereText_feature : Geojson.IsFeature (ShortNum demoRnd) none nowhereText := by
  have hd : (nowhereMembers.map Prod.fst).Nodup := by decide +kernel
  refine ⟨nowhereMembers, txt "\"Feature\"", txt "null", nowhereText_obj.1, plain_member (a := []) nowhereText_plain hd rfl, plain_named (cs := txt "Feature") rfl (by decide),
    plain_member (a := [(txt "\"type\"", txt "\"Feature\"")]) nowhereText_plain hd rfl, ⟨plain_once nowhereText_plain hd _, plain_once nowhereText_plain hd _, ?_⟩, rfl⟩
  intro m hm
  rw [plain_iff nowhereText_plain hm, plain_iff nowhereText_plain hm]
  simp only [nowhereMembers, List.mem_cons, List.not_mem_nil, or_false] at hm
  rcases hm with rfl | rfl | rfl
  · exact ⟨fun h => absurd h (by decide +kernel), fun h => absurd h (by decide +kernel)⟩
  · exact ⟨fun h => absurd h (by decide +kernel), fun h => absurd h (by decide +kernel)⟩
  · exact ⟨fun _ => .inr ⟨[], by simp, [], .inl ⟨rfl, ws_none⟩, rfl⟩, fun h => absurd h (by decide +kernel)⟩

/-- The Feature is parsed. -/
example : ∃ g, Gp.tgParseGeojson (Gp.readAll demoRnd) ([] ++ (featText ++ [0x20#8])) = .geom g ∧
    view g = some (.point true false (some [0x3FF8000000000000#64, 0#64, 0#64])) ∧ Geojson.FeatureKeeps featText g :=
  C57_feature_accepted _ demoRnd (readAll_strtod _) (some (.point true false (some [0x3FF8000000000000#64, 0#64, 0#64]))) (by rintro v ⟨⟩; exact ⟨by simp [Wkt.Wf, posOk, dims], by simp [Geojson.ZFirst]⟩)
    featText _ _ featText_feature ws_none ws_one (Json.val_up (Gp.obj_level featText_obj.1 featText_obj.2) (by omega)) (by decide +kernel)

/-- By computation: the members of the Feature and of the geometry are both stored. -/
example : (match Gp.tgParseGeojson (Gp.readAll demoRnd) featText with
    | .geom g => Gp.xjsonOf g == some (txt "[{\"id\":0},{\"name\":\"x\"}]") && g.flags.isFeature && g.flags.nullProps
    | _ => false) = true := by decide +kernel

/-- A FeatureCollection of both. -/
def bothText : List Byte := txt "{\"type\":\"FeatureCollection\",\"features\":[" ++ (featText ++ (txt "," ++ (nowhereText ++ txt "]}")))
/-- The array of both. -/
def bothArray : List Byte := txt "[" ++ (featText ++ (txt "," ++ (nowhereText ++ txt "]")))
/-- Its members. -/
def bothMembers : List (List Byte × List Byte) := [(txt "\"type\"", txt "\"FeatureCollection\""), (txt "\"features\"", bothArray)]

theorem bothArray_arr : Geojson.IsArr [featText, nowhereText] bothArray :=
  ⟨featText ++ (txt "," ++ nowhereText), .inr (.cons [] featText [] nowhereText _ ws_none ws_none (by have := Geojson.Items.one [] nowhereText [] ws_none ws_none; simpa using this)), by simp [bothArray, txt]⟩

theorem bothText_obj : Geojson.IsObj bothMembers bothText ∧ ∀ m ∈ bothMembers, Val Str 5 m.2 := by
  have hv : Val Str 5 bothArray := by
    refine Gp.arr_level bothArray_arr ?_
    intro v hv
    simp only [List.mem_cons, List.not_mem_nil, or_false] at hv
    rcases hv with rfl | rfl
    · exact Gp.obj_level featText_obj.1 featText_obj.2
    · exact Gp.obj_level nowhereText_obj.1 nowhereText_obj.2
  have hm : ∀ m ∈ bothMembers, Str m.1 ∧ Val Str 5 m.2 := by
    intro m hm
    simp only [bothMembers, List.mem_cons, List.not_mem_nil, or_false] at hm
    rcases hm with rfl | rfl
    · exact ⟨ascii_str (cs := txt "type") (by decide), .str 4 _ (ascii_str (cs := txt "FeatureCollection") (by decide))⟩
    · exact ⟨ascii_str (cs := txt "features") (by decide), hv⟩
  refine ⟨⟨fun m h => ⟨(hm m h).1, 5, (hm m h).2⟩, txt "\"type\":\"FeatureCollection\",\"features\":" ++ bothArray, .inr ?_, by simp [bothText, bothArray, txt]⟩, fun m h => (hm m h).2⟩
  refine .cons [] _ [] [] _ [] (txt "\"features\":" ++ bothArray) _ ws_none ws_none ws_none ws_none ?_
  have := Geojson.Pairs.one [] (txt "\"features\"") [] [] bothArray [] ws_none ws_none ws_none ws_none
  simpa [txt] using this

theorem bothText_features : Geojson.IsFeatures (ShortNum demoRnd) [some (.point true false (some [0x3FF8000000000000#64, 0#64, 0#64])), none] bothText := by
  have hp : Plainly bothMembers := by
    intro m hm
    simp only [bothMembers, List.mem_cons, List.not_mem_nil, or_false] at hm
    rcases hm with rfl | rfl
    · exact ⟨txt "type", rfl, by decide⟩
    · exact ⟨txt "features", rfl, by decide⟩
  have hd : (bothMembers.map Prod.fst).Nodup := by decide +kernel
  exact ⟨bothArray, [featText, nowhereText], ⟨bothMembers, txt "\"FeatureCollection\"", bothText_obj.1, plain_member (a := []) hp hd rfl, plain_named (cs := txt "FeatureCollection") rfl (by decide),
    plain_member (a := [(txt "\"type\"", txt "\"FeatureCollection\"")]) hp hd rfl⟩, bothArray_arr, .cons featText_feature (.cons nowhereText_feature .nil)⟩

/-- It is parsed. -/
example : ∃ g, Gp.tgParseGeojson (Gp.readAll demoRnd) ([] ++ (bothText ++ [0x20#8])) = .geom g ∧
    view g = some (.coll [.point true false (some [0x3FF8000000000000#64, 0#64, 0#64]), .point false false none]) ∧ Geojson.CollectionKeeps bothText g :=
  C57_collection_accepted _ demoRnd (readAll_strtod _) _
    (by intro v hv; simp only [List.mem_cons, List.not_mem_nil, or_false, Option.some.injEq, reduceCtorEq] at hv; subst hv; exact ⟨by simp [Wkt.Wf, posOk, dims], by simp [Geojson.ZFirst]⟩)
    bothText _ _ bothText_features ws_none ws_one (Json.val_up (Gp.obj_level bothText_obj.1 bothText_obj.2) (by omega)) (by decide +kernel)

/-- Properties that are a number, an id that is an array, a geometry that is a Feature, and a geometry in `features` are errors. -/
example : (Gp.tgParseGeojson (Gp.readAll demoRnd) (txt "{\"type\":\"Feature\",\"geometry\":null,\"properties\":0}") matches .error _) = true ∧
    (Gp.tgParseGeojson (Gp.readAll demoRnd) (txt "{\"type\":\"Feature\",\"geometry\":null,\"id\":[]}") matches .error _) = true ∧
    (Gp.tgParseGeojson (Gp.readAll demoRnd) (txt "{\"type\":\"Feature\",\"geometry\":{\"type\":\"Feature\",\"geometry\":null}}") matches .error _) = true ∧
    (Gp.tgParseGeojson (Gp.readAll demoRnd) (txt "{\"type\":\"FeatureCollection\",\"features\":[{\"type\":\"Point\",\"coordinates\":[0,0]}]}") matches .error _) = true := by
  decide +kernel

end Tg
