import Verif.Lemmas.GeojsonRound
import Verif.Lemmas.GeojsonFeature
import Verif.Lemmas.GeojsonText
import Verif.Spec.GeojsonStore
/-! The GeoJSON of an object with foreign members, and of Features. -/
set_option linter.unusedSectionVars false
namespace Tg.Gp
open Spec Spec.Geojson Spec.Json Json
attribute [-instance] instDecidableEqProd

/-- A member as text. -/
def enc (m : List Byte × List Byte) : List Byte := m.1 ++ 0x3A#8 :: m.2
/-- The object without white space. -/
def objText (ms : List (List Byte × List Byte)) : List Byte := bracket 0x7B#8 0x7D#8 (ms.map enc)
/-- A name in quotes. -/
def quoted (s : String) : List Byte := 0x22#8 :: (txt s ++ [0x22#8])

theorem extraText_eq (ms : List (List Byte × List Byte)) : extraText ms = if ms = [] then none else some (objText ms) := rfl

theorem join_pairs : ∀ (m : List Byte × List Byte) (ms : List (List Byte × List Byte)), Pairs (m :: ms) (join 0x2C#8 ((m :: ms).map enc))
  | (k, v), [] => by simpa [join, eachAfter, enc] using Pairs.one [] k [] [] v [] ws_none ws_none ws_none ws_none
  | (k, v), m :: ms => by
    have := Pairs.cons [] k [] [] v [] _ _ ws_none ws_none ws_none ws_none (join_pairs m ms)
    simpa [join, eachAfter, enc] using this

theorem objText_obj {ms : List (List Byte × List Byte)} (h : ∀ m ∈ ms, Str m.1 ∧ ∃ n, Val Str n m.2) : Spec.Geojson.IsObj ms (objText ms) := by
  refine ⟨h, join 0x2C#8 (ms.map enc), ?_, rfl⟩
  cases ms with
  | nil => exact .inl ⟨rfl, ws_none⟩
  | cons m ms => exact .inr (join_pairs m ms)

theorem eachAfter_append (s : Byte) : ∀ a b : List (List Byte), eachAfter s (a ++ b) = eachAfter s a ++ eachAfter s b
  | [], b => rfl
  | t :: a, b => by simp [eachAfter, eachAfter_append s a b]

theorem objText_cons (m : List Byte × List Byte) (ms : List (List Byte × List Byte)) : objText (m :: ms) = 0x7B#8 :: (enc m ++ eachAfter 0x2C#8 (ms.map enc) ++ [0x7D#8]) := rfl

theorem obj_objText (name member : String) (c : List Byte) : obj name member c = objText [(quoted "type", quoted name), (quoted member, c)] := by
  rw [obj_eq]
  simp [objText, bracket, join, eachAfter, enc, quoted]

theorem here_parse {t : List Byte} (h : JVal t) : Here (parse t) t [] := by
  obtain ⟨n, h⟩ := h
  have := parse_good (w := []) (w' := []) utf8_noAscii ws_none h ws_none
  simpa using this

/-- Members that follow the members of the writer. -/
theorem extraT_obj {fm ms : List (List Byte × List Byte)} {j : Option J} {r : List Byte} (hfm : fm ≠ []) (hms : ms ≠ []) (h : ∀ m ∈ ms, Str m.1 ∧ ∃ n, Val Str n m.2) (hj : Here j (objText ms) r) :
    extraT j (objText fm) = objText (fm ++ ms) := by
  have ho := objText_obj h
  have h1 := (obj_head ho hj).2
  have h2 := (obj_first ho hj).2 hms
  obtain ⟨m, ms, rfl⟩ := List.exists_cons_of_ne_nil hms
  obtain ⟨f, fm, rfl⟩ := List.exists_cons_of_ne_nil hfm
  have h3 : 2 < rawLen j := by
    rw [hj.len, objText_cons]
    simp [enc]
    omega
  rw [extraT, h1, h2, if_pos (by simpa using h3), hj.raw, List.cons_append, objText_cons, objText_cons, objText_cons]
  have e : (0x7B#8 :: (enc f ++ eachAfter 0x2C#8 (fm.map enc) ++ [0x7D#8])).dropLast = 0x7B#8 :: (enc f ++ eachAfter 0x2C#8 (fm.map enc)) := by
    rw [← List.cons_append, List.dropLast_concat]
  rw [e, List.map_append, eachAfter_append, List.map_cons, eachAfter]
  simp

theorem extraT_none (t : List Byte) : extraT none t = t := by simp [extraT, Json.isObj, Json.head]

/-- The geometry's part. -/
theorem extraT_stored {fm ms : List (List Byte × List Byte)} {j : Option J} (hfm : fm ≠ []) (h : ∀ m ∈ ms, Str m.1 ∧ ∃ n, Val Str n m.2)
    (hj : (ms = [] ∧ j = none) ∨ (ms ≠ [] ∧ ∃ r, Here j (objText ms) r)) : extraT j (objText fm) = objText (fm ++ ms) := by
  rcases hj with ⟨rfl, rfl⟩ | ⟨hms, r, hj⟩
  · rw [extraT_none, List.append_nil]
  · exact extraT_obj hfm hms h hj

/-- The extra JSON of a geometry. -/
theorem gjExtra_plain {ms : List (List Byte × List Byte)} (h : ∀ m ∈ ms, Str m.1 ∧ ∃ n, Val Str n m.2) :
    (gjExtra false (extraText ms)).1 = none ∧ ((ms = [] ∧ (gjExtra false (extraText ms)).2 = none) ∨ (ms ≠ [] ∧ ∃ r, Here (gjExtra false (extraText ms)).2 (objText ms) r)) := by
  by_cases hm : ms = []
  · subst hm
    exact ⟨rfl, .inl ⟨rfl, rfl⟩⟩
  · rw [extraText_eq, if_neg hm]
    exact ⟨rfl, .inr ⟨hm, [], (here_parse (obj_jval (objText_obj h))).ensure⟩⟩

/-- The extra JSON of a Feature. -/
theorem gjExtra_feature {fm ms : List (List Byte × List Byte)} (hf : ∀ m ∈ fm, Str m.1 ∧ ∃ n, Val Str n m.2) (h : ∀ m ∈ ms, Str m.1 ∧ ∃ n, Val Str n m.2) :
    ((fm = [] ∧ (gjExtra true (both (extraText fm) (extraText ms))).1 = none) ∨ ∃ r, Here (gjExtra true (both (extraText fm) (extraText ms))).1 (objText fm) r) ∧
    ((ms = [] ∧ (gjExtra true (both (extraText fm) (extraText ms))).2 = none) ∨ (ms ≠ [] ∧ ∃ r, Here (gjExtra true (both (extraText fm) (extraText ms))).2 (objText ms) r)) := by
  have of := objText_obj hf
  have om := objText_obj h
  by_cases hm : ms = []
  · subst hm
    rw [show extraText [] = none from rfl, both]
    by_cases hfm : fm = []
    · subst hfm
      exact ⟨.inl ⟨rfl, rfl⟩, .inl ⟨rfl, rfl⟩⟩
    · rw [extraText_eq, if_neg hfm]
      have hh := here_parse (obj_jval of)
      have h1 := (obj_head of hh).2
      have h0 : isArr (parse (objText fm)) = false := by rw [isArr, hh.head rfl]; decide
      have e : gjExtra true (some (objText fm)) = (Json.ensure (parse (objText fm)), none) := by
        simp only [gjExtra, h0, h1, if_true, Bool.false_eq_true, if_false]
      rw [e]
      exact ⟨.inr ⟨[], hh.ensure⟩, .inl ⟨rfl, rfl⟩⟩
  · have e0 : (extraText fm).getD (txt "{}") = objText fm := by
      rw [extraText_eq]
      split_ifs with hfm
      · subst hfm; rfl
      · rfl
    rw [extraText_eq ms, if_neg hm, both, e0]
    have ha := bracket_arr [objText fm, objText ms]
    have hv : ∀ v ∈ [objText fm, objText ms], JVal v := by
      intro v hv
      simp only [List.mem_cons, List.not_mem_nil, or_false] at hv
      rcases hv with rfl | rfl
      · exact obj_jval of
      · exact obj_jval om
    have hh := here_parse (arr_jval ha hv)
    obtain ⟨⟨r, h1⟩, ⟨r', h2⟩, -⟩ := arr_walk ha hv hh
    have h0 : isArr (parse (bracket 0x5B#8 0x5D#8 [objText fm, objText ms])) = true := by rw [isArr, hh.head rfl]; decide
    have e : gjExtra true (some (bracket 0x5B#8 0x5D#8 [objText fm, objText ms])) =
        (Json.ensure (Json.first (parse (bracket 0x5B#8 0x5D#8 [objText fm, objText ms]))),
          Json.ensure (Json.next (Json.ensure (Json.first (parse (bracket 0x5B#8 0x5D#8 [objText fm, objText ms])))))) := by
      simp only [gjExtra, h0, if_true]
    rw [e]
    refine ⟨.inr ⟨r, h1.ensure⟩, .inr ⟨hm, r', ?_⟩⟩
    rw [h1.next] at h2
    dsimp only
    rw [h1.ensure.next]
    exact h2.ensure

/-! ### Geometries with foreign members -/

theorem foreign_json {names : List String} {ms : List (List Byte × List Byte)} (h : Foreign names ms) : ∀ m ∈ ms, Str m.1 ∧ ∃ n, Val Str n m.2 := fun m hm => ⟨(h m hm).1, (h m hm).2.1⟩

theorem others_foreign {names : List String} : ∀ {ms : List (List Byte × List Byte)}, Foreign names ms → others names ms = ms
  | [], _ => rfl
  | m :: ms, h => by rw [others_else (h m (by simp)).2.2, others_foreign fun x hx => h x (by simp [hx])]

/-- The two members of the writer. -/
abbrev two (name field : String) (c : List Byte) : List (List Byte × List Byte) := [(quoted "type", quoted name), (quoted field, c)]

theorem two_json {name field : String} {c : List Byte} {ms : List (List Byte × List Byte)} (h1 : Plain (txt name)) (h2 : Plain (txt field)) (hc : JVal c)
    (h : Foreign ["type", field] ms) : ∀ m ∈ two name field c ++ ms, Str m.1 ∧ ∃ n, Val Str n m.2 := by
  intro m hm
  rcases List.mem_append.1 hm with hm | hm
  swap
  · exact foreign_json h m hm
  simp only [two, List.mem_cons, List.not_mem_nil, or_false] at hm
  rcases hm with rfl | rfl
  · exact ⟨plain_str type_plain, 1, (plain_fits h1).1⟩
  · exact ⟨plain_str h2, hc⟩

theorem two_type {name field : String} {c : List Byte} {ms : List (List Byte × List Byte)} (h1 : Plain (txt name)) (h2 : Plain (txt field)) (h3 : txt field ≠ txt "type") (hc : JVal c)
    (h : Foreign ["type", field] ms) : TypeObj name field c (objText (two name field c ++ ms)) := by
  refine ⟨_, _, objText_obj (two_json h1 h2 hc h), ⟨[], _, _, rfl, named_self type_plain, ?_⟩, named_self h1, ⟨[_], _, ms, rfl, named_self h2, ?_⟩⟩
  · intro m hm
    rcases List.mem_cons.1 hm with rfl | hm
    · exact named_other h2 h3
    · exact (h m hm).2.2 _ (by simp)
  · intro m hm
    simp only [List.cons_append, List.nil_append, List.mem_cons] at hm
    rcases hm with rfl | hm
    · exact named_other type_plain (Ne.symm h3)
    · exact (h m hm).2.2 _ (by simp)

theorem two_others {name field : String} {c : List Byte} {ms : List (List Byte × List Byte)} (h2 : Plain (txt field)) (h : Foreign ["type", field] ms) :
    others ["type", field] (two name field c ++ ms) = ms := by
  rw [List.cons_append, others_named (s := "type") (by simp) (named_self type_plain), List.cons_append, others_named (s := field) (by simp) (named_self h2), List.nil_append, others_foreign h]

section
variable {N : List Byte → F64 → Prop} {num : F64 → List Byte}

/-- The text of a geometry that is not a collection. -/
theorem text_parts : ∀ (v : GV), (∀ gs, v ≠ .coll gs) → Wkt.Wf v → Wkt.AllCoords (Ok N num) v →
    ∃ name c, Plain (txt name) ∧ text num v = obj name "coordinates" c ∧ JVal c ∧ ∀ t, TypeObj name "coordinates" c t → IsGeometry N v t
  | .point z m (some p), _, hw, hc => by
    rw [Wkt.Wf] at hw; rw [Wkt.AllCoords] at hc
    exact ⟨"Point", _, by decide, rfl, ⟨_, (posn_fits hc).1⟩, fun t h => ⟨_, h, posn_text hc (posOk_le hw)⟩⟩
  | .point z m none, _, _, _ => ⟨"Point", _, by decide, rfl, ⟨_, brackets_fits.1⟩, fun t h => ⟨_, h, bracket_arr []⟩⟩
  | .line z m ps, _, hw, hc => by
    rw [Wkt.Wf] at hw; rw [Wkt.AllCoords] at hc
    refine ⟨"LineString", _, by decide, rfl, ⟨_, (series_fits hc).1⟩, fun t h => ⟨_, h, list_text fun p hp => posn_text (hc p hp) (posOk_le (z := z) (m := m) ?_)⟩⟩
    rcases hw with rfl | hw
    · simp at hp
    · exact hw.2 p hp
  | .poly z m rs, _, hw, hc => by
    rw [Wkt.Wf] at hw; rw [Wkt.AllCoords] at hc
    exact ⟨"Polygon", _, by decide, rfl, ⟨_, (nested_fits hc).1⟩, fun t h => ⟨_, h, list_text fun r hr => list_text fun p hp => posn_text (hc r hr p hp) (posOk_le ((hw r hr).2.1 p hp))⟩⟩
  | .mpoint z m ps, _, hw, hc => by
    rw [Wkt.Wf] at hw; rw [Wkt.AllCoords] at hc
    exact ⟨"MultiPoint", _, by decide, rfl, ⟨_, (series_fits hc).1⟩, fun t h => ⟨_, h, list_text fun p hp => posn_text (hc p hp) (posOk_le (hw p hp))⟩⟩
  | .mline z m ls, _, hw, hc => by
    rw [Wkt.Wf] at hw; rw [Wkt.AllCoords] at hc
    exact ⟨"MultiLineString", _, by decide, rfl, ⟨_, (nested_fits hc).1⟩, fun t h => ⟨_, h, list_text fun r hr => list_text fun p hp => posn_text (hc r hr p hp) (posOk_le ((hw r hr).2 p hp))⟩⟩
  | .mpoly z m ps, _, hw, hc => by
    rw [Wkt.Wf] at hw; rw [Wkt.AllCoords] at hc
    exact ⟨"MultiPolygon", _, by decide, rfl, ⟨_, (nested2_fits hc).1⟩, fun t h => ⟨_, h, list_text fun s hs => list_text fun r hr => list_text fun p hp =>
      posn_text (hc s hs r hr p hp) (posOk_le (((hw s hs).2 r hr).2.1 p hp))⟩⟩
  | .coll gs, h, _, _ => absurd rfl (h gs)

/-- Neither a Feature nor with extra JSON. -/
def plainOf : Geom → Geom
  | .point fl p => .point { fl with isFeature := false, isFeatureCol := false } p
  | .line fl p => .line { fl with isFeature := false, isFeatureCol := false } p
  | .poly fl p => .poly { fl with isFeature := false, isFeatureCol := false } p
  | .gpoint fl p z m _ => .gpoint { fl with isFeature := false, isFeatureCol := false } p z m none
  | .gline fl l c _ => .gline { fl with isFeature := false, isFeatureCol := false } l c none
  | .gpoly fl l c _ => .gpoly { fl with isFeature := false, isFeatureCol := false } l c none
  | .mpoint fl l c _ => .mpoint { fl with isFeature := false, isFeatureCol := false } l c none
  | .mline fl l c _ => .mline { fl with isFeature := false, isFeatureCol := false } l c none
  | .mpoly fl l c _ => .mpoly { fl with isFeature := false, isFeatureCol := false } l c none
  | .coll fl h gs c _ => .coll { fl with isFeature := false } h gs c none
  | .err e => .err e

theorem view_plain (g : Geom) : view (plainOf g) = view g := by cases g <;> rfl

theorem baseT_none {fl : Flags} (h : fl.isFeature = false) (t : List Byte) : baseT fl none t = t := by
  simp [baseT, h, gjExtra, extraT, Json.isObj, Json.head]

theorem jsonT_boxed {g : Geom} (h : Boxed g) : jsonT num g = baseT g.flags (Spec.Geojson.extraOf g) (jsonT num (plainOf g)) := by
  cases g <;> first | exact absurd h id | (rw [plainOf, jsonT, jsonT, baseT_none rfl]; rfl)

theorem jsonT_base {g : Geom} (h : ¬ Boxed g) (he : ∀ e, g ≠ .err e) : jsonT num g = featT g.flags (jsonT num (plainOf g)) := by
  cases g <;> first | exact absurd rfl (he _) | exact absurd trivial h | (rw [plainOf, jsonT, jsonT]; exact congrArg _ (featT_plain rfl _).symm)

/-- Not a collection. -/
def Single : Geom → Prop
  | .coll .. | .err _ => False
  | _ => True

theorem plain_bare {g : Geom} (hs : Single g) (hd : Dressed g) : Bare (plainOf g) := by
  cases g <;> simp only [Single] at hs <;> simp only [plainOf, Bare, BareFlags, and_self, true_and] <;> simp only [Dressed] at hd <;> exact hd.2

theorem single_view {g : Geom} {v : GV} (hs : Single g) (hv : view g = some v) : ∀ gs, v ≠ .coll gs := by
  rintro gs rfl
  cases g <;> simp only [Single] at hs <;> simp only [view] at hv <;> (repeat' split at hv) <;> simp_all

/-- What is written of a geometry, and that it is read with any members. -/
structure Parts (N : List Byte → F64 → Prop) (num : F64 → List Byte) (g : Geom) (v : GV) (name field : String) (c : List Byte) : Prop where
  plain : Plain (txt name)
  member : Plain (txt field)
  other : txt field ≠ txt "type"
  body : jsonT num (plainOf g) = objText (two name field c)
  json : JVal c
  stores : Stores ["type", field] (Spec.Geojson.extraOf g)
  reads : ∀ ms, Foreign ["type", field] ms → (Boxed g ∨ ms = []) → IsGeometry N v (objText (two name field c ++ ms)) ∧ Keeps (objText (two name field c ++ ms)) (withExtra (extraText ms) g)

/-- With extra JSON, but no Feature. -/
def unfeat : Geom → Geom
  | .point fl p => .point { fl with isFeature := false } p
  | .line fl p => .line { fl with isFeature := false } p
  | .poly fl p => .poly { fl with isFeature := false } p
  | .gpoint fl p z m x => .gpoint { fl with isFeature := false } p z m x
  | .gline fl l c x => .gline { fl with isFeature := false } l c x
  | .gpoly fl l c x => .gpoly { fl with isFeature := false } l c x
  | .mpoint fl l c x => .mpoint { fl with isFeature := false } l c x
  | .mline fl l c x => .mline { fl with isFeature := false } l c x
  | .mpoly fl l c x => .mpoly { fl with isFeature := false } l c x
  | .coll fl h gs c x => .coll { fl with isFeature := false } h gs c x
  | .err e => .err e

theorem boxed_unfeat (g : Geom) : Boxed (unfeat g) ↔ Boxed g := by cases g <;> rfl
theorem plain_unfeat (g : Geom) : plainOf (unfeat g) = plainOf g := by cases g <;> rfl
theorem extra_unfeat (g : Geom) : Spec.Geojson.extraOf (unfeat g) = Spec.Geojson.extraOf g := by cases g <;> rfl
theorem flag_unfeat (g : Geom) : (unfeat g).flags.isFeature = false := by cases g <;> rfl
theorem flags_self {fl : Flags} (h : fl.isFeature = false) : { fl with isFeature := false } = fl := by cases fl; simp only at h; subst h; rfl
theorem unfeat_self {g : Geom} (h : g.flags.isFeature = false) : unfeat g = g := by
  cases g <;> simp only [Geom.flags] at h <;> first | rfl | (rw [unfeat, flags_self h])

theorem single_parts {g : Geom} {v : GV} (hs : Single g) (hv : view g = some v) (hw : Wkt.Wf v) (hc : Wkt.AllCoords (Ok N num) v) (hd : Dressed g) :
    ∃ name c, Parts N num g v name "coordinates" c := by
  obtain ⟨name, c, h1, h2, h3, h4⟩ := text_parts v (single_view hs hv) hw hc
  refine ⟨name, c, h1, coord_plain, by decide, ?_, h3, ?_, fun ms hm hb => ⟨h4 _ (two_type h1 coord_plain (by decide) h3 hm), ?_⟩⟩
  · rw [jsonT_view num (plainOf g) v (by rw [view_plain, hv]) (plain_bare hs hd), h2, obj_objText]
  · cases g <;> simp only [Single] at hs <;> simp only [Dressed] at hd <;> first | exact hd | exact hd.1 | exact ⟨[], fun _ h => absurd h (by simp), rfl⟩
  · have ho := objText_obj (two_json h1 coord_plain h3 hm)
    have e := two_others (name := name) (c := c) coord_plain hm
    cases g <;> simp only [Single] at hs <;> simp only [withExtra, Keeps, Spec.Geojson.extraOf] <;> refine ⟨_, ho, ?_⟩ <;> rw [e]
    all_goals
      rcases hb with hb | rfl
      · exact absurd hb id
      · rfl

theorem parts_text {g : Geom} {v : GV} {name field : String} {c : List Byte} (h : Parts N num g v name field c) (hf : g.flags.isFeature = false) (he : ∀ e, g ≠ .err e)
    {ms : List (List Byte × List Byte)} (hm : Foreign ["type", field] ms) (hx : Spec.Geojson.extraOf g = extraText ms) : jsonT num g = objText (two name field c ++ ms) ∧ (Boxed g ∨ ms = []) := by
  have hb : Boxed g ∨ ms = [] := by
    by_cases hb : Boxed g
    · exact .inl hb
    · right
      have : Spec.Geojson.extraOf g = none := by cases g <;> first | rfl | exact absurd trivial hb
      rw [this, extraText_eq] at hx
      by_contra hms
      rw [if_neg hms] at hx
      cases hx
  refine ⟨?_, hb⟩
  by_cases hbx : Boxed g
  · rw [jsonT_boxed hbx, hx, baseT, hf, h.body]
    simp only [Bool.false_eq_true, if_false, Bool.false_and, List.nil_append, List.append_nil]
    exact extraT_stored (fm := two name field c) (by simp) (foreign_json hm) (gjExtra_plain (foreign_json hm)).2
  · rw [hb.resolve_left hbx, List.append_nil, jsonT_base hbx he, featT_plain hf, h.body]

/-- A geometry that is not a Feature. -/
theorem parts_json {g : Geom} {v : GV} {name field : String} {c : List Byte} (h : Parts N num g v name field c) (hf : g.flags.isFeature = false) (he : ∀ e, g ≠ .err e) :
    IsGeometry N v (jsonT num g) ∧ Keeps (jsonT num g) g ∧ JVal (jsonT num g) := by
  obtain ⟨ms, hm, hx⟩ := h.stores
  obtain ⟨e, hb⟩ := parts_text h hf he hm hx
  obtain ⟨h1, h2⟩ := h.reads ms hm hb
  rw [← hx, xjson_eq, withExtra_self] at h2
  rw [e]
  exact ⟨h1, h2, obj_jval (objText_obj (two_json h.plain h.member h.json hm))⟩

/-- The text inside a Feature. -/
theorem parts_inside {g : Geom} {v : GV} {name field : String} {c : List Byte} (h : Parts N num g v name field c) (he : ∀ e, g ≠ .err e)
    {ms : List (List Byte × List Byte)} (hm : Foreign ["type", field] ms) (hx : Spec.Geojson.extraOf g = extraText ms) : jsonT num (unfeat g) = objText (two name field c ++ ms) := by
  by_cases hb : Boxed g
  · rw [jsonT_boxed ((boxed_unfeat g).2 hb), extra_unfeat, plain_unfeat, hx, baseT, flag_unfeat, h.body]
    simp only [Bool.false_eq_true, if_false, Bool.false_and, List.nil_append, List.append_nil]
    exact extraT_stored (fm := two name field c) (by simp) (foreign_json hm) (gjExtra_plain (foreign_json hm)).2
  · have hms : ms = [] := by
      have : Spec.Geojson.extraOf g = none := by cases g <;> first | rfl | exact absurd trivial hb
      rw [this, extraText_eq] at hx
      by_contra hms
      rw [if_neg hms] at hx
      cases hx
    rw [hms, List.append_nil, jsonT_base (fun h => hb ((boxed_unfeat g).1 h)) (by intro e h; cases g <;> first | exact absurd rfl (he _) | cases h), featT_plain (flag_unfeat g), plain_unfeat, h.body]

theorem coll_parts {fl : Flags} {hasMulti : Bool} {gs : List Geom} {cs : List F64} {x : Option (List Byte)} {vs : List GV} (hx : Stores ["type", "geometries"] x) (hf : fl.isFeatureCol = false)
    (hts : (if hasMulti then jsonTs num gs else []) = jsonTs num gs) (h1 : AreGeometries N vs (jsonTs num gs)) (h2 : KeepAll (jsonTs num gs) gs) (h3 : ∀ t ∈ jsonTs num gs, JVal t) :
    Parts N num (.coll fl hasMulti gs cs x) (.coll vs) "GeometryCollection" "geometries" (bracket 0x5B#8 0x5D#8 (jsonTs num gs)) := by
  have hp : Plain (txt "geometries") := by decide
  have hq : Plain (txt "GeometryCollection") := by decide
  have hj : JVal (bracket 0x5B#8 0x5D#8 (jsonTs num gs)) := arr_jval (bracket_arr _) h3
  refine ⟨hq, hp, by decide, ?_, hj, hx, fun ms hm _ => ?_⟩
  · have e : txt "{\"type\":\"GeometryCollection\",\"geometries\":" = txt "{\"type\":\"" ++ (txt "GeometryCollection" ++ (txt "\",\"" ++ (txt "geometries" ++ txt "\":"))) := by decide
    rw [plainOf, jsonT, baseT_none rfl, hts, ← obj_objText]
    dsimp only
    rw [hf, if_neg (by decide), e, Geojson.obj, show txt "}" = [0x7D#8] from rfl]
    simp only [List.append_assoc]
  · have ht := two_type hq hp (by decide) hj hm
    have ho := objText_obj (two_json hq hp hj hm)
    have e := two_others (name := "GeometryCollection") (c := bracket 0x5B#8 0x5D#8 (jsonTs num gs)) hp hm
    refine ⟨⟨_, _, ht, bracket_arr _, h1⟩, ?_⟩
    rw [withExtra, Keeps]
    refine ⟨_, _, _, ho, ⟨[_], _, ms, rfl, named_self hp, ?_⟩, bracket_arr _, by rw [e], h2⟩
    intro m hm'
    rcases List.mem_cons.1 hm' with rfl | hm'
    · exact named_other type_plain (by decide)
    · exact (hm m hm').2.2 _ (by simp)

mutual
theorem dressed_parts : ∀ (g : Geom) (v : GV), view g = some v → Wkt.Wf v → Wkt.AllCoords (Ok N num) v → Dressed g → ∃ name field c, Parts N num g v name field c
  | .coll fl hasMulti gs cs x, v, hv, hw, hc, hd => by
    rw [Dressed] at hd
    obtain ⟨hx, hf, he, hg⟩ := hd
    obtain ⟨vs, rfl, hvs, hts⟩ : ∃ vs, v = .coll vs ∧ views gs = some vs ∧ (if hasMulti then jsonTs num gs else []) = jsonTs num gs := by
      rw [view] at hv
      by_cases hz : (fl.hasZ || fl.hasM) = true
      · rw [if_pos hz] at hv; simp at hv
      rw [if_neg hz] at hv
      by_cases h0 : (!hasMulti || fl.isEmpty) = true
      · rw [if_pos h0] at hv
        have hgs : gs = [] := he (by revert h0; cases hasMulti <;> simp)
        subst hgs
        refine ⟨[], by simpa using hv.symm, by simp [views], by simp [jsonTs]⟩
      · rw [if_neg h0] at hv
        have hm : hasMulti = true := by revert h0; cases hasMulti <;> simp
        cases hg : views gs with
        | none => rw [hg] at hv; simp at hv
        | some vs =>
          rw [hg] at hv
          exact ⟨vs, by simpa using hv.symm, rfl, by rw [if_pos hm]⟩
    rw [Wkt.Wf] at hw; rw [Wkt.AllCoords] at hc
    obtain ⟨h1, h2, h3⟩ := dressed_all gs vs hvs hw hc hg
    exact ⟨_, _, _, coll_parts hx hf hts h1 h2 h3⟩
  | .point _ _, v, hv, hw, hc, hd => by obtain ⟨a, b, h⟩ := single_parts (by trivial) hv hw hc hd; exact ⟨a, _, b, h⟩
  | .line _ _, v, hv, hw, hc, hd => by obtain ⟨a, b, h⟩ := single_parts (by trivial) hv hw hc hd; exact ⟨a, _, b, h⟩
  | .poly _ _, v, hv, hw, hc, hd => by obtain ⟨a, b, h⟩ := single_parts (by trivial) hv hw hc hd; exact ⟨a, _, b, h⟩
  | .gpoint _ _ _ _ _, v, hv, hw, hc, hd => by obtain ⟨a, b, h⟩ := single_parts (by trivial) hv hw hc hd; exact ⟨a, _, b, h⟩
  | .gline _ _ _ _, v, hv, hw, hc, hd => by obtain ⟨a, b, h⟩ := single_parts (by trivial) hv hw hc hd; exact ⟨a, _, b, h⟩
  | .gpoly _ _ _ _, v, hv, hw, hc, hd => by obtain ⟨a, b, h⟩ := single_parts (by trivial) hv hw hc hd; exact ⟨a, _, b, h⟩
  | .mpoint _ _ _ _, v, hv, hw, hc, hd => by obtain ⟨a, b, h⟩ := single_parts (by trivial) hv hw hc hd; exact ⟨a, _, b, h⟩
  | .mline _ _ _ _, v, hv, hw, hc, hd => by obtain ⟨a, b, h⟩ := single_parts (by trivial) hv hw hc hd; exact ⟨a, _, b, h⟩
  | .mpoly _ _ _ _, v, hv, hw, hc, hd => by obtain ⟨a, b, h⟩ := single_parts (by trivial) hv hw hc hd; exact ⟨a, _, b, h⟩
  | .err _, _, hv, _, _, _ => by simp [view] at hv
theorem dressed_all : ∀ (gs : List Geom) (vs : List GV), views gs = some vs → Wkt.Wfs vs → Wkt.AllCoordss (Ok N num) vs → Dresseds gs →
    AreGeometries N vs (jsonTs num gs) ∧ KeepAll (jsonTs num gs) gs ∧ ∀ t ∈ jsonTs num gs, JVal t
  | [], vs, hv, _, _, _ => by
    simp [views] at hv; subst hv
    exact ⟨by simp [AreGeometries, jsonTs], by simp [KeepAll, jsonTs], by simp [jsonTs]⟩
  | g :: gs, vs, hv, hw, hc, hd => by
    rw [views] at hv
    rw [Dresseds] at hd
    cases h1 : view g with
    | none => rw [h1] at hv; simp at hv
    | some v =>
      cases h2 : views gs with
      | none => rw [h1, h2] at hv; simp at hv
      | some vs' =>
        rw [h1, h2] at hv; simp at hv; subst hv
        rw [Wkt.Wfs] at hw; rw [Wkt.AllCoordss] at hc
        obtain ⟨name, field, c, hp⟩ := dressed_parts g v h1 hw.1 hc.1 hd.2.1
        obtain ⟨a1, a2, a3⟩ := parts_json hp hd.1 (by rintro e rfl; simp [view] at h1)
        obtain ⟨b1, b2, b3⟩ := dressed_all gs vs' h2 hw.2 hc.2 hd.2.2
        rw [jsonTs]
        refine ⟨⟨_, _, rfl, a1, b1⟩, ⟨_, _, rfl, a2, b2⟩, fun t ht => ?_⟩
        rcases List.mem_cons.1 ht with rfl | ht
        · exact a3
        · exact b3 t ht
end

mutual
theorem geometry_zForM : ∀ (v : GV) (t : List Byte), IsGeometry N (zForM v) t ↔ IsGeometry N v t
  | .point _ _ (some _), t | .point _ _ none, t | .line _ _ _, t | .poly _ _ _, t | .mpoint _ _ _, t | .mline _ _ _, t | .mpoly _ _ _, t => by simp only [zForM, IsGeometry]
  | .coll gs, t => by simp only [zForM, IsGeometry, geometries_zForM gs]
theorem geometries_zForM : ∀ (vs : List GV) (ts : List (List Byte)), AreGeometries N (zForMs vs) ts ↔ AreGeometries N vs ts
  | [], ts => by rw [zForMs]
  | v :: vs, ts => by simp only [zForMs, AreGeometries, geometry_zForM v, geometries_zForM vs]
end

end

/-! ### What is read is determined by the text -/

theorem obj_unique {ms ms' : List (List Byte × List Byte)} {t : List Byte} (h : Spec.Geojson.IsObj ms t) (h' : Spec.Geojson.IsObj ms' t) : ms = ms' := by
  have hj := jval_here (obj_jval h)
  exact mem_unique (obj_pairs h hj) (obj_pairs h' hj)

theorem arr_unique {vs vs' : List (List Byte)} {t : List Byte} (h : IsArr vs t) (h' : IsArr vs' t) (hv : ∀ v ∈ vs, JVal v) (hv' : ∀ v ∈ vs', JVal v) : vs = vs' := by
  have hj := jval_here (arr_jval h hv)
  exact walk_unique (arr_walk h hv hj) (arr_walk h' hv' hj)

theorem member_unique {ms : List (List Byte × List Byte)} {s : String} {c c' : List Byte} (h : Member ms s c) (h' : Member ms s c') : c = c' := by
  obtain ⟨a, k, b, rfl, hk, hn⟩ := h
  obtain ⟨a', k', b', e, hk', -⟩ := h'
  have : (k', c') ∈ a ++ (k, c) :: b := by rw [e]; simp
  rcases List.mem_append.1 this with h | h
  · exact absurd hk' (hn (k', c') (List.mem_append.2 (.inl h)))
  · rcases List.mem_cons.1 h with h | h
    · cases h; rfl
    · exact absurd hk' (hn (k', c') (List.mem_append.2 (.inr h)))

theorem keeps_jval {t : List Byte} {g : Geom} (h : Keeps t g) : JVal t := by
  cases g <;> simp only [Keeps] at h
  case coll => obtain ⟨ms, -, -, h, -⟩ := h; exact obj_jval h
  all_goals obtain ⟨ms, h, -⟩ := h; exact obj_jval h

theorem keepAll_jval : ∀ {gs : List Geom} {ts : List (List Byte)}, KeepAll ts gs → ∀ t ∈ ts, JVal t
  | [], ts, h => by rw [KeepAll] at h; subst h; simp
  | g :: gs, ts, h => by
    obtain ⟨t, ts', rfl, h1, h2⟩ := h
    intro u hu
    rcases List.mem_cons.1 hu with rfl | hu
    · exact keeps_jval h1
    · exact keepAll_jval h2 u hu

theorem views_cons {g : Geom} {gs : List Geom} {us : List GV} (h : views (g :: gs) = some us) : ∃ v vs, us = v :: vs ∧ view g = some v ∧ views gs = some vs := by
  rw [views] at h
  cases h1 : view g with
  | none => rw [h1] at h; simp at h
  | some v =>
    cases h2 : views gs with
    | none => rw [h1, h2] at h; simp at h
    | some vs => rw [h1, h2] at h; exact ⟨v, vs, by simpa using h.symm, rfl, rfl⟩

theorem views_nil {gs : List Geom} (h : views gs = some []) : gs = [] := by
  cases gs with
  | nil => rfl
  | cons g gs => obtain ⟨v, vs, e, -⟩ := views_cons h; cases e

theorem reread_coll {v : GV} {vs : List GV} (h : reread (zForM v) = .coll vs) : ∃ us, v = .coll us ∧ vs = rereads (zForMs us) := by
  match v with
  | .point _ _ (some _) => simp [zForM, reread] at h
  | .point _ _ none => simp [zForM, reread] at h
  | .line _ _ _ => simp only [zForM, reread] at h; split at h <;> cases h
  | .poly _ _ _ => simp only [zForM, reread] at h; split at h <;> cases h
  | .mpoint _ _ _ => simp only [zForM, reread] at h; split at h <;> cases h
  | .mline _ _ _ => simp only [zForM, reread] at h; split at h <;> cases h
  | .mpoly _ _ _ => simp only [zForM, reread] at h; split at h <;> cases h
  | .coll us => simp only [zForM, reread, GV.coll.injEq] at h; exact ⟨us, rfl, h.symm⟩

theorem coll_view {fl : Flags} {b : Bool} {gs : List Geom} {cs : List F64} {x : Option (List Byte)} {v : GV} (h : view (.coll fl b gs cs x) = some v) :
    ∃ vs, v = .coll vs ∧ (vs = [] ∨ views gs = some vs) := by
  rw [view] at h
  split at h
  · cases h
  · split at h
    · exact ⟨[], by simpa using h.symm, .inl rfl⟩
    · cases hg : views gs with
      | none => rw [hg] at h; simp at h
      | some vs => rw [hg] at h; exact ⟨vs, by simpa using h.symm, .inr rfl⟩

theorem view_coll {g : Geom} {vs : List GV} (h : view g = some (.coll vs)) : ∃ fl b gs cs x, g = .coll fl b gs cs x := by
  cases g
  case coll fl b gs cs x => exact ⟨_, _, _, _, _, rfl⟩
  case err => simp [view] at h
  all_goals exact absurd rfl (single_view (by trivial) h vs)

theorem single_same {g g' : Geom} {t : List Byte} {v : GV} (hs : Single g) (h : Keeps t g) (h' : Keeps t g') (hv : view g = some v) (hv' : view g' = some (reread (zForM v))) :
    SameExtra g g' := by
  have hs' : Single g' := by
    cases g'
    case coll =>
      obtain ⟨vs, e, -⟩ := coll_view hv'
      obtain ⟨us, e, -⟩ := reread_coll e
      exact absurd e (single_view hs hv us)
    case err => simp [view] at hv'
    all_goals trivial
  have key : ∀ {g : Geom}, Single g → Keeps t g → ∃ ms, Spec.Geojson.IsObj ms t ∧ Spec.Geojson.extraOf g = extraText (others ["type", "coordinates"] ms) := by
    intro g hs h
    cases g <;> simp only [Single] at hs <;> simpa only [Keeps] using h
  obtain ⟨ms, h1, h2⟩ := key hs h
  obtain ⟨ms', h3, h4⟩ := key hs' h'
  have e : Spec.Geojson.extraOf g = Spec.Geojson.extraOf g' := by rw [h2, h4, obj_unique h1 h3]
  cases g <;> simp only [Single] at hs <;> simpa only [SameExtra] using e

mutual
theorem keeps_same : ∀ (g g' : Geom) (t : List Byte) (v : GV), Keeps t g → Keeps t g' → view g = some v → view g' = some (reread (zForM v)) → Dressed g → SameExtra g g'
  | .coll fl b gs cs x, g', t, v, h, h', hv, hv', hd => by
    obtain ⟨vs, rfl, hvs⟩ := coll_view hv
    rw [zForM, reread] at hv'
    obtain ⟨fl', b', gs', cs', x', rfl⟩ := view_coll hv'
    obtain ⟨vs', e', hvs'⟩ := coll_view hv'
    rw [GV.coll.injEq] at e'
    subst e'
    rw [Keeps] at h h'
    obtain ⟨ms, c, ts, h1, h2, h3, h4, h5⟩ := h
    obtain ⟨ms', c', ts', k1, k2, k3, k4, k5⟩ := h'
    obtain rfl := obj_unique h1 k1
    obtain rfl := member_unique h2 k2
    obtain rfl := arr_unique h3 k3 (keepAll_jval h5) (keepAll_jval k5)
    rw [Dressed] at hd
    rw [SameExtra]
    refine ⟨fl', b', gs', cs', by rw [h4, k4], ?_⟩
    have hgs : vs = [] → gs = [] := by
      rintro rfl
      rcases hvs with - | hvs
      · rw [view] at hv
        split at hv
        · cases hv
        · split at hv
          · rename_i h0
            exact hd.2.2.1 (by revert h0; cases b <;> simp)
          · cases hg : views gs with
            | none => rw [hg] at hv; simp at hv
            | some us =>
              rw [hg] at hv
              simp at hv
              subst hv
              exact views_nil hg
      · exact views_nil hvs
    by_cases hv0 : vs = []
    · have := hgs hv0
      subst this
      rw [KeepAll] at h5
      subst h5
      have : gs' = [] := by
        cases gs' with
        | nil => rfl
        | cons g gs' => obtain ⟨t, ts', e, -⟩ := k5; cases e
      rw [SameExtras, this]
    · refine keepAll_same gs gs' ts vs h5 k5 (hvs.resolve_left hv0) (hvs'.resolve_left ?_) hd.2.2.2
      cases vs with
      | nil => exact absurd rfl hv0
      | cons v vs => simp [zForMs, rereads]
  | .point _ _, g', t, v, h, h', hv, hv', _ => single_same trivial h h' hv hv'
  | .line _ _, g', t, v, h, h', hv, hv', _ => single_same trivial h h' hv hv'
  | .poly _ _, g', t, v, h, h', hv, hv', _ => single_same trivial h h' hv hv'
  | .gpoint _ _ _ _ _, g', t, v, h, h', hv, hv', _ => single_same trivial h h' hv hv'
  | .gline _ _ _ _, g', t, v, h, h', hv, hv', _ => single_same trivial h h' hv hv'
  | .gpoly _ _ _ _, g', t, v, h, h', hv, hv', _ => single_same trivial h h' hv hv'
  | .mpoint _ _ _ _, g', t, v, h, h', hv, hv', _ => single_same trivial h h' hv hv'
  | .mline _ _ _ _, g', t, v, h, h', hv, hv', _ => single_same trivial h h' hv hv'
  | .mpoly _ _ _ _, g', t, v, h, h', hv, hv', _ => single_same trivial h h' hv hv'
  | .err _, _, _, _, _, _, hv, _, _ => by simp [view] at hv
theorem keepAll_same : ∀ (gs gs' : List Geom) (ts : List (List Byte)) (vs : List GV), KeepAll ts gs → KeepAll ts gs' → views gs = some vs → views gs' = some (rereads (zForMs vs)) →
    Dresseds gs → SameExtras gs gs'
  | [], gs', ts, vs, h, h', _, _, _ => by
    rw [KeepAll] at h; subst h
    rw [SameExtras]
    cases gs' with
    | nil => rfl
    | cons g gs' => obtain ⟨t, ts', e, -⟩ := h'; cases e
  | g :: gs, gs', ts, vs, h, h', hv, hv', hd => by
    obtain ⟨t, ts, rfl, h1, h2⟩ := h
    cases gs' with
    | nil => rw [KeepAll] at h'; cases h'
    | cons g' gs' =>
      obtain ⟨t', ts', e, k1, k2⟩ := h'
      cases e
      rw [Dresseds] at hd
      obtain ⟨v, vs, rfl, a1, a2⟩ := views_cons hv
      obtain ⟨v', vs', e, b1, b2⟩ := views_cons hv'
      rw [zForMs, rereads] at e
      cases e
      exact ⟨g', gs', rfl, keeps_same g g' t v h1 k1 a1 b1 hd.2.1, keepAll_same gs gs' ts vs h2 k2 a2 b2 hd.2.2⟩
end

/-! ### Features -/

open Classical in
/-- The members with the name `id`. -/
noncomputable abbrev ids (ms : List (List Byte × List Byte)) : List (List Byte × List Byte) := ms.filter fun m => decide (Named m.1 "id")
open Classical in
/-- The others. -/
noncomputable abbrev rest (ms : List (List Byte × List Byte)) : List (List Byte × List Byte) := ms.filter fun m => decide (¬ Named m.1 "id")
open Classical in
/-- The properties that the writer adds. -/
noncomputable def added (np : Bool) (ms : List (List Byte × List Byte)) : List (List Byte × List Byte) :=
  if ∃ m ∈ ms, Named m.1 "properties" then [] else [(quoted "properties", txt (if np then "null" else "{}"))]

theorem idFirst_eq (ms : List (List Byte × List Byte)) : idFirst ms = ids ms ++ rest ms := rfl

theorem rest_pos {m : List Byte × List Byte} (h : ¬ Named m.1 "id") (ms : List (List Byte × List Byte)) : rest (m :: ms) = m :: rest ms := by
  rw [rest, List.filter_cons_of_pos (by simpa using h)]
theorem rest_neg {m : List Byte × List Byte} (h : Named m.1 "id") (ms : List (List Byte × List Byte)) : rest (m :: ms) = rest ms := by
  rw [rest, List.filter_cons_of_neg (by simpa using h)]

theorem find_id {ps : List (Option J × Option J)} {ms : List (List Byte × List Byte)} (h : List.Forall₂ IsMem ps ms) (hs : ∀ m ∈ ms, Str m.1) :
    (ids ms = [] → ps.find? (fun p => strEq p.1 (txt "id")) = none) ∧
    ∀ m l, ids ms = m :: l → ∃ p, ps.find? (fun p => strEq p.1 (txt "id")) = some p ∧ IsMem p m := by
  induction h with
  | nil => exact ⟨fun _ => rfl, fun m l e => by simp at e⟩
  | @cons p m ps ms h1 h2 ih =>
    have ih := ih fun x hx => hs x (by simp [hx])
    by_cases hn : Named m.1 "id"
    · have e := (mem_strEq h1 (hs m (by simp)) ascii_id).2 hn
      rw [ids, List.filter_cons_of_pos (by simpa using hn), List.find?_cons_of_pos (p := fun p : Option J × Option J => strEq p.1 (txt "id")) e]
      refine ⟨fun h => by simp at h, fun m' l e => ?_⟩
      cases e
      exact ⟨p, rfl, h1⟩
    · have e := mem_strEq_not h1 (hs m (by simp)) ascii_id hn
      rw [ids, List.filter_cons_of_neg (by simpa using hn), List.find?_cons_of_neg (by simp [e])]
      exact ih

theorem pairs_text {ps : List (Option J × Option J)} {ms : List (List Byte × List Byte)} (h : List.Forall₂ IsMem ps ms)
    (hs : ∀ m ∈ ms, (Named m.1 "id" → m.1 = txt "\"id\"") ∧ (Named m.1 "properties" → m.1 = txt "\"properties\"")) :
    pairsT ps = eachAfter 0x2C#8 ((rest ms).map enc) ∧ (pairsP ps = true ↔ ∃ m ∈ ms, Named m.1 "properties") := by
  induction h with
  | nil => exact ⟨rfl, by simp [pairsP]⟩
  | @cons p m ps ms h1 h2 ih =>
    obtain ⟨k, v⟩ := p
    obtain ⟨ih1, ih2⟩ := ih fun x hx => hs x (by simp [hx])
    obtain ⟨⟨r, -, a1⟩, r', -, a2⟩ := h1
    obtain ⟨s1, s2⟩ := hs m (by simp)
    have hp : (rawOf k == txt "\"properties\"") = true ↔ Named m.1 "properties" := by
      rw [beq_iff_eq, a1.raw]
      refine ⟨fun e => ?_, s2⟩
      rw [e]
      exact named_self (s := "properties") (by decide)
    refine ⟨?_, ?_⟩
    · rw [pairsT, a1.raw, a2.raw, ih1]
      by_cases hn : Named m.1 "id"
      · rw [if_neg (by simpa using s1 hn), rest_neg hn]
        rfl
      · have : m.1 ≠ txt "\"id\"" := by
          intro e
          rw [e] at hn
          exact hn (named_self (s := "id") (by decide))
        rw [if_pos this, rest_pos hn, List.map_cons, eachAfter, enc]
        simp
    · rw [pairsP, List.any_cons, Bool.or_eq_true]
      change (rawOf k == txt "\"properties\"") = true ∨ pairsP ps = true ↔ _
      rw [hp, ih2]
      simp

theorem once_ids {ms : List (List Byte × List Byte)} (h : Once ms "id") : ids ms = [] ∨ ∃ m, ids ms = [m] ∧ m ∈ ms ∧ Named m.1 "id" := by
  have hp : (ids ms).Pairwise fun m m' => ¬ (Named m.1 "id" ∧ Named m'.1 "id") := List.Pairwise.filter _ h
  have hn : ∀ m ∈ ids ms, m ∈ ms ∧ Named m.1 "id" := fun m hm => by simpa using List.mem_filter.1 hm
  rcases e : ids ms with _ | ⟨m, _ | ⟨m', l⟩⟩
  · exact .inl rfl
  · rw [e] at hn
    exact .inr ⟨m, rfl, hn m (by simp)⟩
  · rw [e] at hp hn
    exact absurd ⟨(hn m (by simp)).2, (hn m' (by simp)).2⟩ ((List.pairwise_cons.1 hp).1 m' (by simp))

/-- What the writer knows of the extra members of a Feature. -/
def Knows (j : Option J) (fm : List (List Byte × List Byte)) : Prop := (fm = [] ∧ j = none) ∨ ∃ r, Here j (objText fm) r

theorem head_text {j : Option J} {fm : List (List Byte × List Byte)} (hj : Knows j fm) (hf : ∀ m ∈ fm, Str m.1 ∧ ∃ n, Val Str n m.2) (h1 : Once fm "id")
    (hs : ∀ m ∈ fm, Named m.1 "id" → m.1 = txt "\"id\"") :
    featHeadT j = 0x7B#8 :: (enc (quoted "type", quoted "Feature") ++ eachAfter 0x2C#8 ((ids fm).map enc) ++ 0x2C#8 :: (quoted "geometry" ++ [0x3A#8])) := by
  have e1 : txt "{\"type\":\"Feature\"," = 0x7B#8 :: (enc (quoted "type", quoted "Feature") ++ [0x2C#8]) := by decide
  have e2 : txt "\"geometry\":" = quoted "geometry" ++ [0x3A#8] := by decide
  have none_case : (objGet j (txt "id")) = none → ids fm = [] → featHeadT j = 0x7B#8 :: (enc (quoted "type", quoted "Feature") ++ eachAfter 0x2C#8 ((ids fm).map enc) ++ 0x2C#8 :: (quoted "geometry" ++ [0x3A#8])) := by
    intro h h'
    rw [featHeadT, h, h', e1, e2]
    simp [eachAfter]
  rcases hj with ⟨rfl, rfl⟩ | ⟨r, hj⟩
  · exact none_case rfl rfl
  · have ho := objText_obj hf
    obtain ⟨f1, f2⟩ := find_id (obj_pairs ho hj) fun m hm => (hf m hm).1
    have hg := objGet_find (obj_head ho hj).2 (txt "id")
    rcases once_ids h1 with h0 | ⟨m, h0, hm, hn⟩
    · exact none_case (by rw [hg, f1 h0]; rfl) h0
    · obtain ⟨p, hp, -, r', -, hr⟩ := f2 m [] h0
      rw [hp] at hg
      change objGet j (txt "id") = p.2 at hg
      rw [featHeadT, hg, if_pos hr.isSome, hr.raw, h0, e1, e2]
      have e3 : txt "\"id\":" = txt "\"id\"" ++ [0x3A#8] := by decide
      rw [e3]
      simp [eachAfter, enc, hs m hm hn]

theorem tail_text (np : Bool) {j : Option J} {fm : List (List Byte × List Byte)} (hj : Knows j fm) (hf : ∀ m ∈ fm, Str m.1 ∧ ∃ n, Val Str n m.2)
    (hs : ∀ m ∈ fm, (Named m.1 "id" → m.1 = txt "\"id\"") ∧ (Named m.1 "properties" → m.1 = txt "\"properties\"")) :
    featTailT np j = eachAfter 0x2C#8 ((rest fm ++ added np fm).map enc) ++ [0x7D#8] := by
  have e : txt ",\"properties\":" = 0x2C#8 :: (quoted "properties" ++ [0x3A#8]) := by decide
  rcases hj with ⟨rfl, rfl⟩ | ⟨r, hj⟩
  · have h0 : ¬ ∃ m ∈ ([] : List (List Byte × List Byte)), Named m.1 "properties" := by simp
    rw [featTailT, e, added, if_neg h0]
    simp [Json.isObj, Json.head, rest, eachAfter, enc]
  · have ho := objText_obj hf
    obtain ⟨p1, p2⟩ := pairs_text (obj_pairs ho hj) hs
    rw [featTailT, (obj_head ho hj).2, if_pos rfl, p1, added, e]
    by_cases h0 : ∃ m ∈ fm, Named m.1 "properties"
    · rw [if_pos h0, Bool.true_and, if_pos (p2.2 h0)]
      simp
    · rw [if_neg h0, Bool.true_and, if_neg (fun h => h0 (p2.1 h)), List.map_append, eachAfter_append]
      simp [eachAfter, enc]

/-- The members of the Feature that is written. -/
noncomputable def written (np : Bool) (fm : List (List Byte × List Byte)) (c : List Byte) : List (List Byte × List Byte) :=
  (quoted "type", quoted "Feature") :: (ids fm ++ (quoted "geometry", c) :: (rest fm ++ added np fm))

theorem written_text (np : Bool) {j : Option J} {fm : List (List Byte × List Byte)} (hj : Knows j fm) (hf : ∀ m ∈ fm, Str m.1 ∧ ∃ n, Val Str n m.2) (h1 : Once fm "id")
    (hs : ∀ m ∈ fm, (Named m.1 "id" → m.1 = txt "\"id\"") ∧ (Named m.1 "properties" → m.1 = txt "\"properties\"")) (c : List Byte) :
    featHeadT j ++ c ++ featTailT np j = objText (written np fm c) := by
  rw [head_text hj hf h1 fun m hm => (hs m hm).1, tail_text np hj hf hs, written, objText_cons]
  simp only [List.map_append, eachAfter_append, List.map_cons, eachAfter, enc, List.append_assoc, List.cons_append, List.nil_append]

theorem filter_both (ms : List (List Byte × List Byte)) : (ids ms ++ rest ms).Perm ms := by
  have := List.filter_append_perm (fun m => @decide (Named m.1 "id") (Classical.propDecidable _)) ms
  refine (List.Perm.of_eq ?_).trans this
  congr 1
  apply List.filter_congr
  intro m _
  simp

theorem written_perm (np : Bool) (fm : List (List Byte × List Byte)) (c : List Byte) :
    (written np fm c).Perm ((quoted "type", quoted "Feature") :: (quoted "geometry", c) :: (added np fm ++ fm)) := by
  refine .cons _ (List.perm_middle.trans (.cons _ ?_))
  rw [← List.append_assoc]
  exact ((filter_both fm).append_right _).trans List.perm_append_comm

theorem once_perm {ms ms' : List (List Byte × List Byte)} {s : String} (h : ms.Perm ms') : Once ms s ↔ Once ms' s := by
  unfold Once
  exact h.pairwise_iff fun h h' => h ⟨h'.2, h'.1⟩

theorem once_cons {m : List Byte × List Byte} {ms : List (List Byte × List Byte)} {s : String} (hm : ¬ Named m.1 s) (h : Once ms s) : Once (m :: ms) s :=
  List.pairwise_cons.2 ⟨fun _ _ h => hm h.1, h⟩

theorem added_mem {np : Bool} {fm : List (List Byte × List Byte)} {m : List Byte × List Byte} (h : m ∈ added np fm) :
    m = (quoted "properties", txt (if np then "null" else "{}")) ∧ ¬ ∃ m ∈ fm, Named m.1 "properties" := by
  unfold added at h
  split at h
  · simp at h
  · rename_i h0
    exact ⟨by simpa using h, h0⟩

theorem braces_obj : Spec.Geojson.IsObj [] (txt "{}") := objText_obj (ms := []) (by simp)

theorem feature_plain : Plain (txt "Feature") := by decide
theorem geometry_plain : Plain (txt "geometry") := by decide
theorem properties_plain : Plain (txt "properties") := by decide

theorem null_jval : JVal (txt "null") := ⟨1, .null 0⟩

theorem written_json (np : Bool) {fm : List (List Byte × List Byte)} {c : List Byte} (hf : ∀ m ∈ fm, Str m.1 ∧ ∃ n, Val Str n m.2) (hc : JVal c) :
    ∀ m ∈ written np fm c, Str m.1 ∧ ∃ n, Val Str n m.2 := by
  intro m hm
  rw [(written_perm np fm c).mem_iff] at hm
  rcases List.mem_cons.1 hm with rfl | hm
  · exact ⟨plain_str type_plain, 1, (plain_fits feature_plain).1⟩
  rcases List.mem_cons.1 hm with rfl | hm
  · exact ⟨plain_str geometry_plain, hc⟩
  rcases List.mem_append.1 hm with hm | hm
  · rw [(added_mem hm).1]
    refine ⟨plain_str properties_plain, ?_⟩
    cases np
    · exact obj_jval braces_obj
    · exact null_jval
  · exact hf m hm

theorem written_members (np : Bool) {fm : List (List Byte × List Byte)} (c : List Byte) (hf : FeatureMembers fm) : FeatureMembers (written np fm c) := by
  have hp := written_perm np fm c
  obtain ⟨h1, h2, h3⟩ := hf
  refine ⟨(once_perm hp).2 (once_cons (named_other type_plain (by decide)) (once_cons (named_other geometry_plain (by decide)) ?_)),
    (once_perm hp).2 (once_cons (named_other type_plain (by decide)) (once_cons (named_other geometry_plain (by decide)) ?_)), fun m hm => ?_⟩
  · unfold added
    split
    · exact h1
    · rename_i h0
      exact List.pairwise_cons.2 ⟨fun m hm h => h0 ⟨m, hm, h.2⟩, h1⟩
  · unfold added
    split
    · exact h2
    · exact once_cons (named_other properties_plain (by decide)) h2
  · rw [hp.mem_iff] at hm
    rcases List.mem_cons.1 hm with rfl | hm
    · exact ⟨fun h => absurd h (named_other type_plain (by decide)), fun h => absurd h (named_other type_plain (by decide))⟩
    rcases List.mem_cons.1 hm with rfl | hm
    · exact ⟨fun h => absurd h (named_other geometry_plain (by decide)), fun h => absurd h (named_other geometry_plain (by decide))⟩
    rcases List.mem_append.1 hm with hm | hm
    · rw [(added_mem hm).1]
      refine ⟨fun _ => ?_, fun h => absurd h (named_other properties_plain (by decide))⟩
      cases np
      · exact .inr ⟨[], braces_obj⟩
      · exact .inl rfl
    · exact h3 m hm

theorem member_perm {ms : List (List Byte × List Byte)} {s : String} {k v : List Byte} {l : List (List Byte × List Byte)} (a b : List (List Byte × List Byte)) (e : ms = a ++ (k, v) :: b)
    (hp : (a ++ b).Perm l) (hk : Named k s) (h : ∀ m ∈ l, ¬ Named m.1 s) : Member ms s v := ⟨a, k, b, e, hk, fun m hm => h m (hp.mem_iff.1 hm)⟩

theorem written_type (np : Bool) {fm : List (List Byte × List Byte)} (c : List Byte) (hf : Foreign ["type", "geometry"] fm) : Member (written np fm c) "type" (quoted "Feature") := by
  refine member_perm [] _ rfl (List.Perm.cons_inv (written_perm np fm c)) (named_self type_plain) fun m hm => ?_
  rcases List.mem_cons.1 hm with rfl | hm
  · exact named_other geometry_plain (by decide)
  rcases List.mem_append.1 hm with hm | hm
  · rw [(added_mem hm).1]; exact named_other properties_plain (by decide)
  · exact (hf m hm).2.2 _ (by simp)

theorem written_geometry (np : Bool) {fm : List (List Byte × List Byte)} (c : List Byte) (hf : Foreign ["type", "geometry"] fm) : Member (written np fm c) "geometry" c := by
  refine member_perm ((quoted "type", quoted "Feature") :: ids fm) (rest fm ++ added np fm) rfl (l := (quoted "type", quoted "Feature") :: (added np fm ++ fm)) ?_ (named_self geometry_plain) fun m hm => ?_
  · refine .cons _ ?_
    change (ids fm ++ (rest fm ++ added np fm)).Perm _
    rw [← List.append_assoc]
    exact ((filter_both fm).append_right _).trans List.perm_append_comm
  · rcases List.mem_cons.1 hm with rfl | hm
    · exact named_other type_plain (by decide)
    rcases List.mem_append.1 hm with hm | hm
    · rw [(added_mem hm).1]; exact named_other properties_plain (by decide)
    · exact (hf m hm).2.2 _ (by simp)

theorem kept_self : ∀ {ms : List (List Byte × List Byte)}, Foreign ["type", "geometry"] ms → (∀ m ∈ ms, Named m.1 "properties" → m.2 ≠ txt "null" ∧ ¬ Spec.Geojson.IsObj [] m.2) → kept ms = ms
  | [], _, _ => rfl
  | m :: ms, h, h' => by
    have h1 := (h m (by simp)).2.2
    have h2 := h' m (by simp)
    rw [kept_cons_pos ⟨h1 _ (by simp), h1 _ (by simp), fun h => ?_⟩, kept_self (fun x hx => h x (by simp [hx])) fun x hx => h' x (by simp [hx])]
    rcases h.2 with e | e
    · exact (h2 h.1).1 e
    · exact (h2 h.1).2 e

theorem written_kept (np : Bool) {fm : List (List Byte × List Byte)} (c : List Byte) (hf : Foreign ["type", "geometry"] fm)
    (hs : ∀ m ∈ fm, Named m.1 "properties" → m.2 ≠ txt "null" ∧ ¬ Spec.Geojson.IsObj [] m.2) : kept (written np fm c) = idFirst fm := by
  have h1 : kept (ids fm) = ids fm := kept_self (fun m hm => hf m (List.mem_filter.1 hm).1) fun m hm => hs m (List.mem_filter.1 hm).1
  have h2 : kept (rest fm) = rest fm := kept_self (fun m hm => hf m (List.mem_filter.1 hm).1) fun m hm => hs m (List.mem_filter.1 hm).1
  have h3 : kept (added np fm) = [] := by
    unfold added
    split
    · rfl
    · rw [kept_cons_neg]
      · rfl
      · rintro ⟨-, -, h⟩
        refine h ⟨named_self properties_plain, ?_⟩
        cases np
        · exact .inr braces_obj
        · exact .inl rfl
  rw [written, kept_cons_neg (fun h => h.1 (named_self type_plain)), kept_append, kept_cons_neg (fun h => h.2.1 (named_self geometry_plain)), kept_append, h1, h2, h3, List.append_nil, idFirst_eq]

theorem written_nulls (np : Bool) {fm : List (List Byte × List Byte)} (c : List Byte) (hs : ∀ m ∈ fm, Named m.1 "properties" → m.2 ≠ txt "null" ∧ ¬ Spec.Geojson.IsObj [] m.2)
    (hn : np = true → ∀ m ∈ fm, ¬ Named m.1 "properties") : np = true ↔ ∃ m ∈ written np fm c, Named m.1 "properties" ∧ m.2 = txt "null" := by
  constructor
  · rintro rfl
    refine ⟨(quoted "properties", txt "null"), ?_, named_self properties_plain, rfl⟩
    rw [(written_perm _ fm c).mem_iff]
    have h0 : ¬ ∃ m ∈ fm, Named m.1 "properties" := by
      rintro ⟨m, hm, h⟩
      exact hn rfl m hm h
    rw [added, if_neg h0]
    simp
  · rintro ⟨m, hm, h1, h2⟩
    rw [(written_perm np fm c).mem_iff] at hm
    rcases List.mem_cons.1 hm with rfl | hm
    · exact absurd h1 (named_other type_plain (by decide))
    rcases List.mem_cons.1 hm with rfl | hm
    · exact absurd h1 (named_other geometry_plain (by decide))
    rcases List.mem_append.1 hm with hm | hm
    · rw [(added_mem hm).1] at h2
      cases np
      · exact absurd h2 (by decide)
      · rfl
    · exact absurd h2 (hs m hm h1).1

section
variable {N : List Byte → F64 → Prop} {num : F64 → List Byte}

theorem extra_with {g : Geom} {f x : Option (List Byte)} (h : Spec.Geojson.extraOf g = both f x) : Spec.Geojson.extraOf (withExtra x g) = x := by
  rw [xjson_eq]
  refine xjson_withExtra ?_
  by_cases hb : Boxed g
  · exact .inl hb
  · right
    have : Spec.Geojson.extraOf g = none := by cases g <;> first | rfl | exact absurd trivial hb
    rw [this] at h
    cases x with
    | none => rfl
    | some x => cases h

theorem plain_withExtra (x : Option (List Byte)) (g : Geom) : plainOf (withExtra x g) = plainOf g := by cases g <;> rfl
theorem boxed_withExtra (x : Option (List Byte)) (g : Geom) : Boxed (withExtra x g) ↔ Boxed g := by cases g <;> rfl

theorem feat_base {fl : Flags} (h : fl.unlocated = false) (t : List Byte) : featT fl t = baseT fl none t := by
  have e : txt "{\"type\":\"Feature\",\"geometry\":" = txt "{\"type\":\"Feature\"," ++ txt "\"geometry\":" := by decide
  have e1 : txt "null}" = txt "null" ++ [0x7D#8] := by decide
  have e2 : txt "{}}" = txt "{}" ++ [0x7D#8] := by decide
  rw [featT, baseT, h]
  cases fl.isFeature <;> cases fl.nullProps <;> simp [gjExtra, extraT, featHeadT, featTailT, Json.objGet, Json.isObj, Json.head, e, e1, e2]

theorem same_single {g g' : Geom} (h : Single g) (e : Spec.Geojson.extraOf g = Spec.Geojson.extraOf g') : SameExtra g g' := by
  cases g <;> simp only [Single] at h <;> simpa only [SameExtra] using e

theorem same_extraOf {g g' : Geom} (h : SameExtra g g') : Spec.Geojson.extraOf g = Spec.Geojson.extraOf g' := by
  cases g
  case coll => rw [SameExtra] at h; obtain ⟨_, _, _, _, rfl, -⟩ := h; rfl
  all_goals simpa only [SameExtra] using h

/-- The text of a Feature. -/
theorem feature_text {g : Geom} {v : GV} {fm : List (List Byte × List Byte)} {x : Option (List Byte)} (hs : Stored g fm x) (hv : view g = some v) (hw : Wkt.Wf v)
    (hc : Wkt.AllCoords (Ok N num) v) :
    ∃ c, jsonT num g = objText (written g.flags.nullProps fm c) ∧ JVal c ∧
      ((g.flags.unlocated = true ∧ c = txt "null") ∨
        (g.flags.unlocated = false ∧ c ≠ txt "null" ∧ Dressed (withExtra x g) ∧ IsGeometry N v c ∧ Keeps c (withExtra x g) ∧ c = jsonT num (unfeat (withExtra x g)))) := by
  have hfm := foreign_json hs.foreign
  have hx := extra_with hs.extra
  have hg := hs.geometry
  cases hu : g.flags.unlocated with
  | true =>
    rw [hu, if_pos rfl] at hg
    obtain ⟨rfl, hp⟩ := hg
    have hb : Boxed g := by
      cases g <;> first | trivial | (exfalso; simp only [view] at hp; split at hp <;> simp at hp) | (exfalso; simp [view] at hp)
    obtain ⟨k1, k2⟩ := gjExtra_feature (ms := []) hfm (by simp)
    have k2 := (k2.resolve_right fun h => h.1 rfl).2
    refine ⟨txt "null", ?_, null_jval, .inl ⟨rfl, rfl⟩⟩
    rw [jsonT_boxed hb, hs.extra, baseT, hs.feature, hu]
    simp only [if_true, Bool.and_self]
    rw [show (none : Option (List Byte)) = extraText [] from rfl, k2, extraT_none]
    exact written_text _ k1 hfm hs.members.2.1 hs.spelled _
  | false =>
    rw [hu, if_neg (by decide)] at hg
    obtain ⟨name, field, c, hp⟩ := dressed_parts (N := N) (num := num) (withExtra x g) v (by rw [view_withExtra, hv]) hw hc hg
    obtain ⟨ms, hm, e⟩ := hp.stores
    rw [hx] at e
    subst e
    have hb : Boxed (withExtra (extraText ms) g) ∨ ms = [] := by
      rw [boxed_withExtra]
      by_cases hb : Boxed g
      · exact .inl hb
      · right
        have : Spec.Geojson.extraOf (withExtra (extraText ms) g) = none := by cases g <;> first | rfl | exact absurd trivial hb
        rw [this, extraText_eq] at hx
        by_contra hms
        rw [if_neg hms] at hx
        cases hx
    obtain ⟨r1, r2⟩ := hp.reads ms hm hb
    rw [withExtra_twice] at r2
    refine ⟨objText (two name field c ++ ms), ?_, obj_jval (objText_obj (two_json hp.plain hp.member hp.json hm)), .inr ⟨rfl, ?_, hg, r1, r2, (parts_inside hp ?_ hm hx).symm⟩⟩
    · obtain ⟨k1, k2⟩ := gjExtra_feature hfm (foreign_json hm)
      have e : jsonT num g = baseT g.flags (both (extraText fm) (extraText ms)) (objText (two name field c)) := by
        rw [← hs.extra, ← hp.body, plain_withExtra]
        by_cases hbx : Boxed g
        · exact jsonT_boxed hbx
        · have : Spec.Geojson.extraOf g = none := by cases g <;> first | rfl | exact absurd trivial hbx
          rw [this, jsonT_base hbx (by rintro e rfl; simp [view] at hv), feat_base hu]
      rw [e, baseT, hs.feature, hu]
      simp only [if_true, Bool.and_false, Bool.false_eq_true, if_false]
      rw [extraT_stored (fm := two name field c) (by simp) (foreign_json hm) k2]
      exact written_text _ k1 hfm hs.members.2.1 hs.spelled _
    · intro e
      exact null_not_obj (e ▸ objText_obj (two_json hp.plain hp.member hp.json hm))
    · intro e h
      cases g <;> first | (simp [view] at hv; done) | cases h

/-- The geometry that a Feature shows in GeoJSON. -/
def located (g : Geom) (v : GV) : Option GV := if g.flags.unlocated then none else some (zForM v)

theorem shown_located {g : Geom} {v : GV} {fm : List (List Byte × List Byte)} {x : Option (List Byte)} (hs : Stored g fm x) (hv : view g = some v) : shown (located g v) = reread (zForM v) := by
  unfold located
  have hg := hs.geometry
  split at hg
  · rename_i h
    rw [hg.2] at hv
    cases hv
    rw [if_pos h]
    rfl
  · rename_i h
    rw [if_neg h]
    rfl

theorem feature_written {g : Geom} {v : GV} {fm : List (List Byte × List Byte)} {x : Option (List Byte)} (hs : Stored g fm x) (hv : view g = some v) (hw : Wkt.Wf v)
    (hc : Wkt.AllCoords (Ok N num) v) : IsFeature N (located g v) (jsonT num g) := by
  obtain ⟨c, e, hj, h⟩ := feature_text hs hv hw hc
  rw [e]
  refine ⟨_, _, c, objText_obj (written_json _ (foreign_json hs.foreign) hj), written_type _ c hs.foreign, named_self feature_plain, written_geometry _ c hs.foreign,
    written_members _ c hs.members, ?_⟩
  rcases h with ⟨h1, h2⟩ | ⟨h1, -, -, h2, -, -⟩
  · rw [located, if_pos h1]
    exact h2
  · rw [located, if_neg (by rw [h1]; decide)]
    exact (geometry_zForM v c).2 h2

theorem feature_again {g g' : Geom} {v : GV} {fm : List (List Byte × List Byte)} {x : Option (List Byte)} (hs : Stored g fm x) (hv : view g = some v) (hw : Wkt.Wf v)
    (hc : Wkt.AllCoords (Ok N num) v) (hk : FeatureKeeps (jsonT num g) g') (hv' : view g' = some (reread (zForM v))) : Again g fm x g' := by
  obtain ⟨c, e, hj, h⟩ := feature_text hs hv hw hc
  rw [e] at hk
  obtain ⟨ms, c', x', h1, h2, h3, h4, h5, h6, h7, h8⟩ := hk
  obtain rfl := obj_unique (objText_obj (written_json _ (foreign_json hs.foreign) hj)) h1
  obtain rfl := member_unique (written_geometry _ c hs.foreign) h2
  rw [written_kept _ c hs.foreign hs.said] at h3
  have hx := extra_with hs.extra
  have hx' := extra_with h3
  have hn : g'.flags.nullProps = g.flags.nullProps := by
    rw [Bool.eq_iff_iff, h6]
    exact (written_nulls _ c hs.said hs.nulls).symm
  rcases h with ⟨k1, k2⟩ | ⟨k1, k2, k3, -, k4, -⟩
  · rw [if_pos k2] at h8
    subst h8
    have hg := hs.geometry
    rw [if_pos k1] at hg
    obtain ⟨rfl, hp⟩ := hg
    refine ⟨h3, h4, h5, hn, by rw [h7.2 k2, k1], ?_⟩
    refine same_single ?_ (hx.trans hx'.symm)
    cases g
    case coll => obtain ⟨vs, e, -⟩ := coll_view hp; cases e
    case err => simp [view] at hp
    all_goals trivial
  · rw [if_neg k2] at h8
    have hsame := keeps_same _ _ c v k4 h8 (by rw [view_withExtra, hv]) (by rw [view_withExtra, hv']) k3
    have : x' = x := by rw [← hx', ← same_extraOf hsame, hx]
    subst this
    refine ⟨h3, h4, h5, hn, ?_, hsame⟩
    rw [k1]
    exact Bool.eq_false_iff.2 fun h => k2 (h7.1 h)

/-! ### FeatureCollections -/

theorem keepsf_jval {t : List Byte} {g : Geom} (h : FeatureKeeps t g) : JVal t := by obtain ⟨ms, c, x, h, -⟩ := h; exact obj_jval h

theorem keepsf_all {ts : List (List Byte)} {gs : List Geom} (h : List.Forall₂ FeatureKeeps ts gs) : ∀ t ∈ ts, JVal t := by
  induction h with
  | nil => simp
  | cons h _ ih =>
    intro t ht
    rcases List.mem_cons.1 ht with rfl | ht
    · exact keepsf_jval h
    · exact ih t ht

theorem features_written : ∀ (gs : List Geom) (vs : List GV), views gs = some vs → Wkt.Wfs vs → Wkt.AllCoordss (Ok N num) vs → (∀ f ∈ gs, ∃ fm fx, Stored f fm fx) →
    ∃ fs, List.Forall₂ (IsFeature N) fs (jsonTs num gs) ∧ fs.map shown = rereads (zForMs vs) ∧ (∀ v, some v ∈ fs → Wkt.Wf v ∧ ZFirst v) ∧ (∀ t ∈ jsonTs num gs, JVal t)
  | [], vs, hv, _, _, _ => by
    simp [views] at hv; subst hv
    exact ⟨[], by simp [jsonTs], by simp [zForMs, rereads], by simp, by simp [jsonTs]⟩
  | g :: gs, vs, hv, hw, hc, hs => by
    obtain ⟨v, vs, rfl, a1, a2⟩ := views_cons hv
    rw [Wkt.Wfs] at hw; rw [Wkt.AllCoordss] at hc
    obtain ⟨fs, b1, b2, b3, b4⟩ := features_written gs vs a2 hw.2 hc.2 fun f hf => hs f (by simp [hf])
    obtain ⟨fm, fx, hst⟩ := hs g (by simp)
    have hf := feature_written hst a1 hw.1 hc.1
    rw [jsonTs]
    refine ⟨located g v :: fs, .cons hf b1, by rw [List.map_cons, b2, shown_located hst a1, zForMs, rereads], fun u hu => ?_, fun t ht => ?_⟩
    · rcases List.mem_cons.1 hu with h | h
      · unfold located at h
        split at h
        · cases h
        · cases h
          exact ⟨(zForM_wf v).2 hw.1, zForM_first v⟩
      · exact b3 u h
    · rcases List.mem_cons.1 ht with rfl | ht
      · obtain ⟨ms, ty, c, h1, -⟩ := hf
        exact obj_jval h1
      · exact b4 t ht

theorem features_again : ∀ (gs gs' : List Geom) (vs : List GV), views gs = some vs → Wkt.Wfs vs → Wkt.AllCoordss (Ok N num) vs → List.Forall₂ FeatureKeeps (jsonTs num gs) gs' →
    (vs = [] ∨ views gs' = some (rereads (zForMs vs))) → List.Forall₂ (fun f f' => ∀ fm fx, Stored f fm fx → Again f fm fx f') gs gs'
  | [], gs', vs, _, _, _, h, _ => by rw [jsonTs] at h; cases h; exact .nil
  | g :: gs, gs', vs, hv, hw, hc, h, hv' => by
    rw [jsonTs] at h
    cases h with
    | @cons _ g' _ gs' h1 h2 =>
      obtain ⟨v, vs, rfl, a1, a2⟩ := views_cons hv
      rw [Wkt.Wfs] at hw; rw [Wkt.AllCoordss] at hc
      obtain ⟨v', vs', e, b1, b2⟩ := views_cons (hv'.resolve_left (by simp))
      rw [zForMs, rereads] at e
      cases e
      exact .cons (fun fm fx hs => feature_again hs a1 hw.1 hc.1 h1 b1) (features_again gs gs' vs a2 hw.2 hc.2 h2 (.inr b2))

theorem collection_text {fl : Flags} {gs : List Geom} {ms : List (List Byte × List Byte)} (h1 : fl.isFeatureCol = true) (h2 : fl.isFeature = false) (hm : Foreign ["type", "features"] ms) :
    jsonT num (.coll fl true gs [] (extraText ms)) = objText (two "FeatureCollection" "features" (bracket 0x5B#8 0x5D#8 (jsonTs num gs)) ++ ms) := by
  have e : txt "{\"type\":\"FeatureCollection\",\"features\":" = txt "{\"type\":\"" ++ (txt "FeatureCollection" ++ (txt "\",\"" ++ (txt "features" ++ txt "\":"))) := by decide
  have e2 : txt (if fl.isFeatureCol then "{\"type\":\"FeatureCollection\",\"features\":" else "{\"type\":\"GeometryCollection\",\"geometries\":") ++
      (bracket 0x5B#8 0x5D#8 (if true = true then jsonTs num gs else []) ++ [0x7D#8]) = objText (two "FeatureCollection" "features" (bracket 0x5B#8 0x5D#8 (jsonTs num gs))) := by
    rw [← obj_objText, h1, if_pos rfl, if_pos rfl, e, Geojson.obj, show txt "}" = [0x7D#8] from rfl]
    simp only [List.append_assoc]
  rw [jsonT, e2, baseT, h2]
  simp only [Bool.false_eq_true, if_false, Bool.false_and, List.nil_append, List.append_nil]
  exact extraT_stored (fm := two "FeatureCollection" "features" _) (by simp) (foreign_json hm) (gjExtra_plain (foreign_json hm)).2

theorem collection_written {g : Geom} {v : GV} (hs : StoredAll g) (hv : view g = some v) (hw : Wkt.Wf v) (hc : Wkt.AllCoords (Ok N num) v) :
    ∃ fs, IsFeatures N fs (jsonT num g) ∧ .coll (fs.map shown) = reread (zForM v) ∧ (∀ v, some v ∈ fs → Wkt.Wf v ∧ ZFirst v) ∧
      ∀ g', CollectionKeeps (jsonT num g) g' → view g' = some (reread (zForM v)) →
        ∃ fl gs x fl' gs', g = .coll fl true gs [] x ∧ g' = .coll fl' true gs' [] x ∧ fl'.isFeatureCol = true ∧ fl'.isFeature = false ∧ fl'.nullProps = false ∧ fl'.unlocated = false ∧
          List.Forall₂ (fun f f' => ∀ fm fx, Stored f fm fx → Again f fm fx f') gs gs' := by
  obtain ⟨fl, gs, x, rfl, h1, h2, h3, h4, h5, ⟨ms, hm, rfl⟩, h6⟩ := hs
  obtain ⟨vs, rfl, hvs⟩ : ∃ vs, v = .coll vs ∧ views gs = some vs := by
    obtain ⟨vs, rfl, h⟩ := coll_view hv
    rcases h with rfl | h
    · rw [view] at hv
      split at hv
      · cases hv
      · split at hv
        · rename_i h0
          rw [h5 (by simpa using h0)]
          exact ⟨[], rfl, by simp [views]⟩
        · cases hg : views gs with
          | none => rw [hg] at hv; simp at hv
          | some us =>
            rw [hg] at hv
            simp at hv
            exact ⟨us, by rw [hv], rfl⟩
    · exact ⟨vs, rfl, h⟩
  rw [Wkt.Wf] at hw; rw [Wkt.AllCoords] at hc
  obtain ⟨fs, a1, a2, a3, a4⟩ := features_written gs vs hvs hw hc h6
  have hp : Plain (txt "features") := by decide
  have hq : Plain (txt "FeatureCollection") := by decide
  have hj : JVal (bracket 0x5B#8 0x5D#8 (jsonTs num gs)) := arr_jval (bracket_arr _) a4
  rw [collection_text h1 h2 hm]
  refine ⟨fs, ⟨_, _, two_type hq hp (by decide) hj hm, bracket_arr _, a1⟩, by rw [a2, zForM, reread], a3, fun g' hk hv' => ?_⟩
  obtain ⟨ms', c, ts, fl', gs', k1, k2, k3, rfl, k5, k6, k7, k8, k9⟩ := hk
  have ho := objText_obj (two_json hq hp hj hm)
  obtain rfl := obj_unique ho k1
  have hmem : Member (two "FeatureCollection" "features" (bracket 0x5B#8 0x5D#8 (jsonTs num gs)) ++ ms) "features" (bracket 0x5B#8 0x5D#8 (jsonTs num gs)) := by
    refine ⟨[_], _, ms, rfl, named_self hp, fun m hm' => ?_⟩
    rcases List.mem_cons.1 hm' with rfl | hm'
    · exact named_other type_plain (by decide)
    · exact (hm m hm').2.2 _ (by simp)
  obtain rfl := member_unique hmem k2
  have hts : ∀ t ∈ ts, JVal t := by
    exact keepsf_all k9
  obtain rfl := arr_unique (bracket_arr _) k3 a4 hts
  rw [two_others hp hm]
  refine ⟨fl, gs, _, fl', gs', rfl, rfl, k5, k6, k7, k8, features_again gs gs' vs hvs hw hc k9 ?_⟩
  rw [zForM, reread] at hv'
  obtain ⟨us, e, h⟩ := coll_view hv'
  cases e
  rcases h with h | h
  · left
    cases vs with
    | nil => rfl
    | cons v vs => simp [zForMs, rereads] at h
  · exact .inr h

end
end Tg.Gp
