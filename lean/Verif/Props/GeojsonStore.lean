import Verif.Lemmas.GeojsonStore
import Verif.Props.GeojsonRound
import Verif.Props.GeojsonFeature
/-!
Property C59: what is stored of a geometry, a Feature or a FeatureCollection besides the coordinates goes through `tg_geom_geojson` and `tg_parse_geojson`.
-/
namespace Tg
open Spec Spec.Json

theorem geojson_stored (nf : NumFmt) (hnf : ∀ x, x.isNormal = true → IsSci (nf.d2s x)) {g : Geom} (hg : NoNull g)
    {dst : List Byte} {n : Nat} (hd : n ≤ dst.length) (hfit : (tgGeomGeojson nf g dst n).count < n) :
    (tgGeomGeojson nf g dst n).dst.take (tgGeomGeojson nf g dst n).count = jsonT nf.text g := by
  refine written_text (dst := dst) ?_ hfit
  exact (by simpa using writeJson_holds hnf hd g hg (holds_start dst n hd) : Holds dst n (jsonT nf.text g) _).final hd

/-- C59. A geometry with foreign members, on any level, is written and read with the same members in the same order. `t` is what `tg_geom_geojson` leaves in a buffer that is large enough. -/
theorem C59_members_round_trip (nf : NumFmt) (hnf : ∀ x, x.isNormal = true → SciShort (nf.d2s x)) (rnd : ℚ → F64) (h0 : rnd 0 = 0#64) (sd : List Byte → F64 × Nat) (hs : StrtodAll sd rnd)
    (g : Geom) (v : GV) (hg : NoNull g) (hd : Geojson.Dressed g) (hf : g.flags.isFeature = false) (hv : view g = some v) (hw : Wkt.Wf v) (hc : Wkt.AllCoords (Readable nf.d2s rnd) v)
    (dst : List Byte) (n : Nat) (hn : n ≤ dst.length) (hfit : (tgGeomGeojson nf g dst n).count < n) (t : List Byte)
    (ht : t = (tgGeomGeojson nf g dst n).dst.take (tgGeomGeojson nf g dst n).count) (hl : Val Str 1024 t) (hm : ¬ ([0xF4, 0x8F, 0xBF, 0xBF] : List Byte) <:+: t) :
    ∃ g', Gp.tgParseGeojson sd t = .geom g' ∧ view g' = some (Geojson.reread (Geojson.zForM v)) ∧ Geojson.SameExtra g g' := by
  have hc' : Wkt.AllCoords (Gp.Ok (ShortNum rnd) nf.text) v := Wp.AllCoords.mono (short_readable hnf h0) v hc
  rw [geojson_stored nf (fun x hx => sciShort_sci (hnf x hx)) hg hn hfit] at ht
  obtain ⟨name, field, c, hp⟩ := Gp.dressed_parts g v hv hw hc' hd
  obtain ⟨h1, h2, -⟩ := Gp.parts_json hp hf (by rintro e rfl; simp [view] at hv)
  rw [← ht] at h1 h2
  obtain ⟨g', e1, e2, e3⟩ := C55_geojson_accepted sd rnd hs (Geojson.zForM v) ((Gp.zForM_wf v).2 hw) (Gp.zForM_first v) t [] [] ((Gp.geometry_zForM v t).2 h1) Json.ws_none Json.ws_none hl
    (by simpa using hm)
  rw [List.nil_append, List.append_nil] at e1
  exact ⟨g', e1, e2, Gp.keeps_same g g' t v h2 e3 hv e2 hd⟩

/-- C59. A Feature is written and read as a Feature with the same geometry, or without one, with its members, of which the id is now the first, with null or other properties, and with the members
of its geometry. -/
theorem C59_feature_round_trip (nf : NumFmt) (hnf : ∀ x, x.isNormal = true → SciShort (nf.d2s x)) (rnd : ℚ → F64) (h0 : rnd 0 = 0#64) (sd : List Byte → F64 × Nat) (hs : StrtodAll sd rnd)
    (g : Geom) (v : GV) (fm : List (List Byte × List Byte)) (x : Option (List Byte)) (hg : NoNull g) (hd : Geojson.Stored g fm x) (hv : view g = some v) (hw : Wkt.Wf v)
    (hc : Wkt.AllCoords (Readable nf.d2s rnd) v) (dst : List Byte) (n : Nat) (hn : n ≤ dst.length) (hfit : (tgGeomGeojson nf g dst n).count < n) (t : List Byte)
    (ht : t = (tgGeomGeojson nf g dst n).dst.take (tgGeomGeojson nf g dst n).count) (hl : Val Str 1024 t) (hm : ¬ ([0xF4, 0x8F, 0xBF, 0xBF] : List Byte) <:+: t) :
    ∃ g', Gp.tgParseGeojson sd t = .geom g' ∧ view g' = some (Geojson.reread (Geojson.zForM v)) ∧ Geojson.Again g fm x g' := by
  have hc' : Wkt.AllCoords (Gp.Ok (ShortNum rnd) nf.text) v := Wp.AllCoords.mono (short_readable hnf h0) v hc
  rw [geojson_stored nf (fun x hx => sciShort_sci (hnf x hx)) hg hn hfit] at ht
  have h1 := Gp.feature_written hd hv hw hc'
  rw [← ht] at h1
  obtain ⟨g', e1, e2, e3⟩ := C57_feature_accepted sd rnd hs (Gp.located g v) (fun u hu => by
    unfold Gp.located at hu
    split at hu
    · cases hu
    · cases hu
      exact ⟨(Gp.zForM_wf v).2 hw, Gp.zForM_first v⟩) t [] [] h1 Json.ws_none Json.ws_none hl (by simpa using hm)
  rw [List.nil_append, List.append_nil] at e1
  rw [Gp.shown_located hd hv] at e2
  subst ht
  exact ⟨g', e1, e2, Gp.feature_again hd hv hw hc' e3 e2⟩

/-- C59. A FeatureCollection is written and read as a FeatureCollection of the same Features with the same members. -/
theorem C59_collection_round_trip (nf : NumFmt) (hnf : ∀ x, x.isNormal = true → SciShort (nf.d2s x)) (rnd : ℚ → F64) (h0 : rnd 0 = 0#64) (sd : List Byte → F64 × Nat) (hs : StrtodAll sd rnd)
    (g : Geom) (v : GV) (hg : NoNull g) (hd : Geojson.StoredAll g) (hv : view g = some v) (hw : Wkt.Wf v)
    (hc : Wkt.AllCoords (Readable nf.d2s rnd) v) (dst : List Byte) (n : Nat) (hn : n ≤ dst.length) (hfit : (tgGeomGeojson nf g dst n).count < n) (t : List Byte)
    (ht : t = (tgGeomGeojson nf g dst n).dst.take (tgGeomGeojson nf g dst n).count) (hl : Val Str 1024 t) (hm : ¬ ([0xF4, 0x8F, 0xBF, 0xBF] : List Byte) <:+: t) :
    ∃ g', Gp.tgParseGeojson sd t = .geom g' ∧ view g' = some (Geojson.reread (Geojson.zForM v)) ∧
      ∃ fl gs x fl' gs', g = .coll fl true gs [] x ∧ g' = .coll fl' true gs' [] x ∧ fl'.isFeatureCol = true ∧ fl'.isFeature = false ∧ fl'.nullProps = false ∧ fl'.unlocated = false ∧
        List.Forall₂ (fun f f' => ∀ fm fx, Geojson.Stored f fm fx → Geojson.Again f fm fx f') gs gs' := by
  have hc' : Wkt.AllCoords (Gp.Ok (ShortNum rnd) nf.text) v := Wp.AllCoords.mono (short_readable hnf h0) v hc
  rw [geojson_stored nf (fun x hx => sciShort_sci (hnf x hx)) hg hn hfit] at ht
  obtain ⟨fs, h1, h2, h3, h4⟩ := Gp.collection_written hd hv hw hc'
  rw [← ht] at h1
  obtain ⟨g', e1, e2, e3⟩ := C57_collection_accepted sd rnd hs fs h3 t [] [] h1 Json.ws_none Json.ws_none hl (by simpa using hm)
  rw [List.nil_append, List.append_nil] at e1
  rw [h2] at e2
  subst ht
  exact ⟨g', e1, e2, h4 g' e3 e2⟩

/-! ### Examples -/

/-- What is found valid, and is an object in ASCII without escapes, has at most 1024 levels. -/
theorem valid_level {t l : List Byte} (h : Json.jsonValidn t = some true) (he : t = 0x7B#8 :: (l ++ [0x7D#8])) (ha : ∀ b ∈ t, Gp.Tame b) : Val Str 1024 t := by
  obtain ⟨w, u, w', hw1, hu, hw2, e⟩ := C16_json_sound_partial _ h (fun b hb => by
    have := (ha b hb).1
    constructor <;> rintro rfl <;> revert this <;> decide) (fun p t e => absurd rfl (ha 0x5C (by rw [e]; simp)).2)
  have hw0 : w = [] := by
    cases w with
    | nil => rfl
    | cons b w =>
      rw [he] at e
      simp only [List.cons_append, List.cons.injEq] at e
      have := hw1 b (by simp)
      rw [← e.1] at this
      exact absurd this (by decide)
  have hw0' : w' = [] := by
    rcases List.eq_nil_or_concat w' with h | ⟨w', b, rfl⟩
    · exact h
    · have e2 := congrArg List.getLast? (he.symm.trans e)
      rw [List.concat_eq_append, ← List.append_assoc, ← List.append_assoc, List.getLast?_append, ← List.cons_append, List.getLast?_append] at e2
      have := hw2 b (by simp)
      simp only [List.getLast?_singleton, Option.some_or, Option.some.injEq] at e2
      rw [← e2] at this
      exact absurd this (by decide)
  subst hw0; subst hw0'
  rw [List.nil_append, List.append_nil] at e
  exact e ▸ hu

/-- The members of the Feature of the example. -/
def storeMembers : List (List Byte × List Byte) := [(txt "\"properties\"", txt "{\"a\":1}"), (txt "\"id\"", txt "7")]
/-- A Feature with properties and an id, and whose geometry has a foreign member. -/
def storeGeom : Geom := .gpoint { isFeature := true } ⟨0x3FF8000000000000#64, 0xC033000000000000#64⟩ 0 0 (some (txt "[{\"properties\":{\"a\":1},\"id\":7},{\"k\":true}]"))
/-- A Feature without a geometry. -/
def lostGeom : Geom := .gpoint { isFeature := true, isEmpty := true, unlocated := true, nullProps := true } ⟨0, 0⟩ 0 0 none
/-- Both. -/
def storeColl : Geom := .coll { isFeatureCol := true } true [storeGeom, lostGeom] [] none

theorem store_plain : Plainly storeMembers := by
  intro m hm
  simp only [storeMembers, List.mem_cons, List.not_mem_nil, or_false] at hm
  rcases hm with rfl | rfl
  · exact ⟨txt "properties", rfl, by decide⟩
  · exact ⟨txt "id", rfl, by decide⟩

theorem digit_number {d : Byte} (h : d.toNat - 0x30 ≤ 9 ∧ 0x31 ≤ d.toNat) : IsNumber [d] := by
  refine ⟨[], [d], [], [], by simp, .inl rfl, ?_, .inl rfl, .inl rfl⟩
  right
  refine ⟨d, [], rfl, ?_, ?_, by simp⟩
  · unfold Digit; omega
  · intro e; rw [e] at h; simp at h

theorem store_meets : Geojson.Stored storeGeom storeMembers (some (txt "{\"k\":true}")) := by
  have hp : Geojson.IsObj [(txt "\"a\"", txt "1")] (txt "{\"a\":1}") := Gp.objText_obj (ms := [(txt "\"a\"", txt "1")]) (by
    intro m hm
    rw [List.mem_singleton] at hm
    subst hm
    exact ⟨ascii_str (cs := txt "a") (by decide), 1, .num 0 _ (digit_number (by decide))⟩)
  have hn : ∀ m ∈ storeMembers, ∀ s, Geojson.Named m.1 s ↔ m.1 = 0x22#8 :: (txt s ++ [0x22#8]) := fun m hm s => plain_iff store_plain hm s
  refine ⟨rfl, rfl, by rfl, ?_, ⟨plain_once store_plain (by decide) _, plain_once store_plain (by decide) _, ?_⟩, ?_, ?_, fun h => absurd h (by decide), ?_⟩
  · intro m hm
    refine ⟨?_, ?_, fun s hs => ?_⟩
    · obtain ⟨cs, h1, h2⟩ := store_plain m hm
      simp only [storeMembers, List.mem_cons, List.not_mem_nil, or_false] at hm
      rcases hm with rfl | rfl
      · exact ascii_str (cs := txt "properties") (by decide)
      · exact ascii_str (cs := txt "id") (by decide)
    · simp only [storeMembers, List.mem_cons, List.not_mem_nil, or_false] at hm
      rcases hm with rfl | rfl
      · exact Gp.obj_jval hp
      · exact ⟨1, .num 0 _ (digit_number (by decide))⟩
    · rw [hn m hm]
      simp only [storeMembers, List.mem_cons, List.not_mem_nil, or_false] at hm hs
      rcases hm with rfl | rfl <;> rcases hs with rfl | rfl <;> decide
  · intro m hm
    rw [hn m hm, hn m hm]
    simp only [storeMembers, List.mem_cons, List.not_mem_nil, or_false] at hm
    rcases hm with rfl | rfl
    · exact ⟨fun _ => .inr ⟨_, hp⟩, fun h => absurd h (by decide)⟩
    · exact ⟨fun h => absurd h (by decide), fun _ => .inr (digit_number (by decide))⟩
  · intro m hm
    rw [hn m hm, hn m hm]
    exact ⟨fun h => h, fun h => h⟩
  · intro m hm
    rw [hn m hm]
    simp only [storeMembers, List.mem_cons, List.not_mem_nil, or_false] at hm
    rcases hm with rfl | rfl
    · exact fun _ => ⟨by decide, fun h => by have := Gp.obj_unique h hp; cases this⟩
    · exact fun h => absurd h (by decide)
  · refine ⟨[(txt "\"k\"", txt "true")], ?_, rfl⟩
    intro m hm
    rw [List.mem_singleton] at hm
    subst hm
    refine ⟨ascii_str (cs := txt "k") (by decide), ⟨1, .true_ 0⟩, fun s hs => ?_⟩
    change ¬ Geojson.Named (0x22#8 :: (txt "k" ++ [0x22#8])) s
    rw [named_plain (by decide)]
    simp only [List.mem_cons, List.not_mem_nil, or_false] at hs
    rcases hs with rfl | rfl <;> decide

theorem lost_meets : Geojson.Stored lostGeom [] none := by
  refine ⟨rfl, rfl, rfl, by simp [Geojson.Foreign], ⟨List.Pairwise.nil, List.Pairwise.nil, by simp⟩, by simp, by simp, by simp, ?_⟩
  exact ⟨rfl, rfl⟩

/-- What is written of the Feature. -/
def storeText : List Byte := txt "{\"type\":\"Feature\",\"id\":7,\"geometry\":{\"type\":\"Point\",\"coordinates\":[1.5,-19],\"k\":true},\"properties\":{\"a\":1}}"
/-- What is written of the FeatureCollection. -/
def collText : List Byte := txt "{\"type\":\"FeatureCollection\",\"features\":[" ++ (storeText ++ txt ",{\"type\":\"Feature\",\"geometry\":null,\"properties\":null}]}")

set_option maxRecDepth 100000 in
theorem store_written : storeText = (tgGeomGeojson (demoFmt false) storeGeom (List.replicate 200 0#8) 200).dst.take (tgGeomGeojson (demoFmt false) storeGeom (List.replicate 200 0#8) 200).count ∧
    (tgGeomGeojson (demoFmt false) storeGeom (List.replicate 200 0#8) 200).count < 200 := by decide +kernel

set_option maxRecDepth 100000 in
theorem coll_written : collText = (tgGeomGeojson (demoFmt false) storeColl (List.replicate 300 0#8) 300).dst.take (tgGeomGeojson (demoFmt false) storeColl (List.replicate 300 0#8) 300).count ∧
    (tgGeomGeojson (demoFmt false) storeColl (List.replicate 300 0#8) 300).count < 300 := by decide +kernel

theorem tame_clean {t : List Byte} (h : ∀ b ∈ t, Gp.Tame b) : ¬ ([0xF4, 0x8F, 0xBF, 0xBF] : List Byte) <:+: t := by
  rintro ⟨p, q, e⟩
  have := (h 0xF4 (by rw [← e]; simp)).1
  revert this; decide

theorem store_level : Val Str 1024 storeText ∧ ∀ b ∈ storeText, Gp.Tame b := by
  have h : ∀ b ∈ storeText, Gp.Tame b := by decide +kernel
  exact ⟨valid_level (l := storeText.tail.dropLast) (by decide +kernel) (by decide +kernel) h, h⟩
theorem coll_level : Val Str 1024 collText ∧ ∀ b ∈ collText, Gp.Tame b := by
  have h : ∀ b ∈ collText, Gp.Tame b := by decide +kernel
  exact ⟨valid_level (l := collText.tail.dropLast) (by decide +kernel) (by decide +kernel) h, h⟩

/-- The Feature goes through GeoJSON; the id comes before the properties. -/
example : ∃ g', Gp.tgParseGeojson (Gp.readAll demoRnd) storeText = .geom g' ∧ view g' = some (.point false false (some [0x3FF8000000000000#64, 0xC033000000000000#64])) ∧
    Geojson.Again storeGeom storeMembers (some (txt "{\"k\":true}")) g' := by
  obtain ⟨r1, r2, r3⟩ := demo_readable
  exact C59_feature_round_trip (demoFmt false) (demo_short false) demoRnd (by norm_num [demoRnd]) _ (readAll_strtod _) storeGeom (.point false false (some [0x3FF8000000000000#64, 0xC033000000000000#64]))
    storeMembers _ (by simp [storeGeom, NoNull]) store_meets rfl (by simp [Wkt.Wf, posOk, dims]) (by simp [Wkt.AllCoords, r1, r2]) (List.replicate 200 0#8) 200 (by rw [List.length_replicate])
    store_written.2 storeText store_written.1 store_level.1 (tame_clean store_level.2)

/-- The FeatureCollection, one of whose Features has no geometry, goes through GeoJSON. -/
example : ∃ g', Gp.tgParseGeojson (Gp.readAll demoRnd) collText = .geom g' ∧
    view g' = some (.coll [.point false false (some [0x3FF8000000000000#64, 0xC033000000000000#64]), .point false false none]) := by
  obtain ⟨r1, r2, r3⟩ := demo_readable
  obtain ⟨g', e1, e2, -⟩ := C59_collection_round_trip (demoFmt false) (demo_short false) demoRnd (by norm_num [demoRnd]) _ (readAll_strtod _) storeColl
    (.coll [.point false false (some [0x3FF8000000000000#64, 0xC033000000000000#64]), .point false false none]) (by simp [storeColl, storeGeom, lostGeom, NoNull, NoNulls])
    ⟨_, _, _, rfl, rfl, rfl, rfl, rfl, by simp, ⟨[], by simp [Geojson.Foreign], rfl⟩, fun f hf => by
      simp only [List.mem_cons, List.not_mem_nil, or_false] at hf
      rcases hf with rfl | rfl
      · exact ⟨_, _, store_meets⟩
      · exact ⟨_, _, lost_meets⟩⟩ rfl (by simp [Wkt.Wf, Wkt.Wfs, posOk, dims]) (by simp [Wkt.AllCoords, Wkt.AllCoordss, r1, r2]) (List.replicate 300 0#8) 300 (by rw [List.length_replicate])
    coll_written.2 collText coll_written.1 coll_level.1 (tame_clean coll_level.2)
  exact ⟨g', e1, e2⟩

/-! ### What does not go through -/

/-- A Feature with the members `x`. -/
def spelledGeom (x : String) : Geom := .gpoint { isFeature := true } ⟨0x3FF8000000000000#64, 0xC033000000000000#64⟩ 0 0 (some (txt x))

set_option maxRecDepth 100000 in
/-- An id that is spelled with an escape is written twice: `json_object_get` finds it, but the loop over the other members compares what is written (tg.c:11696, 11752). -/
theorem C59_escaped_id_twice : (tgGeomGeojson (demoFmt false) (spelledGeom "{\"i\\u0064\":7}") (List.replicate 200 0#8) 200).dst.take
    (tgGeomGeojson (demoFmt false) (spelledGeom "{\"i\\u0064\":7}") (List.replicate 200 0#8) 200).count =
    txt "{\"type\":\"Feature\",\"id\":7,\"geometry\":{\"type\":\"Point\",\"coordinates\":[1.5,-19]},\"i\\u0064\":7,\"properties\":{}}" := by decide +kernel

set_option maxRecDepth 100000 in
/-- Properties that are spelled with an escape are followed by other properties. -/
theorem C59_escaped_properties_twice : (tgGeomGeojson (demoFmt false) (spelledGeom "{\"propert\\u0069es\":{\"a\":1}}") (List.replicate 200 0#8) 200).dst.take
    (tgGeomGeojson (demoFmt false) (spelledGeom "{\"propert\\u0069es\":{\"a\":1}}") (List.replicate 200 0#8) 200).count =
    txt "{\"type\":\"Feature\",\"geometry\":{\"type\":\"Point\",\"coordinates\":[1.5,-19]},\"propert\\u0069es\":{\"a\":1},\"properties\":{}}" := by decide +kernel

end Tg
