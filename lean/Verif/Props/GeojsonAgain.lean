import Verif.Lemmas.GeojsonFixed
import Verif.Props.GeojsonStore
/-!
Property C60: what is read from GeoJSON and written as GeoJSON is read again as the same geometry, and from then on the text does not change.
-/
namespace Tg
open Spec Spec.Json

/-- What `tg_geom_geojson` leaves in a buffer of `n` bytes. -/
def geojsonOut (nf : NumFmt) (g : Geom) (dst : List Byte) (n : Nat) : List Byte := (tgGeomGeojson nf g dst n).dst.take (tgGeomGeojson nf g dst n).count

theorem geojson_parsed (nf : NumFmt) (hnf : ∀ x, x.isNormal = true → SciShort (nf.d2s x)) {sd : List Byte → F64 × Nat} {t : List Byte} {g : Geom} (h : Gp.tgParseGeojson sd t = .geom g)
    {dst : List Byte} {n : Nat} (hd : n ≤ dst.length) (hfit : (tgGeomGeojson nf g dst n).count < n) : geojsonOut nf g dst n = jsonT nf.text g := by
  obtain ⟨-, -, -, hg, -⟩ := Gp.tgParseGeojson_sound h
  exact geojson_stored nf (fun x hx => sciShort_sci (hnf x hx)) hg hd hfit

/-- C60. A geometry with white space and foreign members is parsed; what is written of it, in any buffer that is large enough, is parsed with the same coordinates and the same foreign members; and
what is written of that is the same text. -/
theorem C60_geometry_stable (nf : NumFmt) (hnf : ∀ x, x.isNormal = true → SciShort (nf.d2s x)) (rnd : ℚ → F64) (h0 : rnd 0 = 0#64) (sd : List Byte → F64 × Nat) (hs : StrtodAll sd rnd)
    (v : GV) (hv : Wkt.Wf v) (hz : Geojson.ZFirst v) (hc : Wkt.AllCoords (Readable nf.d2s rnd) v) (t w w' : List Byte)
    (ht : Geojson.IsGeometry (ShortNum rnd) v t) (hw : Ws w) (hw' : Ws w') (hd : Val Str 1024 t) (hn : ¬ ([0xF4, 0x8F, 0xBF, 0xBF] : List Byte) <:+: w ++ (t ++ w')) :
    ∃ g, Gp.tgParseGeojson sd (w ++ (t ++ w')) = .geom g ∧ view g = some (Geojson.reread v) ∧ Geojson.Keeps t g ∧
      ∀ dst n, n ≤ dst.length → (tgGeomGeojson nf g dst n).count < n →
        ∃ g', Gp.tgParseGeojson sd (geojsonOut nf g dst n) = .geom g' ∧ view g' = view g ∧ Geojson.SameExtra g g' ∧
          ∀ dst' n', n' ≤ dst'.length → (tgGeomGeojson nf g' dst' n').count < n' → geojsonOut nf g' dst' n' = geojsonOut nf g dst n := by
  obtain ⟨g, e1, e2, e3, e4⟩ := C55_geojson_plain sd rnd hs v hv hz t w w' ht hw hw' hd hn
  have hc' : Wkt.AllCoords (Gp.Ok (ShortNum rnd) nf.text) v := Wp.AllCoords.mono (short_readable hnf h0) v hc
  have hdr := Gp.keeps_dressed g t _ e3 (Gp.tgParseGeojson_tidy e1) e2 e4.2
  have hgood := Gp.good_json (N := ShortNum rnd) (num := nf.text) g t v 1024 e3 hdr e2 hv hc' ht ⟨hd, Gp.clean_sub ⟨w, w', by simp⟩ hn⟩
  rw [Gp.unfeat_self e4.1] at hgood
  have hr1 := Gp.reread_wf v hv
  have hr2 := Gp.reread_coords v hc'
  refine ⟨g, e1, e2, e3, fun dst n hn hfit => ?_⟩
  rw [geojson_parsed nf hnf e1 hn hfit]
  obtain ⟨name, field, c, hp⟩ := Gp.dressed_parts g _ e2 hr1 hr2 hdr
  obtain ⟨h1, h2, -⟩ := Gp.parts_json hp e4.1 (by rintro e rfl; simp [view] at e2)
  obtain ⟨g', f1, f2, f3, f4⟩ := C55_geojson_plain sd rnd hs _ ((Gp.zForM_wf _).2 hr1) (Gp.zForM_first _) (jsonT nf.text g) [] [] ((Gp.geometry_zForM _ _).2 h1) Json.ws_none Json.ws_none hgood.1
    (by rw [List.nil_append, List.append_nil]; exact hgood.2)
  rw [List.nil_append, List.append_nil] at f1
  have hsame := Gp.keeps_same g g' _ _ h2 f3 e2 f2 hdr
  refine ⟨g', f1, by rw [f2, e2, Gp.reread_fixed v hz], hsame, fun dst' n' hn' hfit' => ?_⟩
  rw [geojson_parsed nf hnf f1 hn' hfit']
  have := Gp.same_text (num := nf.text) g g' _ hdr (Gp.keeps_dressed g' _ _ f3 (Gp.tgParseGeojson_tidy f1) f2 f4.2) e2 f2 hsame
  rw [Gp.unfeat_self e4.1, Gp.unfeat_self f4.1] at this
  exact this.symm

theorem shown_ok {P : F64 → Prop} {f : Option GV} (h : ∀ v, f = some v → Wkt.Wf v ∧ Wkt.AllCoords P v) : Wkt.Wf (Geojson.shown f) ∧ Wkt.AllCoords P (Geojson.shown f) := by
  cases f with
  | none => exact ⟨by simp [Geojson.shown, Wkt.Wf], by simp [Geojson.shown, Wkt.AllCoords]⟩
  | some v => exact ⟨Gp.reread_wf v (h v rfl).1, Gp.reread_coords v (h v rfl).2⟩

theorem shown_fixed {f : Option GV} (h : ∀ v, f = some v → Geojson.ZFirst v) : Geojson.reread (Geojson.zForM (Geojson.shown f)) = Geojson.shown f := by
  cases f with
  | none => simp [Geojson.shown, Geojson.zForM, Geojson.reread]
  | some v => exact Gp.reread_fixed v (h v rfl)

theorem shown_fixed_all : ∀ {fs : List (Option GV)}, (∀ v, some v ∈ fs → Geojson.ZFirst v) → Geojson.rereads (Geojson.zForMs (fs.map Geojson.shown)) = fs.map Geojson.shown
  | [], _ => by simp [Geojson.zForMs, Geojson.rereads]
  | f :: fs, h => by
    rw [List.map_cons, Geojson.zForMs, Geojson.rereads, shown_fixed fun v hv => h v (by simp [hv]), shown_fixed_all fun v hv => h v (by simp [hv])]

theorem shown_ok_all {P : F64 → Prop} : ∀ {fs : List (Option GV)}, (∀ v, some v ∈ fs → Wkt.Wf v ∧ Wkt.AllCoords P v) → Wkt.Wfs (fs.map Geojson.shown) ∧ Wkt.AllCoordss P (fs.map Geojson.shown)
  | [], _ => by simp [Wkt.Wfs, Wkt.AllCoordss]
  | f :: fs, h => by
    obtain ⟨a1, a2⟩ := shown_ok (P := P) (f := f) fun v hv => h v (by simp [hv])
    obtain ⟨b1, b2⟩ := shown_ok_all (P := P) (fs := fs) fun v hv => h v (by simp [hv])
    rw [List.map_cons, Wkt.Wfs, Wkt.AllCoordss]
    exact ⟨⟨a1, b1⟩, a2, b2⟩

/-- C60. The same for a Feature whose `id` and `properties` are spelled without escapes (see `C59_escaped_id_twice`). It is stored with the members `Geojson.kept ms` and read again with these, the
id first. -/
theorem C60_feature_stable (nf : NumFmt) (hnf : ∀ x, x.isNormal = true → SciShort (nf.d2s x)) (rnd : ℚ → F64) (h0 : rnd 0 = 0#64) (sd : List Byte → F64 × Nat) (hs : StrtodAll sd rnd)
    (f : Option GV) (hf : ∀ v, f = some v → Wkt.Wf v ∧ Geojson.ZFirst v ∧ Wkt.AllCoords (Readable nf.d2s rnd) v) (t w w' : List Byte)
    (ht : Geojson.IsFeature (ShortNum rnd) f t) (hsp : Geojson.SpelledIn t) (hw : Ws w) (hw' : Ws w') (hd : Val Str 1024 t) (hn : ¬ ([0xF4, 0x8F, 0xBF, 0xBF] : List Byte) <:+: w ++ (t ++ w')) :
    ∃ g ms x, Gp.tgParseGeojson sd (w ++ (t ++ w')) = .geom g ∧ view g = some (Geojson.shown f) ∧ Geojson.IsObj ms t ∧ Geojson.Stored g (Geojson.kept ms) x ∧
      ∀ dst n, n ≤ dst.length → (tgGeomGeojson nf g dst n).count < n →
        ∃ g', Gp.tgParseGeojson sd (geojsonOut nf g dst n) = .geom g' ∧ view g' = view g ∧ Geojson.Again g (Geojson.kept ms) x g' ∧ Geojson.Stored g' (Geojson.idFirst (Geojson.kept ms)) x ∧
          ∀ dst' n', n' ≤ dst'.length → (tgGeomGeojson nf g' dst' n').count < n' → geojsonOut nf g' dst' n' = geojsonOut nf g dst n := by
  obtain ⟨g, e1, e2, e3⟩ := C57_feature_accepted sd rnd hs f (fun v h => ⟨(hf v h).1, (hf v h).2.1⟩) t w w' ht hw hw' hd hn
  have hf' : ∀ v, f = some v → Wkt.Wf v ∧ Wkt.AllCoords (Gp.Ok (ShortNum rnd) nf.text) v := fun v h => ⟨(hf v h).1, Wp.AllCoords.mono (short_readable hnf h0) v (hf v h).2.2⟩
  have htidy := Gp.tgParseGeojson_tidy e1
  obtain ⟨ms, x, hm, hst⟩ := Gp.feature_stored ht hsp e3 e2 htidy
  have hgood := Gp.good_feature ht hsp e3 e2 htidy hf' ⟨hd, Gp.clean_sub ⟨w, w', by simp⟩ hn⟩
  obtain ⟨k1, k2⟩ := shown_ok hf'
  refine ⟨g, ms, x, e1, e2, hm, hst, fun dst n hn hfit => ?_⟩
  rw [geojson_parsed nf hnf e1 hn hfit]
  obtain ⟨g', f1, f2, f3⟩ := C57_feature_accepted sd rnd hs (Gp.located g (Geojson.shown f)) (fun u hu => by
    unfold Gp.located at hu
    split at hu
    · cases hu
    · cases hu
      exact ⟨(Gp.zForM_wf _).2 k1, Gp.zForM_first _⟩) _ [] [] (Gp.feature_written hst e2 k1 k2) Json.ws_none Json.ws_none hgood.1 (by rw [List.nil_append, List.append_nil]; exact hgood.2)
  rw [List.nil_append, List.append_nil] at f1
  rw [Gp.shown_located hst e2] at f2
  obtain ⟨l1, l2⟩ := Gp.feature_fixed hst e2 k1 k2 f3 f2 (Gp.tgParseGeojson_tidy f1)
  refine ⟨g', f1, by rw [f2, e2, shown_fixed fun v h => (hf v h).2.1], Gp.feature_again hst e2 k1 k2 f3 f2, l1, fun dst' n' hn' hfit' => ?_⟩
  rw [geojson_parsed nf hnf f1 hn' hfit', l2]

/-- C60. The same for a FeatureCollection. -/
theorem C60_collection_stable (nf : NumFmt) (hnf : ∀ x, x.isNormal = true → SciShort (nf.d2s x)) (rnd : ℚ → F64) (h0 : rnd 0 = 0#64) (sd : List Byte → F64 × Nat) (hs : StrtodAll sd rnd)
    (fs : List (Option GV)) (hf : ∀ v, some v ∈ fs → Wkt.Wf v ∧ Geojson.ZFirst v ∧ Wkt.AllCoords (Readable nf.d2s rnd) v) (t w w' : List Byte)
    (ht : Geojson.IsFeatures (ShortNum rnd) fs t) (hsp : Geojson.SpelledAll t) (hw : Ws w) (hw' : Ws w') (hd : Val Str 1024 t) (hn : ¬ ([0xF4, 0x8F, 0xBF, 0xBF] : List Byte) <:+: w ++ (t ++ w')) :
    ∃ g, Gp.tgParseGeojson sd (w ++ (t ++ w')) = .geom g ∧ view g = some (.coll (fs.map Geojson.shown)) ∧ Geojson.StoredAll g ∧
      ∀ dst n, n ≤ dst.length → (tgGeomGeojson nf g dst n).count < n →
        ∃ g', Gp.tgParseGeojson sd (geojsonOut nf g dst n) = .geom g' ∧ view g' = view g ∧
          (∃ fl gs x fl' gs', g = .coll fl true gs [] x ∧ g' = .coll fl' true gs' [] x ∧ fl'.isFeatureCol = true ∧ fl'.isFeature = false ∧ fl'.nullProps = false ∧ fl'.unlocated = false ∧
            List.Forall₂ (fun f f' => ∀ fm fx, Geojson.Stored f fm fx → Geojson.Again f fm fx f') gs gs') ∧
          ∀ dst' n', n' ≤ dst'.length → (tgGeomGeojson nf g' dst' n').count < n' → geojsonOut nf g' dst' n' = geojsonOut nf g dst n := by
  obtain ⟨g, e1, e2, e3⟩ := C57_collection_accepted sd rnd hs fs (fun v h => ⟨(hf v h).1, (hf v h).2.1⟩) t w w' ht hw hw' hd hn
  have hf' : ∀ v, some v ∈ fs → Wkt.Wf v ∧ Wkt.AllCoords (Gp.Ok (ShortNum rnd) nf.text) v := fun v h => ⟨(hf v h).1, Wp.AllCoords.mono (short_readable hnf h0) v (hf v h).2.2⟩
  obtain ⟨hst, hgood⟩ := Gp.collection_stored ht hsp e3 e2 (Gp.tgParseGeojson_tidy e1) hf' ⟨hd, Gp.clean_sub ⟨w, w', by simp⟩ hn⟩
  obtain ⟨a1, a2⟩ := shown_ok_all hf'
  have k1 : Wkt.Wf (.coll (fs.map Geojson.shown)) := by rw [Wkt.Wf]; exact a1
  have k2 : Wkt.AllCoords (Gp.Ok (ShortNum rnd) nf.text) (.coll (fs.map Geojson.shown)) := by rw [Wkt.AllCoords]; exact a2
  refine ⟨g, e1, e2, hst, fun dst n hn hfit => ?_⟩
  rw [geojson_parsed nf hnf e1 hn hfit]
  obtain ⟨fs', h1, h2, h3, h4⟩ := Gp.collection_written hst e2 k1 k2
  obtain ⟨g', f1, f2, f3⟩ := C57_collection_accepted sd rnd hs fs' h3 _ [] [] h1 Json.ws_none Json.ws_none hgood.1 (by rw [List.nil_append, List.append_nil]; exact hgood.2)
  rw [List.nil_append, List.append_nil] at f1
  rw [h2] at f2
  have l := Gp.collection_fixed hst e2 k1 k2 f3 f2 (Gp.tgParseGeojson_tidy f1)
  refine ⟨g', f1, ?_, h4 g' f3 f2, fun dst' n' hn' hfit' => ?_⟩
  · rw [f2, e2, Geojson.zForM, Geojson.reread, shown_fixed_all fun v h => (hf v h).2.1]
  · rw [geojson_parsed nf hnf f1 hn' hfit', l]

/-! ### Examples -/

theorem plain_spelled {ms : List (List Byte × List Byte)} {t : List Byte} (hp : Plainly ms) (h : Geojson.IsObj ms t) : Geojson.SpelledIn t := by
  intro ms' h' m hm
  obtain rfl := Gp.obj_unique h h'
  rw [plain_iff hp hm, plain_iff hp hm]
  exact ⟨fun e => e, fun e => e⟩

theorem demo_point_ok : Wkt.Wf (.point true false (some [0x3FF8000000000000#64, 0#64, 0#64])) ∧ Geojson.ZFirst (.point true false (some [0x3FF8000000000000#64, 0#64, 0#64])) ∧
    Wkt.AllCoords (Readable (demoFmt false).d2s demoRnd) (.point true false (some [0x3FF8000000000000#64, 0#64, 0#64])) := by
  obtain ⟨r1, -, r3⟩ := demo_readable
  exact ⟨by simp [Wkt.Wf, posOk, dims], by simp [Geojson.ZFirst], by simp [Wkt.AllCoords, r1, r3]⟩

/-- A point with a foreign member, white space and an escape in `type` is written and read. -/
example : ∃ g, Gp.tgParseGeojson (Gp.readAll demoRnd) ([] ++ (demoObject ++ [0x20#8])) = .geom g ∧
    ∀ dst n, n ≤ dst.length → (tgGeomGeojson (demoFmt false) g dst n).count < n →
      ∃ g', Gp.tgParseGeojson (Gp.readAll demoRnd) (geojsonOut (demoFmt false) g dst n) = .geom g' ∧ view g' = view g := by
  obtain ⟨k1, k2, k3⟩ := demo_point_ok
  obtain ⟨g, e1, -, -, e2⟩ := C60_geometry_stable (demoFmt false) (demo_short false) demoRnd (by norm_num [demoRnd]) _ (readAll_strtod _) _ k1 k2 k3 demoObject [] [0x20#8] demo_geometry ws_none ws_one
    (Json.val_up (Gp.obj_level demo_obj.1 demo_obj.2) (by omega)) (by decide +kernel)
  exact ⟨g, e1, fun dst n h1 h2 => by obtain ⟨g', f1, f2, -⟩ := e2 dst n h1 h2; exact ⟨g', f1, f2⟩⟩

/-- A Feature. -/
example : ∃ g, Gp.tgParseGeojson (Gp.readAll demoRnd) ([] ++ (featText ++ [0x20#8])) = .geom g ∧
    ∀ dst n, n ≤ dst.length → (tgGeomGeojson (demoFmt false) g dst n).count < n →
      ∃ g', Gp.tgParseGeojson (Gp.readAll demoRnd) (geojsonOut (demoFmt false) g dst n) = .geom g' ∧ view g' = view g := by
  obtain ⟨g, ms, x, e1, -, -, -, e2⟩ := C60_feature_stable (demoFmt false) (demo_short false) demoRnd (by norm_num [demoRnd]) _ (readAll_strtod _) _ (by rintro v ⟨⟩; exact demo_point_ok) featText [] [0x20#8]
    featText_feature (plain_spelled featText_plain featText_obj.1) ws_none ws_one (Json.val_up (Gp.obj_level featText_obj.1 featText_obj.2) (by omega)) (by decide +kernel)
  exact ⟨g, e1, fun dst n h1 h2 => by obtain ⟨g', f1, f2, -⟩ := e2 dst n h1 h2; exact ⟨g', f1, f2⟩⟩

/-- The text that is written of the Feature, and what is written of that. -/
def featAgain : List Byte := txt "{\"type\":\"Feature\",\"id\":0,\"geometry\":{\"type\":\"Point\",\"coordinates\":[1.5,0,0],\"name\":\"x\"},\"properties\":null}"

set_option maxRecDepth 100000 in
example : (match Gp.tgParseGeojson (Gp.readAll demoRnd) featText with
    | .geom g => geojsonOut (demoFmt false) g (List.replicate 200 0#8) 200 == featAgain
    | _ => false) = true := by decide +kernel

set_option maxRecDepth 100000 in
example : (match Gp.tgParseGeojson (Gp.readAll demoRnd) featAgain with
    | .geom g => geojsonOut (demoFmt false) g (List.replicate 200 0#8) 200 == featAgain
    | _ => false) = true := by decide +kernel

/-- A FeatureCollection. -/
example : ∃ g, Gp.tgParseGeojson (Gp.readAll demoRnd) ([] ++ (bothText ++ [0x20#8])) = .geom g ∧
    ∀ dst n, n ≤ dst.length → (tgGeomGeojson (demoFmt false) g dst n).count < n →
      ∃ g', Gp.tgParseGeojson (Gp.readAll demoRnd) (geojsonOut (demoFmt false) g dst n) = .geom g' ∧ view g' = view g := by
  have hsp : Geojson.SpelledAll bothText := by
    intro ms c ts h1 h2 h3 h4 u hu
    obtain ⟨c', ts', ⟨ms', ty, k1, -, -, k2⟩, k3, k4⟩ := bothText_features
    obtain rfl := Gp.obj_unique h1 k1
    obtain rfl := Gp.member_unique h2 k2
    have e := Gp.obj_unique h1 bothText_obj.1
    subst e
    have : c = bothArray := by
      obtain ⟨a, k, b, e, hk, -⟩ := h2
      have hm : (k, c) ∈ bothMembers := by rw [e]; simp
      simp only [bothMembers, List.mem_cons, Prod.mk.injEq, List.not_mem_nil, or_false] at hm
      rcases hm with ⟨rfl, -⟩ | ⟨-, rfl⟩
      · exact absurd hk (by rw [show txt "\"type\"" = 0x22#8 :: (txt "type" ++ [0x22#8]) from by decide, named_plain (by decide)]; decide)
      · rfl
    subst this
    have hj : ∀ v ∈ [featText, nowhereText], Gp.JVal v := by
      intro v hv
      simp only [List.mem_cons, List.not_mem_nil, or_false] at hv
      rcases hv with rfl | rfl
      · exact Gp.obj_jval featText_obj.1
      · exact Gp.obj_jval nowhereText_obj.1
    obtain rfl := Gp.arr_unique h3 bothArray_arr h4 hj
    simp only [List.mem_cons, List.not_mem_nil, or_false] at hu
    rcases hu with rfl | rfl
    · exact plain_spelled featText_plain featText_obj.1
    · exact plain_spelled nowhereText_plain nowhereText_obj.1
  obtain ⟨g, e1, -, -, e2⟩ := C60_collection_stable (demoFmt false) (demo_short false) demoRnd (by norm_num [demoRnd]) _ (readAll_strtod _) _
    (by intro v hv; simp only [List.mem_cons, List.not_mem_nil, or_false, Option.some.injEq, reduceCtorEq] at hv; subst hv; exact demo_point_ok) bothText [] [0x20#8]
    bothText_features hsp ws_none ws_one (Json.val_up (Gp.obj_level bothText_obj.1 bothText_obj.2) (by omega)) (by decide +kernel)
  exact ⟨g, e1, fun dst n h1 h2 => by obtain ⟨g', f1, f2, -⟩ := e2 dst n h1 h2; exact ⟨g', f1, f2⟩⟩

end Tg
