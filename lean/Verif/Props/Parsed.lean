import Verif.Lemmas.ParsedJson
import Verif.Lemmas.ParsedBin
import Verif.Props.Geobin
import Verif.Props.Hex
import Verif.Props.Text
import Verif.Props.Wkt
import Verif.Props.GeojsonFeature
/-!
Property C58: what a parser returns is a geometry.
-/
namespace Tg
open Spec

/-! ### The text formats -/

/-- C58 for `tg_parse_wkt`, whatever the text and whatever `strtod` does. -/
theorem C58_wkt_sound (sd : List Byte → F64) (data : List Byte) (g : Geom) (h : Wp.tgParseWkt sd data = .geom g) : Sound g := Wp.tgParseWkt_sound h

/-- C58 for `tg_parse_geojson`. -/
theorem C58_geojson_sound (sd : List Byte → F64 × Nat) (data : List Byte) (g : Geom) (h : Gp.tgParseGeojson sd data = .geom g) : Sound g := Gp.tgParseGeojson_sound h

/-- So the text writers never read through a NULL pointer in what these parsers return, and `tg_geom_wkt` writes the Well-Known Text of a well-formed geometry. -/
theorem C58_text_written (sw : List Byte → F64) (sd : List Byte → F64 × Nat) (data : List Byte) (g : Geom) (h : Wp.tgParseWkt sw data = .geom g ∨ Gp.tgParseGeojson sd data = .geom g)
    (nf : NumFmt) (hnf : ∀ x, x.isNormal = true → IsSci (nf.d2s x)) :
    ∃ num : F64 → List Byte, ∃ v, view g = some v ∧ Wkt.Wf v ∧ (∀ dst n, n ≤ dst.length → Written dst n (Wkt.text num v) (tgGeomWkt nf g dst n)) ∧
      ∃ t, ∀ dst n, n ≤ dst.length → Written dst n t (tgGeomGeojson nf g dst n) := by
  obtain ⟨v, h1, h2, h3, h4⟩ : Sound g := h.elim (C58_wkt_sound sw data g) (C58_geojson_sound sd data g)
  obtain ⟨num, -, -, h5⟩ := C12_wkt_text nf hnf
  exact ⟨num, v, h1, h2, h5 g v h3 h4 h1, C12_geojson nf hnf g h3⟩

/-- Enough of `strtod` for the examples. -/
def demoSd (t : List Byte) : F64 := if t.head? = some 0x31#8 then 0x3FF8000000000000#64 else 0#64

/-- Texts for which there is a result: a polygon with Z, a collection with an empty line, and a FeatureCollection. -/
example : (Wp.tgParseWkt demoSd (txt "POLYGON((0 0 1.5,1.5 0 0,0 -19 0,0 0 1.5))") matches .geom (.gpoly ..)) = true ∧
    (Wp.tgParseWkt demoSd (txt "GEOMETRYCOLLECTION(POINT(1.5 0),LINESTRING EMPTY)") matches .geom (.coll _ true [_, .gline _ none _ _] _ _)) = true ∧
    (Gp.tgParseGeojson (Gp.readAll demoRnd) bothText matches .geom (.coll _ true [_, _] _ _)) = true := by decide +kernel

/-- Lines of one position, rings that are not closed, positions of different dimensions and polygons without a ring in a MultiPolygon have no result. -/
example : (Wp.tgParseWkt demoSd (txt "LINESTRING(0 0)") matches .error _) = true ∧
    (Wp.tgParseWkt demoSd (txt "POLYGON((0 0,1.5 0,0 -19,1.5 1.5))") matches .error _) = true ∧
    (Wp.tgParseWkt demoSd (txt "LINESTRING(0 0,0 0 0)") matches .error _) = true ∧
    (Gp.tgParseGeojson (Gp.readAll demoRnd) (txt "{\"type\":\"MultiPolygon\",\"coordinates\":[[]]}") matches .error _) = true := by decide +kernel

/-! ### The binary formats -/

/-- C58 for `tg_parse_wkb`, for results without a NULL line or polygon in a Multi geometry and without a ring that has no points.

Without these conditions it is false: `C58_wkb_null_line`, `C58_wkb_null_polygon`, `C58_wkb_empty_ring`. -/
theorem C58_wkb_sound_partial (data : List Byte) (g : Geom) (h : tgParseWkb data = .geom g) (hn : NoNull g) (hf : FullRings g) : Sound g := tgParseWkb_sound h hn hf

/-- C58 for `tg_parse_geobin`. The condition `noErr` is needed for the reason in `C11_error_as_feature`; the others as for WKB. -/
theorem C58_geobin_sound_partial (data : List Byte) (g : Geom) (h : tgParseGeobin data = .geom g) (he : noErr g) (hn : NoNull g) (hf : FullRings g) : Sound g := tgParseGeobin_sound h he hn hf

/-- C58 for `tg_parse_hex`, which reads one or the other. -/
theorem C58_hex_sound_partial (hex : List Byte) (g : Geom) (h : tgParseHex hex = .geom g) (he : noErr g) (hn : NoNull g) (hf : FullRings g) : Sound g := by
  unfold tgParseHex at h
  dsimp only at h
  by_cases h0 : hex.length = 0 ∨ hex.length % 2 = 1
  · rw [if_pos h0] at h; cases h
  rw [if_neg h0] at h
  split at h
  · cases h
  · cases h
  · split at h
    · cases h
    · rename_i b l _
      by_cases h1 : 2#8 ≤ b ∧ b ≤ 4#8
      · rw [if_pos h1] at h
        split at h <;> cases h
        rename_i h
        exact parseGeobin_res _ _ _ _ _ h he hn hf
      · rw [if_neg h1] at h
        split at h <;> cases h
        rename_i h
        exact (parseWkb_bin _ _ _ _ _ h).2.2 hn hf

/-- A GeoBIN Feature with a MultiLineString with M of one line meets the conditions. -/
example : ∃ g, tgParseGeobin ([3, 0, 0] ++ ([1, 0xD5, 7, 0, 0, 1, 0, 0, 0] ++ ([1, 0xD2, 7, 0, 0, 2, 0, 0, 0] ++ List.replicate 48 7#8))) = .geom g ∧ noErr g ∧ NoNull g ∧ FullRings g := by
  refine ⟨_, rfl, ?_, ?_, trivial⟩
  · simp [noErr, finishGeobin, buildMulti, wrapGeom, Geom.mapFlags]
  · simp [NoNull, finishGeobin, buildMulti, wrapGeom, Geom.mapFlags, Geom.lineOf]

/-- A MultiLineString with an empty LineString, which is valid WKB: the object holds a NULL line, and both text writers read through it. -/
theorem C58_wkb_null_line : ∃ g, tgParseWkb [1, 5, 0, 0, 0, 1, 0, 0, 0, 1, 2, 0, 0, 0, 0, 0, 0, 0] = .geom g ∧ ¬ Sound g ∧
    (tgGeomWkt (demoFmt false) g (List.replicate 50 0#8) 50).ub = true ∧ (tgGeomGeojson (demoFmt false) g (List.replicate 50 0#8) 50).ub = true := by
  refine ⟨.mline {} (some [none]) [] none, rfl, ?_, C12_null_child_undefined⟩
  rintro ⟨v, -, -, h, -⟩
  simp [NoNull] at h

/-- The same for a MultiPolygon with an empty Polygon. -/
theorem C58_wkb_null_polygon : ∃ g, tgParseWkb [1, 6, 0, 0, 0, 1, 0, 0, 0, 1, 3, 0, 0, 0, 0, 0, 0, 0] = .geom g ∧ ¬ Sound g ∧
    (tgGeomWkt (demoFmt false) g (List.replicate 50 0#8) 50).ub = true ∧ (tgGeomGeojson (demoFmt false) g (List.replicate 50 0#8) 50).ub = true := by
  refine ⟨.mpoly {} (some [none]) [] none, rfl, ?_, by decide +kernel⟩
  rintro ⟨v, -, -, h, -⟩
  simp [NoNull] at h

/-- A polygon with a ring that has no points is accepted. -/
theorem C58_wkb_empty_ring : ∃ g, tgParseWkb [1, 3, 0, 0, 0, 1, 0, 0, 0, 0, 0, 0, 0] = .geom g ∧ NoNull g ∧ view g = some (.poly false false [[]]) ∧ ¬ Sound g := by
  refine ⟨.poly {} ⟨[], []⟩, rfl, trivial, rfl, ?_⟩
  rintro ⟨v, h, h1, -⟩
  cases h
  exact absurd (h1 [] (List.mem_cons_self ..)).1 (by decide)

/-- An empty point in a MultiPoint becomes the point (0, 0). -/
theorem C58_wkb_empty_point_is_origin : ∃ g, tgParseWkb [1, 4, 0, 0, 0, 1, 0, 0, 0, 1, 1, 0, 0, 0, 0, 0, 0, 0, 0, 0, 0xF8, 0x7F, 0, 0, 0, 0, 0, 0, 0xF8, 0x7F] = .geom g ∧
    view g = some (.mpoint false false [[0#64, 0#64]]) := ⟨_, rfl, rfl⟩

end Tg
