import Verif.Lemmas.GeojsonRound
import Verif.Props.GeojsonParse
import Verif.Props.Text
/-!
Property C56: what `tg_geom_geojson` writes is read back by `tg_parse_geojson`.
-/
namespace Tg
open Spec Spec.Json

/-- The numbers are written so that they can be read, in fewer than 512 bytes. -/
theorem short_readable {nf : NumFmt} (hnf : ∀ x, x.isNormal = true → SciShort (nf.d2s x)) {rnd : ℚ → F64} (h0 : rnd 0 = 0#64) (x : F64) (hx : Readable nf.d2s rnd x) :
    Gp.Ok (ShortNum rnd) nf.text x := by
  have h1 : ∀ x, x.isNormal = true → ∃ q, IsDecimal (nf.d2s x) q ∧ IsDecimal (nf.text x) q := by
    intro x hx
    obtain ⟨q, e1, e2⟩ := fpText_decimal (!nf.fixed) (sciShort_sci (hnf x hx))
    exact ⟨q, e1, by simpa [NumFmt.text, numText, hx] using e2⟩
  have h2 : ∀ x, x.isNormal = false → nf.text x = txt "0" := by
    intro x hx
    simp only [NumFmt.text, numText, hx]; rfl
  have h3 := readable_num h0 h1 h2 x hx
  have h4 : (nf.text x).length < 512 := by
    by_cases hx : x.isNormal = true
    · simpa [NumFmt.text, numText, hx] using fpText_short (!nf.fixed) (hnf x hx)
    · rw [h2 x (by simpa using hx)]; decide
  obtain ⟨q, hq, -⟩ := id h3
  exact ⟨⟨h3, h4⟩, decimal_number hq⟩

theorem geojson_written (nf : NumFmt) (hnf : ∀ x, x.isNormal = true → IsSci (nf.d2s x)) {g : Geom} {v : GV} (hg : NoNull g) (hb : Bare g) (hv : view g = some v)
    {dst : List Byte} {n : Nat} (hd : n ≤ dst.length) (hfit : (tgGeomGeojson nf g dst n).count < n) :
    (tgGeomGeojson nf g dst n).dst.take (tgGeomGeojson nf g dst n).count = Geojson.text nf.text v := by
  refine written_text (dst := dst) ?_ hfit
  rw [← jsonT_view nf.text g v hv hb]
  exact (by simpa using writeJson_holds hnf hd g hg (holds_start dst n hd) : Holds dst n (jsonT nf.text g) _).final hd

/-- C56. The text that `tg_geom_geojson` leaves in a buffer that is large enough, for a geometry of at most 1024 levels, is parsed to a geometry of the same type and coordinates. An M without Z is
read as Z, and what is empty does not keep its dimensions (see `Geojson.reread`). -/
theorem C56_geojson_round_trip (nf : NumFmt) (hnf : ∀ x, x.isNormal = true → SciShort (nf.d2s x)) (rnd : ℚ → F64) (h0 : rnd 0 = 0#64) (sd : List Byte → F64 × Nat) (hs : StrtodAll sd rnd)
    (g : Geom) (v : GV) (hg : NoNull g) (hb : Bare g) (hv : view g = some v) (hw : Wkt.Wf v) (hc : Wkt.AllCoords (Readable nf.d2s rnd) v) (hn : Geojson.levels v ≤ 1024)
    (dst : List Byte) (n : Nat) (hd : n ≤ dst.length) (hfit : (tgGeomGeojson nf g dst n).count < n) :
    ∃ g', Gp.tgParseGeojson sd ((tgGeomGeojson nf g dst n).dst.take (tgGeomGeojson nf g dst n).count) = .geom g' ∧ view g' = some (Geojson.reread (Geojson.zForM v)) := by
  have hc' : Wkt.AllCoords (Gp.Ok (ShortNum rnd) nf.text) (Geojson.zForM v) := (Gp.zForM_coords v).2 (Wp.AllCoords.mono (short_readable hnf h0) v hc)
  rw [geojson_written nf (fun x hx => (sciShort_sci (hnf x hx))) hg hb hv hd hfit, ← Gp.zForM_text]
  obtain ⟨h1, h2⟩ := Gp.text_geo _ ((Gp.zForM_wf v).2 hw) hc'
  rw [Gp.zForM_levels] at h2
  obtain ⟨g', e1, e2, -⟩ := C55_geojson_accepted sd rnd hs (Geojson.zForM v) ((Gp.zForM_wf v).2 hw) (Gp.zForM_first v) _ [] [] h1 Json.ws_none Json.ws_none (Json.val_up h2.1 hn) (by
    rintro ⟨p, q, e⟩
    rw [List.nil_append, List.append_nil] at e
    have := (h2.2 0xF4 (by rw [← e]; simp)).1
    revert this; decide)
  rw [List.nil_append, List.append_nil] at e1
  exact ⟨g', e1, e2⟩

/-- With more levels, the text that was written is always rejected. -/
theorem C56_deep_lost (nf : NumFmt) (hnf : ∀ x, x.isNormal = true → SciShort (nf.d2s x)) (rnd : ℚ → F64) (h0 : rnd 0 = 0#64) (sd : List Byte → F64 × Nat)
    (g : Geom) (v : GV) (hg : NoNull g) (hb : Bare g) (hv : view g = some v) (hw : Wkt.Wf v) (hc : Wkt.AllCoords (Readable nf.d2s rnd) v) (hn : 1024 < Geojson.levels v)
    (dst : List Byte) (n : Nat) (hd : n ≤ dst.length) (hfit : (tgGeomGeojson nf g dst n).count < n) :
    ∃ e, Gp.tgParseGeojson sd ((tgGeomGeojson nf g dst n).dst.take (tgGeomGeojson nf g dst n).count) = .error e := by
  have hc' : Wkt.AllCoords (Gp.Ok (ShortNum rnd) nf.text) v := Wp.AllCoords.mono (short_readable hnf h0) v hc
  rw [geojson_written nf (fun x hx => (sciShort_sci (hnf x hx))) hg hb hv hd hfit]
  obtain ⟨-, h2⟩ := Gp.text_geo _ hw hc'
  have h3 := Gp.text_least _ hw hc'
  obtain ⟨l, hl⟩ := Gp.text_ends (num := nf.text) v
  have hf : Json.jsonValidn (Geojson.text nf.text v) = some false := by
    rcases C17_json_safe (Geojson.text nf.text v) with h | h
    · exfalso
      obtain ⟨w, t, w', hw1, ht, hw2, e⟩ := C16_json_sound_partial _ h (fun b hb => by
        have := (h2.2 b hb).1
        constructor <;> rintro rfl <;> revert this <;> decide) (fun p t e => absurd rfl (h2.2 0x5C (by rw [e]; simp)).2)
      have hw0 : w = [] := by
        cases w with
        | nil => rfl
        | cons b w =>
          rw [hl] at e
          simp only [List.cons_append, List.cons.injEq] at e
          have := hw1 b (by simp)
          rw [← e.1] at this
          exact absurd this (by decide)
      have hw0' : w' = [] := by
        rcases List.eq_nil_or_concat w' with h | ⟨w', b, rfl⟩
        · exact h
        · have e2 := congrArg List.getLast? (hl.symm.trans e)
          rw [List.concat_eq_append, ← List.append_assoc, ← List.append_assoc, List.getLast?_append, ← List.cons_append, List.getLast?_append] at e2
          have := hw2 b (by simp)
          simp only [List.getLast?_singleton, Option.some_or, Option.some.injEq] at e2
          rw [← e2] at this
          exact absurd this (by decide)
      subst hw0; subst hw0'
      rw [List.nil_append, List.append_nil] at e
      have := h3 1024 (e ▸ ht)
      omega
    · exact h
  unfold Gp.tgParseGeojson
  rw [hf]
  exact ⟨_, rfl⟩

/-- The digits of the examples are short. -/
theorem demo_short (fixed : Bool) : ∀ x : F64, x.isNormal = true → SciShort ((demoFmt fixed).d2s x) := by
  intro x _
  simp only [demoFmt]
  have hd : ∀ l : List Byte, (∀ b ∈ l, 0x30 ≤ b.toNat ∧ b.toNat ≤ 0x39) → ∀ b ∈ l, Digit b := fun l h => h
  split_ifs
  · exact ⟨false, false, 0x31#8, [0x35#8], [0x30#8], by decide, hd [0x31#8] (by decide) _ (by simp), by decide, hd _ (by decide), by decide, hd _ (by decide), by decide, by decide⟩
  · exact ⟨true, false, 0x31#8, [0x39#8], [0x31#8], by decide, hd [0x31#8] (by decide) _ (by simp), by decide, hd _ (by decide), by decide, hd _ (by decide), by decide, by decide⟩
  · exact ⟨false, false, 0x31#8, [], [0x33#8, 0x30#8, 0x30#8], by decide, hd [0x31#8] (by decide) _ (by simp), by decide, hd _ (by decide), by decide, hd _ (by decide), by decide, by decide⟩
  · exact ⟨false, true, 0x32#8, [], [0x37#8], by decide, hd [0x32#8] (by decide) _ (by simp), by decide, hd _ (by decide), by decide, hd _ (by decide), by decide, by decide⟩

/-- The collection of C14, with an empty polygon and a line with M, goes through GeoJSON, and M comes back as Z. -/
example : ∃ g', Gp.tgParseGeojson (Gp.readAll demoRnd) ((tgGeomGeojson (demoFmt false) roundGeom (List.replicate 200 0#8) 200).dst.take
    (tgGeomGeojson (demoFmt false) roundGeom (List.replicate 200 0#8) 200).count) = .geom g' ∧ view g' = some (Geojson.reread (Geojson.zForM roundView)) := by
  obtain ⟨h1, h2, h3, h4, h5, h6, h7⟩ := round_meets
  exact C56_geojson_round_trip (demoFmt false) (demo_short false) demoRnd h7 _ (readAll_strtod _) roundGeom roundView h1 (by simp [roundGeom, Bare, Bares, BareFlags]) h3 h4 h5 (by decide +kernel)
    (List.replicate 200 0#8) 200 (by rw [List.length_replicate]) (by decide +kernel)

/-- What that is. -/
example : Geojson.reread (Geojson.zForM roundView) =
    .coll [.poly false false [], .line true false [[0x3FF8000000000000#64, 0xC033000000000000#64, 0x3FF8000000000000#64], [0#64, 0#64, 0xC033000000000000#64]]] := by
  simp [roundView, Geojson.zForM, Geojson.zForMs, Geojson.reread, Geojson.rereads]

/-- `k` collections around an empty one. -/
def onion : Nat → Geom
  | 0 => .coll {} true [] [] none
  | k + 1 => .coll {} true [onion k] [] none
/-- What the user sees of it. -/
def onionView : Nat → GV
  | 0 => .coll []
  | k + 1 => .coll [onionView k]

theorem onion_meets (P : F64 → Prop) (k : Nat) : NoNull (onion k) ∧ Bare (onion k) ∧ view (onion k) = some (onionView k) ∧ Wkt.Wf (onionView k) ∧ Wkt.AllCoords P (onionView k) ∧
    Geojson.levels (onionView k) = 2 * k + 2 := by
  induction k with
  | zero => exact ⟨by simp [onion, NoNull, NoNulls], by simp [onion, Bare, Bares, BareFlags], rfl, by simp [onionView, Wkt.Wf, Wkt.Wfs], by simp [onionView, Wkt.AllCoords, Wkt.AllCoordss], by
      simp [onionView, Geojson.levels, Geojson.levelss]⟩
  | succ k ih =>
    obtain ⟨h1, h2, h3, h4, h5, h6⟩ := ih
    refine ⟨by simp [onion, NoNull, NoNulls, h1], by simp [onion, Bare, Bares, BareFlags, h2], ?_, by simp [onionView, Wkt.Wf, Wkt.Wfs, h4], by simp [onionView, Wkt.AllCoords, Wkt.AllCoordss, h5], ?_⟩
    · simp [onion, onionView, view, views, h3]
    · simp [onionView, Geojson.levels, Geojson.levelss, h6]; omega

/-- So 511 collections around an empty one are read back, and 512 are not. -/
example : Geojson.levels (onionView 511) ≤ 1024 ∧ 1024 < Geojson.levels (onionView 512) := by
  rw [(onion_meets (fun _ => True) _).2.2.2.2.2, (onion_meets (fun _ => True) _).2.2.2.2.2]; omega

end Tg
