import Verif.Lemmas.GeojsonWrite
/-! The text of the GeoJSON writer for plain geometries. -/
set_option linter.unusedSectionVars false
namespace Tg
open Spec

theorem json_posnT (num : F64 → List Byte) : Pj num = Geojson.posn num := by
  funext p; simp [Pj, Style.posnT, Style.json, Geojson.posn, bracket]
theorem json_series (num : F64 → List Byte) : Sj num = Geojson.series num := by
  funext p; rw [Sj, Style.series, show Style.json.posnT num = Pj num from rfl, json_posnT]; rfl
theorem json_nested (num : F64 → List Byte) : Nj num = Geojson.nested num := by
  funext p; rw [Nj, Style.nested, show Style.json.series num = Sj num from rfl, json_series]; rfl
theorem json_nested2 (num : F64 → List Byte) : N2j num = Geojson.nested2 num := by
  funext p; rw [N2j, Style.nested2, show Style.json.nested num = Nj num from rfl, json_nested]; rfl

theorem objT_eq (name : String) (c : List Byte) (h : gjHead name = txt "{\"type\":\"" ++ (txt name ++ (txt "\",\"" ++ (txt "coordinates" ++ txt "\":")))) :
    objT name c = Geojson.obj name "coordinates" c := by
  rw [objT, h, Geojson.obj, show txt "}" = [0x7D#8] from rfl]
  simp only [List.append_assoc]

theorem featT_plain {fl : Flags} (h : fl.isFeature = false) (t : List Byte) : featT fl t = t := by simp [featT, h]
theorem baseT_plain {fl : Flags} {x : Option (List Byte)} (h : BareFlags fl x) (t : List Byte) : baseT fl x t = t := by
  obtain ⟨h1, -, rfl⟩ := h
  simp [baseT, h1, gjExtra, extraT, Json.isObj, Json.head]

theorem empty_series (num : F64 → List Byte) : Geojson.series num [] = txt "[]" := by rfl
theorem empty_nested (num : F64 → List Byte) : Geojson.nested num [] = txt "[]" := by rfl
theorem empty_nested2 (num : F64 → List Byte) : Geojson.nested2 num [] = txt "[]" := by rfl

mutual
theorem jsonT_view (num : F64 → List Byte) : ∀ (g : Geom) (v : GV), view g = some v → Bare g → jsonT num g = Geojson.text num v
  | .point fl p, v, hv, hp => by
    rw [Bare] at hp
    rw [view] at hv; split at hv <;> simp at hv; subst hv
    rw [jsonT, featT_plain hp.1, objT_eq _ _ (by decide), json_posnT, Geojson.text]
  | .line fl pts, v, hv, hp => by
    rw [Bare] at hp
    rw [view] at hv; split at hv <;> simp at hv; subst hv
    rw [jsonT, featT_plain hp.1, objT_eq _ _ (by decide), json_series, Geojson.text]
  | .poly fl pl, v, hv, hp => by
    rw [Bare] at hp
    rw [view] at hv; split at hv <;> simp at hv; subst hv
    rw [jsonT, featT_plain hp.1, objT_eq _ _ (by decide), json_nested, Geojson.text]
  | .gpoint fl p z m x, v, hv, hp => by
    rw [Bare] at hp
    rw [view] at hv
    rw [jsonT, baseT_plain hp, objT_eq _ _ (by decide), json_posnT]
    by_cases he : fl.isEmpty = true
    · rw [if_pos he] at hv
      split at hv <;> simp at hv
      subst hv
      rw [if_pos he, Geojson.text]
    · rw [if_neg he] at hv; simp at hv; subst hv
      rw [if_neg he, Geojson.text, pointNums_eq]
      simp
  | .gline fl l cs x, v, hv, hp => by
    rw [Bare] at hp
    rw [jsonT, baseT_plain hp, objT_eq _ _ (by decide), json_series]
    by_cases he : fl.isEmpty = true
    · cases l <;> simp [view, he] at hv <;> subst hv <;> rw [if_pos he, Geojson.text, empty_series]
    · cases l with
      | none => simp [view, he] at hv
      | some pts =>
        simp [view, he] at hv; subst hv
        rw [if_neg he, Geojson.text]; simp [spec_dims]
  | .gpoly fl p cs x, v, hv, hp => by
    rw [Bare] at hp
    rw [jsonT, baseT_plain hp, objT_eq _ _ (by decide), json_nested]
    by_cases he : fl.isEmpty = true
    · cases p <;> simp [view, he] at hv <;> subst hv <;> rw [if_pos he, Geojson.text, empty_nested]
    · cases p with
      | none => simp [view, he] at hv
      | some pl =>
        simp [view, he] at hv; subst hv
        rw [if_neg he, Geojson.text]; simp [spec_dims]
  | .mpoint fl ps cs x, v, hv, hp => by
    rw [Bare] at hp
    rw [view] at hv; simp at hv; subst hv
    rw [jsonT, baseT_plain hp.1, objT_eq _ _ (by decide), json_series, Geojson.text]
    by_cases he : fl.isEmpty = true
    · rw [if_pos he, hp.2 he]; rfl
    · rw [if_neg he]; simp [spec_dims]
  | .mline fl ls cs x, v, hv, hp => by
    rw [Bare] at hp
    rw [view] at hv
    rw [jsonT, baseT_plain hp.1, objT_eq _ _ (by decide), json_nested]
    by_cases he : fl.isEmpty = true
    · rw [if_pos he] at hv; simp at hv; subst hv
      rw [hp.2 he, Geojson.text]; rfl
    · rw [if_neg he] at hv
      cases hl : (ls.getD []).mapM id with
      | none => rw [hl] at hv; simp at hv
      | some k =>
        rw [hl] at hv; simp at hv; subst hv
        rw [mapM_id_eq hl, filterMap_id_map_some, Geojson.text]
        simp [spec_dims]
  | .mpoly fl ps cs x, v, hv, hp => by
    rw [Bare] at hp
    rw [view] at hv
    rw [jsonT, baseT_plain hp.1, objT_eq _ _ (by decide), json_nested2]
    by_cases he : fl.isEmpty = true
    · rw [if_pos he] at hv; simp at hv; subst hv
      rw [hp.2 he, Geojson.text]; rfl
    · rw [if_neg he] at hv
      cases hl : (ps.getD []).mapM id with
      | none => rw [hl] at hv; simp at hv
      | some k =>
        rw [hl] at hv; simp at hv; subst hv
        rw [mapM_id_eq hl, filterMap_id_map_some, Geojson.text]
        simp [spec_dims]
  | .coll fl hasMulti gs cs x, v, hv, hp => by
    rw [Bare] at hp
    rw [view] at hv
    by_cases hz : (fl.hasZ || fl.hasM) = true
    · rw [if_pos hz] at hv; simp at hv
    rw [if_neg hz] at hv
    have hobj : ∀ ts, txt (if fl.isFeatureCol then "{\"type\":\"FeatureCollection\",\"features\":" else "{\"type\":\"GeometryCollection\",\"geometries\":") ++
        (bracket 0x5B#8 0x5D#8 ts ++ [0x7D#8]) = Geojson.obj "GeometryCollection" "geometries" (bracket 0x5B#8 0x5D#8 ts) := by
      intro ts
      have e : txt "{\"type\":\"GeometryCollection\",\"geometries\":" = txt "{\"type\":\"" ++ (txt "GeometryCollection" ++ (txt "\",\"" ++ (txt "geometries" ++ txt "\":"))) := by decide
      rw [hp.1.2.1, if_neg (by decide), e, Geojson.obj, show txt "}" = [0x7D#8] from rfl]
      simp only [List.append_assoc]
    rw [jsonT, baseT_plain hp.1, hobj]
    by_cases he : (!hasMulti || fl.isEmpty) = true
    · rw [if_pos he] at hv; simp at hv; subst hv
      have : (if hasMulti = true then jsonTs num gs else []) = [] := by
        cases hm : hasMulti with
        | false => rfl
        | true =>
          rw [hm] at he
          rcases hp.2.1 (by simpa using he) with e | e
          · rw [hm] at e; exact absurd e (by decide)
          · rw [e]; rfl
      rw [this, Geojson.text, Geojson.texts]
    · rw [if_neg he] at hv
      have hm : hasMulti = true := by revert he; cases hasMulti <;> simp
      cases hg : views gs with
      | none => rw [hg] at hv; simp at hv
      | some vs =>
        rw [hg] at hv; simp at hv; subst hv
        rw [if_pos hm, jsonTs_view num gs vs hg hp.2.2, Geojson.text]
  | .err _, v, hv, _ => by simp [view] at hv
theorem jsonTs_view (num : F64 → List Byte) : ∀ (gs : List Geom) (vs : List GV), views gs = some vs → Bares gs → jsonTs num gs = Geojson.texts num vs
  | [], vs, hv, _ => by simp [views] at hv; subst hv; rfl
  | g :: gs, vs, hv, hf => by
    rw [views] at hv
    rw [Bares] at hf
    cases h1 : view g with
    | none => rw [h1] at hv; simp at hv
    | some v =>
      cases h2 : views gs with
      | none => rw [h1, h2] at hv; simp at hv
      | some vs' =>
        rw [h1, h2] at hv; simp at hv; subst hv
        rw [jsonTs, Geojson.texts, jsonT_view num g v h1 hf.1, jsonTs_view num gs vs' h2 hf.2]
end

end Tg
