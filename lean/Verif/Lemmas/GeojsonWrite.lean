import Verif.Lemmas.TextWrite
import Verif.Model.GeojsonWrite
/-! The GeoJSON writer writes the same text for every size of the buffer. -/
set_option linter.unusedSectionVars false
namespace Tg

open Spec

variable {d0 : List Byte} {n : Nat} {bs ts : List Byte} {w : Wr}

/-- The text of `wFeatHead`. -/
def featHeadT (fjson : Option Json.J) : List Byte :=
  txt "{\"type\":\"Feature\"," ++
    (if (Json.objGet fjson (txt "id")).isSome then txt "\"id\":" ++ Json.rawOf (Json.objGet fjson (txt "id")) ++ [0x2C#8] else []) ++ txt "\"geometry\":"

/-- The text of a geometry `t` with its extra members. -/
def extraT (gjson : Option Json.J) (t : List Byte) : List Byte :=
  if Json.isObj gjson && (Json.first gjson).isSome && decide (2 < Json.rawLen gjson) then t.dropLast ++ 0x2C#8 :: (Json.rawOf gjson).drop 1 else t

/-- The text of `wPairs`. -/
def pairsT : List (Option Json.J × Option Json.J) → List Byte
  | [] => []
  | (k, v) :: ps => (if Json.rawOf k ≠ txt "\"id\"" then 0x2C#8 :: (Json.rawOf k ++ 0x3A#8 :: Json.rawOf v) else []) ++ pairsT ps

/-- `wrote_props`. -/
def pairsP (ps : List (Option Json.J × Option Json.J)) : Bool := ps.any fun p => Json.rawOf p.1 == txt "\"properties\""

/-- The text of `wFeatTail`. -/
def featTailT (nullProps : Bool) (fjson : Option Json.J) : List Byte :=
  (if Json.isObj fjson then pairsT (Json.pairs fjson) else []) ++
  (if Json.isObj fjson && pairsP (Json.pairs fjson) then [] else txt ",\"properties\":" ++ txt (if nullProps then "null" else "{}")) ++ [0x7D#8]

/-- The text of `wBase` around the text `t`. -/
def baseT (fl : Flags) (xjson : Option (List Byte)) (t : List Byte) : List Byte :=
  (if fl.isFeature then featHeadT (gjExtra fl.isFeature xjson).1 else []) ++
  extraT (gjExtra fl.isFeature xjson).2 (if fl.isFeature && fl.unlocated then txt "null" else t) ++
  (if fl.isFeature then featTailT fl.nullProps (gjExtra fl.isFeature xjson).1 else [])

/-- The text of `wFeat` around the text `t`. -/
def featT (fl : Flags) (t : List Byte) : List Byte :=
  (if fl.isFeature then txt "{\"type\":\"Feature\",\"geometry\":" else []) ++ t ++
  (if fl.isFeature then txt ",\"properties\":" ++ txt (if fl.nullProps then "null}" else "{}}") else [])

theorem featHead_holds (hn : n ≤ d0.length) (fjson : Option Json.J) (h : Holds d0 n bs w) : Holds d0 n (bs ++ featHeadT fjson) (wFeatHead fjson w) := by
  unfold wFeatHead featHeadT
  dsimp only
  by_cases hi : (Json.objGet fjson (txt "id")).isSome = true
  · rw [if_pos hi, if_pos hi]
    have := ((((h.bytes hn (txt "{\"type\":\"Feature\",")).bytes hn (txt "\"id\":")).bytes hn (Json.rawOf (Json.objGet fjson (txt "id")))).byte hn 0x2C#8).bytes hn
      (txt "\"geometry\":")
    simpa only [List.append_assoc] using this
  · rw [if_neg hi, if_neg hi]
    have := (h.bytes hn (txt "{\"type\":\"Feature\",")).bytes hn (txt "\"geometry\":")
    simpa only [List.append_assoc, List.nil_append] using this

theorem extra_holds (hn : n ≤ d0.length) (gjson : Option Json.J) {t : List Byte} (ht : t ≠ []) (h : Holds d0 n (bs ++ t) w) :
    Holds d0 n (bs ++ extraT gjson t) (wExtra gjson w) := by
  unfold wExtra extraT
  by_cases hi : (Json.isObj gjson && (Json.first gjson).isSome && decide (2 < Json.rawLen gjson)) = true
  · rw [if_pos hi, if_pos hi]
    have hl : bs ++ t = (bs ++ t.dropLast) ++ [t.getLast ht] := by rw [List.append_assoc, List.dropLast_append_getLast]
    have hc := h.count
    rw [hl] at h
    have h1 := h.rewind (c := w.count - 1) (by rw [hc, hl]; simp)
    have := (h1.byte hn 0x2C#8).bytes hn ((Json.rawOf gjson).drop 1)
    simpa only [List.append_assoc, List.cons_append, List.nil_append] using this
  · rw [if_neg hi, if_neg hi]; exact h

theorem pairs_holds (hn : n ≤ d0.length) (ps : List (Option Json.J × Option Json.J)) : ∀ (wp : Bool) {bs : List Byte} {w : Wr}, Holds d0 n bs w →
    Holds d0 n (bs ++ pairsT ps) (wPairs ps wp w).1 ∧ (wPairs ps wp w).2 = (wp || pairsP ps) := by
  induction ps with
  | nil => intro wp bs w h; simpa [wPairs, pairsT, pairsP] using h
  | cons p ps ih =>
    obtain ⟨k, v⟩ := p
    intro wp bs w h
    by_cases hk : Json.rawOf k ≠ txt "\"id\""
    · rw [wPairs, if_pos hk, pairsT, if_pos hk]
      have h1 := (((h.byte hn 0x2C#8).bytes hn (Json.rawOf k)).byte hn 0x3A#8).bytes hn (Json.rawOf v)
      obtain ⟨h2, h3⟩ := ih (wp || Json.rawOf k == txt "\"properties\"") h1
      refine ⟨by simpa only [List.append_assoc, List.cons_append, List.nil_append] using h2, ?_⟩
      rw [h3]
      simp [pairsP, Bool.or_assoc]
    · rw [wPairs, if_neg hk, pairsT, if_neg hk]
      obtain ⟨h2, h3⟩ := ih wp h
      refine ⟨by simpa only [List.nil_append] using h2, ?_⟩
      rw [h3]
      push Not at hk
      have : (txt "\"id\"" == txt "\"properties\"") = false := by decide
      simp [pairsP, hk, this]

theorem featTail_holds (hn : n ≤ d0.length) (np : Bool) (fjson : Option Json.J) (h : Holds d0 n bs w) :
    Holds d0 n (bs ++ featTailT np fjson) (wFeatTail np fjson w) := by
  have key : ∀ (t : List Byte) (p : Bool) (r : Wr × Bool), Holds d0 n (bs ++ t) r.1 → r.2 = p →
      Holds d0 n (bs ++ (t ++ (if p then [] else txt ",\"properties\":" ++ txt (if np then "null" else "{}")) ++ [0x7D#8]))
        ((if r.2 then r.1 else (r.1.bytes (txt ",\"properties\":")).bytes (txt (if np then "null" else "{}"))).byte 0x7D#8) := by
    intro t p r hr hp
    subst hp
    cases hq : r.2 with
    | true =>
      simp only [if_true]
      have := hr.byte hn 0x7D#8
      simpa only [List.append_assoc, List.append_nil] using this
    | false =>
      have := ((hr.bytes hn (txt ",\"properties\":")).bytes hn (txt (if np then "null" else "{}"))).byte hn 0x7D#8
      simpa only [Bool.false_eq_true, if_false, List.append_assoc, List.append_nil] using this
  unfold wFeatTail featTailT
  dsimp only
  cases ho : Json.isObj fjson with
  | true =>
    simp only [if_true, Bool.true_and]
    obtain ⟨h2, h3⟩ := pairs_holds hn (Json.pairs fjson) false h
    exact key _ _ _ h2 (by simpa using h3)
  | false =>
    simp only [Bool.false_eq_true, if_false, Bool.false_and]
    exact key [] false (w, false) (by simpa using h) rfl

theorem base_holds (hn : n ≤ d0.length) (fl : Flags) (x : Option (List Byte)) {t : List Byte} (ht : t ≠ []) {wG : Wr → Wr}
    (hG : ∀ {bs w}, Holds d0 n bs w → Holds d0 n (bs ++ t) (wG w)) (h : Holds d0 n bs w) : Holds d0 n (bs ++ baseT fl x t) (wBase fl x wG w) := by
  unfold wBase baseT
  dsimp only
  generalize gjExtra fl.isFeature x = e
  have h1 : Holds d0 n (bs ++ (if fl.isFeature then featHeadT e.1 else [])) (if fl.isFeature then wFeatHead e.1 w else w) := by
    cases fl.isFeature with
    | true => exact featHead_holds hn _ h
    | false => simpa using h
  have h2 : Holds d0 n (bs ++ (if fl.isFeature then featHeadT e.1 else []) ++ (if fl.isFeature && fl.unlocated then txt "null" else t))
      (if fl.isFeature && fl.unlocated then (if fl.isFeature then wFeatHead e.1 w else w).bytes (txt "null") else wG (if fl.isFeature then wFeatHead e.1 w else w)) := by
    cases (fl.isFeature && fl.unlocated) with
    | true => exact h1.bytes hn _
    | false => exact hG h1
  have h3 := extra_holds hn e.2 (by split; decide; exact ht) h2
  cases hf : fl.isFeature with
  | true =>
    simp only [if_true]
    rw [hf] at h3
    have := featTail_holds hn fl.nullProps e.1 h3
    simpa only [List.append_assoc, if_true] using this
  | false =>
    rw [hf] at h3
    simpa only [List.append_assoc, List.append_nil, List.nil_append, Bool.false_eq_true, if_false] using h3

theorem feat_holds (hn : n ≤ d0.length) (fl : Flags) {t : List Byte} {wG : Wr → Wr}
    (hG : ∀ {bs w}, Holds d0 n bs w → Holds d0 n (bs ++ t) (wG w)) (h : Holds d0 n bs w) : Holds d0 n (bs ++ featT fl t) (wFeat fl wG w) := by
  unfold wFeat featT
  dsimp only
  cases fl.isFeature with
  | true =>
    have := ((hG (h.bytes hn (txt "{\"type\":\"Feature\",\"geometry\":"))).bytes hn (txt ",\"properties\":")).bytes hn (txt (if fl.nullProps then "null}" else "{}}"))
    simpa only [if_true, List.append_assoc] using this
  | false => simpa using hG h

/-- The text of a position, list of positions, ... -/
def Pj (num : F64 → List Byte) := Style.json.posnT num
def Sj (num : F64 → List Byte) := Style.json.series num
def Nj (num : F64 → List Byte) := Style.json.nested num
def N2j (num : F64 → List Byte) := Style.json.nested2 num

/-- An object with coordinates. -/
def objT (name : String) (c : List Byte) : List Byte := gjHead name ++ (c ++ [0x7D#8])

mutual
/-- The text of a geometry as stored. -/
def jsonT (num : F64 → List Byte) : Geom → List Byte
  | .point fl p => featT fl (objT "Point" (Pj num [p.x, p.y]))
  | .line fl pts => featT fl (objT "LineString" (Sj num (posns 0 pts [])))
  | .poly fl pl => featT fl (objT "Polygon" (Nj num (posnss 0 (rings pl) [])))
  | .gpoint fl p z m x => baseT fl x (objT "Point" (if fl.isEmpty then txt "[]" else Pj num (pointNums fl p z m)))
  | .gline fl l cs x => baseT fl x (objT "LineString" (if fl.isEmpty then txt "[]" else Sj num (posns (fl.dims - 2) (l.getD []) cs)))
  | .gpoly fl p cs x => baseT fl x (objT "Polygon" (if fl.isEmpty then txt "[]" else Nj num (posnss (fl.dims - 2) (rings (p.getD ⟨[], []⟩)) cs)))
  | .mpoint fl ps cs x => baseT fl x (objT "MultiPoint" (Sj num (posns (fl.dims - 2) (ps.getD []) cs)))
  | .mline fl ls cs x => baseT fl x (objT "MultiLineString" (Nj num (posnss (fl.dims - 2) ((ls.getD []).filterMap id) cs)))
  | .mpoly fl ps cs x => baseT fl x (objT "MultiPolygon" (N2j num (posnsss (fl.dims - 2) (((ps.getD []).filterMap id).map rings) cs)))
  | .coll fl hasMulti gs _ x => baseT fl x
      (txt (if fl.isFeatureCol then "{\"type\":\"FeatureCollection\",\"features\":" else "{\"type\":\"GeometryCollection\",\"geometries\":") ++
        (bracket 0x5B#8 0x5D#8 (if hasMulti then jsonTs num gs else []) ++ [0x7D#8]))
  | .err _ => txt "{\"type\":\"Point\",\"coordinates\":[]}"
/-- The texts of the children. -/
def jsonTs (num : F64 → List Byte) : List Geom → List (List Byte)
  | [] => []
  | g :: gs => jsonT num g :: jsonTs num gs
end

theorem objT_ne (name : String) (c : List Byte) : objT name c ≠ [] := by simp [objT]

section
variable {nf : NumFmt} (hnf : nf.Sci)
include hnf

theorem obj_holds (hn : n ≤ d0.length) (name : String) {c : List Byte} {wC : Wr → Wr} (hC : ∀ {bs w}, Holds d0 n bs w → Holds d0 n (bs ++ c) (wC w))
    (h : Holds d0 n bs w) : Holds d0 n (bs ++ objT name c) ((wC (w.bytes (gjHead name))).byte 0x7D#8) := by
  have := (hC (h.bytes hn (gjHead name))).byte hn 0x7D#8
  simpa only [objT, List.append_assoc] using this

mutual
theorem writeJson_holds (hn : n ≤ d0.length) : ∀ (g : Geom), NoNull g → ∀ {bs : List Byte} {w : Wr}, Holds d0 n bs w →
    Holds d0 n (bs ++ jsonT nf.text g) (writeJson nf g w)
  | .point fl p, _, bs, w, h => by
    rw [writeJson, jsonT]
    exact feat_holds hn fl (fun h => obj_holds hnf hn _ (fun h => wPosn_holds hnf .json hn _ h) h) h
  | .line fl pts, _, bs, w, h => by
    rw [writeJson, jsonT]
    exact feat_holds hn fl (fun h => obj_holds hnf hn _ (fun h => wRing_holds hnf .json hn (.inl rfl) _ _ h) h) h
  | .poly fl pl, _, bs, w, h => by
    rw [writeJson, jsonT]
    exact feat_holds hn fl (fun h => obj_holds hnf hn _ (fun h => wPoly_holds hnf .json hn (.inl rfl) _ _ h) h) h
  | .gpoint fl p z m x, _, bs, w, h => by
    rw [writeJson, jsonT]
    refine base_holds hn fl x (objT_ne _ _) (fun h => ?_) h
    cases fl.isEmpty with
    | true =>
      simp only [if_true]
      exact obj_holds hnf hn _ (wC := fun w => w.bytes (txt "[]")) (fun h => h.bytes hn _) h
    | false =>
      simp only [Bool.false_eq_true, if_false]
      exact obj_holds hnf hn _ (fun h => wPosn_holds hnf .json hn _ h) h
  | .gline fl l cs x, hg, bs, w, h => by
    rw [writeJson, jsonT]
    refine base_holds hn fl x (objT_ne _ _) (fun h => ?_) h
    rw [NoNull] at hg
    cases he : fl.isEmpty with
    | true =>
      simp only [if_true]
      exact obj_holds hnf hn _ (wC := fun w => w.bytes (txt "[]")) (fun h => h.bytes hn _) h
    | false =>
      cases l with
      | none => simp [he] at hg
      | some pts => exact obj_holds hnf hn _ (fun h => wRing_holds hnf .json hn (fl_dims fl) _ _ h) h
  | .gpoly fl p cs x, hg, bs, w, h => by
    rw [writeJson, jsonT]
    refine base_holds hn fl x (objT_ne _ _) (fun h => ?_) h
    rw [NoNull] at hg
    cases he : fl.isEmpty with
    | true =>
      simp only [if_true]
      exact obj_holds hnf hn _ (wC := fun w => w.bytes (txt "[]")) (fun h => h.bytes hn _) h
    | false =>
      cases p with
      | none => simp [he] at hg
      | some pl => exact obj_holds hnf hn _ (fun h => wPoly_holds hnf .json hn (fl_dims fl) _ _ h) h
  | .mpoint fl ps cs x, _, bs, w, h => by
    rw [writeJson, jsonT]
    exact base_holds hn fl x (objT_ne _ _) (fun h => obj_holds hnf hn _ (fun h => wMPoint_holds hnf .json hn (fl_dims fl) _ _ h) h) h
  | .mline fl ls cs x, hg, bs, w, h => by
    rw [writeJson, jsonT]
    rw [NoNull] at hg
    obtain ⟨k, hk⟩ := exists_map_some hg
    rw [hk, filterMap_id_map_some]
    exact base_holds hn fl x (objT_ne _ _) (fun h => obj_holds hnf hn _ (fun h => wMLine_holds hnf .json hn (fl_dims fl) _ _ h) h) h
  | .mpoly fl ps cs x, hg, bs, w, h => by
    rw [writeJson, jsonT]
    rw [NoNull] at hg
    obtain ⟨k, hk⟩ := exists_map_some hg
    rw [hk, filterMap_id_map_some]
    exact base_holds hn fl x (objT_ne _ _) (fun h => obj_holds hnf hn _ (fun h => wMPoly_holds hnf .json hn (fl_dims fl) _ _ h) h) h
  | .coll fl hasMulti gs _ x, hg, bs, w, h => by
    rw [writeJson, jsonT]
    rw [NoNull] at hg
    refine base_holds hn fl x (by simp) (fun {bs w} h => ?_) h
    dsimp only
    have h1 := (h.bytes hn (txt (if fl.isFeatureCol then "{\"type\":\"FeatureCollection\",\"features\":" else "{\"type\":\"GeometryCollection\",\"geometries\":"))).byte
      hn 0x5B#8
    cases hasMulti with
    | true =>
      have := ((writeJsons_holds hn gs (hg.resolve_left (by decide)) true h1).byte hn 0x5D#8).byte hn 0x7D#8
      rw [bracket_eq]
      simpa using this
    | false =>
      have := (h1.byte hn 0x5D#8).byte hn 0x7D#8
      rw [bracket_eq]
      simpa [joinF, join] using this
  | .err _, _, bs, w, h => by rw [writeJson, jsonT]; exact h.bytes hn _
theorem writeJsons_holds (hn : n ≤ d0.length) : ∀ (gs : List Geom), NoNulls gs → ∀ (first : Bool) {bs : List Byte} {w : Wr}, Holds d0 n bs w →
    Holds d0 n (bs ++ joinF first (jsonTs nf.text gs)) (writeJsons nf first gs w)
  | [], _, first, bs, w, h => by simpa [writeJsons, jsonTs, joinF_nil] using h
  | g :: gs, hg, first, bs, w, h => by
    rw [NoNulls] at hg
    have := writeJsons_holds hn gs hg.2 false (writeJson_holds hn g hg.1 (h.comma hn first))
    rw [jsonTs, joinF_cons, writeJsons]
    simpa using this
end
end

end Tg
