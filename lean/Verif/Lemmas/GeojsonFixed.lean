import Verif.Lemmas.GeojsonAgain
/-! The levels of what is written, and the text of Features and FeatureCollections that were parsed. -/
set_option linter.unusedSectionVars false
namespace Tg.Gp
open Spec Spec.Geojson Spec.Json Json
attribute [-instance] instDecidableEqProd

section
variable {N N0 : List Byte → F64 → Prop} {num : F64 → List Byte}

/-! ### Levels of what is read -/

theorem number_jval {n : List Byte} (h : IsNumber n) : JVal n := ⟨1, .num 0 _ h⟩
theorem posn_json {p : List F64} {t : List Byte} (h : IsPosn N0 p t) : JVal t := by
  obtain ⟨ts, h1, h2, -⟩ := h
  exact arr_jval h1 fun v hv => number_jval (h2 v hv)
theorem series_json {p : List (List F64)} {t : List Byte} (h : IsSeries N0 p t) : JVal t := list_jval (fun _ _ => posn_json) h
theorem rings_json {p : List (List (List F64))} {t : List Byte} (h : IsRings N0 p t) : JVal t := list_jval (fun _ _ => series_json) h

theorem typed_json {name field : String} {c t : List Byte} (h : TypeObj name field c t) : JVal t := by
  obtain ⟨ms, ty, h1, -⟩ := h
  exact obj_jval h1

mutual
theorem geometry_json : ∀ {v : GV} {t : List Byte}, IsGeometry N0 v t → JVal t
  | .point _ _ (some _), t, h | .point _ _ none, t, h | .line _ _ _, t, h | .poly _ _ _, t, h | .mpoint _ _ _, t, h | .mline _ _ _, t, h | .mpoly _ _ _, t, h => by
    rw [IsGeometry] at h; obtain ⟨c, h1, -⟩ := h; exact typed_json h1
  | .coll _, t, h => by rw [IsGeometry] at h; obtain ⟨c, ts, h1, -⟩ := h; exact typed_json h1
theorem geometries_json : ∀ {vs : List GV} {ts : List (List Byte)}, AreGeometries N0 vs ts → ∀ t ∈ ts, JVal t
  | [], ts, h => by rw [AreGeometries] at h; subst h; simp
  | v :: vs, ts, h => by
    rw [AreGeometries] at h
    obtain ⟨t, ts, rfl, h1, h2⟩ := h
    intro u hu
    rcases List.mem_cons.1 hu with rfl | hu
    · exact geometry_json h1
    · exact geometries_json h2 u hu
end

theorem geometry_not_null {v : GV} {t : List Byte} (h : IsGeometry N0 v t) : t ≠ txt "null" := by
  rintro rfl
  have : ∃ name field c, TypeObj name field c (txt "null") := by
    match v, h with
    | .point _ _ (some _), h | .point _ _ none, h | .line _ _ _, h | .poly _ _ _, h | .mpoint _ _ _, h | .mline _ _ _, h | .mpoly _ _ _, h => rw [IsGeometry] at h; obtain ⟨c, h1, -⟩ := h; exact ⟨_, _, _, h1⟩
    | .coll _, h => rw [IsGeometry] at h; obtain ⟨c, ts, h1, -⟩ := h; exact ⟨_, _, _, h1⟩
  obtain ⟨_, _, _, ms, _, h, -⟩ := this
  exact null_not_obj h

theorem list_least {α : Type} {I : α → List Byte → Prop} (hI : ∀ a t, I a t → JVal t) {k : Nat} {l : List α} {t : List Byte} (hl : l ≠ []) (h : IsList I l t) (hk : ∀ a ∈ l, ∀ t, I a t → Least k t) :
    Least (k + 1) t := by
  intro i hi
  obtain ⟨ts, h1, h2⟩ := h
  obtain ⟨m, rfl, h3⟩ := arr_inv h1 (forall₂_jval hI h2) hi
  cases h2 with
  | nil => exact absurd rfl hl
  | @cons a u _ _ ha _ =>
    have := hk a (by simp) u ha m (h3 u (by simp))
    omega

theorem posn_least {p : List F64} {t : List Byte} (hp : p ≠ []) (h : IsPosn N0 p t) : Least 2 t := by
  intro i hi
  obtain ⟨ts, h1, h2, h3⟩ := h
  obtain ⟨m, rfl, h4⟩ := arr_inv h1 (fun v hv => number_jval (h2 v hv)) hi
  cases ts with
  | nil => cases h3; exact absurd rfl hp
  | cons u us =>
    have := val_pos (h4 u (by simp))
    omega

theorem series_least {p : List (List F64)} {t : List Byte} (hp : p ≠ []) (hq : ∀ q ∈ p, q ≠ []) (h : IsSeries N0 p t) : Least 3 t :=
  list_least (fun _ _ => posn_json) hp h fun a ha _ => posn_least (hq a ha)
theorem rings_least {p : List (List (List F64))} {t : List Byte} (hp : p ≠ []) (hq : ∀ q ∈ p, q ≠ []) (hr : ∀ q ∈ p, ∀ r ∈ q, r ≠ []) (h : IsRings N0 p t) : Least 4 t :=
  list_least (fun _ _ => series_json) hp h fun a ha _ => series_least (hq a ha) (hr a ha)
theorem polys_least {p : List (List (List (List F64)))} {t : List Byte} (hp : p ≠ []) (hq : ∀ q ∈ p, q ≠ []) (hr : ∀ q ∈ p, ∀ r ∈ q, r ≠ []) (hs : ∀ q ∈ p, ∀ r ∈ q, ∀ s ∈ r, s ≠ [])
    (h : IsPolys N0 p t) : Least 5 t :=
  list_least (fun _ _ => rings_json) hp h fun a ha _ => rings_least (hq a ha) (hr a ha) (hs a ha)

mutual
theorem geometry_least : ∀ (v : GV) (t : List Byte), IsGeometry N0 v t → Wkt.Wf v → Least (levels v) t
  | .point _ _ (some _), t, h, hw => by
    rw [IsGeometry] at h; rw [Wkt.Wf] at hw; rw [levels]
    obtain ⟨c, h1, h2⟩ := h
    exact least_obj h1 (posn_least (posOk_ne hw) h2)
  | .point _ _ none, t, h, hw => by
    rw [IsGeometry] at h; rw [levels]
    obtain ⟨c, h1, h2⟩ := h
    exact least_obj h1 least_zero
  | .line _ _ ps, t, h, hw => by
    rw [IsGeometry] at h; rw [Wkt.Wf] at hw; rw [levels]
    obtain ⟨c, h1, h2⟩ := h
    split_ifs with he
    · exact least_obj h1 least_zero
    · exact least_obj h1 (series_least he (lineWf_ne (hw.resolve_left he)).2 h2)
  | .poly _ _ ps, t, h, hw => by
    rw [IsGeometry] at h; rw [Wkt.Wf] at hw; rw [levels]
    obtain ⟨c, h1, h2⟩ := h
    split_ifs with he
    · exact least_obj h1 least_zero
    · exact least_obj h1 (rings_least he (fun r hr => (ringWf_ne (hw r hr)).1) (fun r hr => (ringWf_ne (hw r hr)).2) h2)
  | .mpoint _ _ ps, t, h, hw => by
    rw [IsGeometry] at h; rw [Wkt.Wf] at hw; rw [levels]
    obtain ⟨c, h1, h2⟩ := h
    split_ifs with he
    · exact least_obj h1 least_zero
    · exact least_obj h1 (series_least he (fun p hp => posOk_ne (hw p hp)) h2)
  | .mline _ _ ps, t, h, hw => by
    rw [IsGeometry] at h; rw [Wkt.Wf] at hw; rw [levels]
    obtain ⟨c, h1, h2⟩ := h
    split_ifs with he
    · exact least_obj h1 least_zero
    · exact least_obj h1 (rings_least he (fun r hr => (lineWf_ne (hw r hr)).1) (fun r hr => (lineWf_ne (hw r hr)).2) h2)
  | .mpoly _ _ ps, t, h, hw => by
    rw [IsGeometry] at h; rw [Wkt.Wf] at hw; rw [levels]
    obtain ⟨c, h1, h2⟩ := h
    split_ifs with he
    · exact least_obj h1 least_zero
    · exact least_obj h1 (polys_least he (fun r hr => (hw r hr).1) (fun r hr s hs => (ringWf_ne ((hw r hr).2 s hs)).1) (fun r hr s hs => (ringWf_ne ((hw r hr).2 s hs)).2) h2)
  | .coll gs, t, h, hw => by
    rw [IsGeometry] at h; rw [Wkt.Wf] at hw; rw [levels]
    obtain ⟨c, ts, h1, h2, h3⟩ := h
    refine least_obj h1 fun n hn => ?_
    obtain ⟨m, rfl, h4⟩ := arr_inv h2 (geometries_json h3) hn
    have := geometries_least gs ts h3 hw m h4
    omega
theorem geometries_least : ∀ (vs : List GV) (ts : List (List Byte)), AreGeometries N0 vs ts → Wkt.Wfs vs → ∀ n, (∀ t ∈ ts, Val Str n t) → levelss vs ≤ n
  | [], _, _, _, n, _ => by rw [levelss]; omega
  | v :: vs, ts, h, hw, n, hn => by
    rw [AreGeometries] at h; rw [Wkt.Wfs] at hw; rw [levelss]
    obtain ⟨t, ts, rfl, h1, h2⟩ := h
    exact max_le (geometry_least v t h1 hw.1 n (hn _ (by simp))) (geometries_least vs ts h2 hw.2 n fun t ht => hn t (by simp [ht]))
end

theorem levels_two : ∀ v : GV, 2 ≤ levels v
  | .point _ _ (some _) | .point _ _ none | .coll _ => by simp [levels]
  | .line _ _ _ | .poly _ _ _ | .mpoint _ _ _ | .mline _ _ _ | .mpoly _ _ _ => by rw [levels]; split_ifs <;> omega

/-! ### What is written has no more levels -/

theorem quoted_good {s : String} (h : Plain (txt s)) {k : Nat} (hk : 0 < k) : Str (quoted s) ∧ Clean (quoted s) ∧ Good k (quoted s) :=
  ⟨plain_str h, clean_quoted h, (plain_fits h).good.up hk⟩

theorem two_good {name field : String} {c : List Byte} {ms : List (List Byte × List Byte)} {k : Nat} (h1 : Plain (txt name)) (h2 : Plain (txt field)) (hk : 0 < k) (hc : Good k c)
    (hm : ∀ m ∈ ms, Str m.1 ∧ Clean m.1 ∧ Good k m.2) : Good (k + 1) (objText (two name field c ++ ms)) := by
  refine good_obj fun m h => ?_
  rcases List.mem_append.1 h with h | h
  · simp only [two, List.mem_cons, List.not_mem_nil, or_false] at h
    rcases h with rfl | rfl
    · obtain ⟨a, b, -⟩ := quoted_good type_plain hk
      exact ⟨a, b, (quoted_good h1 hk).2.2⟩
    · obtain ⟨a, b, -⟩ := quoted_good h2 hk
      exact ⟨a, b, hc⟩
  · exact hm m h

theorem good_single {g : Geom} {t : List Byte} {v : GV} {n : Nat} (hs : Single g) (hk : Keeps t g) (hd : Dressed g) (hv : view g = some (reread v)) (hw : Wkt.Wf v)
    (hc : Wkt.AllCoords (Ok N num) v) (hi : IsGeometry N0 v t) (ht : Good n t) : Good n (jsonT num (unfeat g)) := by
  obtain ⟨name, c, hp⟩ := single_parts (N := N) hs hv (reread_wf v hw) (reread_coords v hc) hd
  obtain ⟨ms, h1, h2⟩ : ∃ ms, Spec.Geojson.IsObj ms t ∧ Spec.Geojson.extraOf g = extraText (others ["type", "coordinates"] ms) := by
    cases g <;> first | exact hs.elim | simpa only [Keeps] using hk
  have hl := geometry_least v t hi hw n ht.1
  have h3 := levels_two v
  obtain ⟨k, rfl, hm⟩ := obj_good h1 ht
  rw [parts_inside hp (by rintro e rfl; exact hs) (others_stores h1) h2]
  refine two_good hp.plain hp.member (by omega) ?_ fun m h => hm m (others_in h).1
  have h4 := (text_geo (N := N) (num := num) (reread v) (reread_wf v hw) (reread_coords v hc)).2
  rw [← jsonT_view num (plainOf g) _ (by rw [view_plain, hv]) (plain_bare hs hd), hp.body, reread_levels] at h4
  obtain ⟨j, e, hj⟩ := obj_good (objText_obj (ms := two name "coordinates" c) (by simpa using two_json (ms := []) hp.plain hp.member hp.json (by simp [Foreign]))) h4.good
  exact (hj (quoted "coordinates", c) (by simp [two])).2.2.up (by omega)

mutual
theorem good_json : ∀ (g : Geom) (t : List Byte) (v : GV) (n : Nat), Keeps t g → Dressed g → view g = some (reread v) → Wkt.Wf v → Wkt.AllCoords (Ok N num) v → IsGeometry N0 v t → Good n t →
    Good n (jsonT num (unfeat g))
  | .coll fl h gs c x, t, v, n, hk, hd, hv, hw, hc, hi, ht => by
    rw [Dressed] at hd
    obtain ⟨d1, d2, d3, d4⟩ := hd
    obtain ⟨vs', e, hvs, k⟩ := coll_dressed (num := num) hv d3
    obtain ⟨vs, rfl, rfl⟩ : ∃ vs, v = .coll vs ∧ vs' = rereads vs := by
      match v, e with
      | .point _ _ (some _), e | .point _ _ none, e => simp [reread] at e
      | .line _ _ _, e | .poly _ _ _, e | .mpoint _ _ _, e | .mline _ _ _, e | .mpoly _ _ _, e => rw [reread] at e; split at e <;> cases e
      | .coll us, e => rw [reread] at e; cases e; exact ⟨us, rfl, rfl⟩
    rw [Wkt.Wf] at hw; rw [Wkt.AllCoords] at hc
    rw [IsGeometry] at hi
    obtain ⟨c1, ts1, ⟨ms1, ty, i1, -, -, i2⟩, i3, i4⟩ := hi
    rw [Keeps] at hk
    obtain ⟨ms, c2, ts, h1, h2, h3, h4, h5⟩ := hk
    obtain rfl := obj_unique i1 h1
    obtain rfl := member_unique i2 h2
    obtain rfl := arr_unique i3 h3 (geometries_json i4) (keepAll_jval h5)
    obtain ⟨k1, rfl, hm⟩ := obj_good h1 ht
    obtain ⟨a, kk, b, rfl, -⟩ := i2
    obtain ⟨-, -, g1⟩ := hm (kk, c1) (by simp)
    obtain ⟨k2, rfl, hts⟩ := arr_good h3 (geometries_json i4) g1
    obtain ⟨a1, a2, a3⟩ := dressed_all (N := N) (num := num) gs _ hvs (rereads_wf vs hw) (rereads_coords vs hc) d4
    have hp := coll_parts (N := N) (num := num) (cs := c) d1 d2 k a1 a2 a3
    rw [parts_inside hp (by simp) (others_stores h1) h4]
    exact two_good hp.plain hp.member (by omega) (good_arr (good_jsons gs _ vs k2 h5 d4 hvs hw hc i4 hts)) fun m h => hm m (others_in h).1
  | .point _ _, t, v, n, hk, hd, hv, hw, hc, hi, ht => good_single trivial hk hd hv hw hc hi ht
  | .line _ _, t, v, n, hk, hd, hv, hw, hc, hi, ht => good_single trivial hk hd hv hw hc hi ht
  | .poly _ _, t, v, n, hk, hd, hv, hw, hc, hi, ht => good_single trivial hk hd hv hw hc hi ht
  | .gpoint _ _ _ _ _, t, v, n, hk, hd, hv, hw, hc, hi, ht => good_single trivial hk hd hv hw hc hi ht
  | .gline _ _ _ _, t, v, n, hk, hd, hv, hw, hc, hi, ht => good_single trivial hk hd hv hw hc hi ht
  | .gpoly _ _ _ _, t, v, n, hk, hd, hv, hw, hc, hi, ht => good_single trivial hk hd hv hw hc hi ht
  | .mpoint _ _ _ _, t, v, n, hk, hd, hv, hw, hc, hi, ht => good_single trivial hk hd hv hw hc hi ht
  | .mline _ _ _ _, t, v, n, hk, hd, hv, hw, hc, hi, ht => good_single trivial hk hd hv hw hc hi ht
  | .mpoly _ _ _ _, t, v, n, hk, hd, hv, hw, hc, hi, ht => good_single trivial hk hd hv hw hc hi ht
  | .err _, _, _, _, _, _, hv, _, _, _, _ => by simp [view] at hv
theorem good_jsons : ∀ (gs : List Geom) (ts : List (List Byte)) (vs : List GV) (n : Nat), KeepAll ts gs → Dresseds gs → views gs = some (rereads vs) → Wkt.Wfs vs → Wkt.AllCoordss (Ok N num) vs →
    AreGeometries N0 vs ts → (∀ t ∈ ts, Good n t) → ∀ t ∈ jsonTs num gs, Good n t
  | [], _, _, _, _, _, _, _, _, _, _ => by simp [jsonTs]
  | g :: gs, ts, vs, n, hk, hd, hv, hw, hc, hi, ht => by
    obtain ⟨t, ts, rfl, h1, h2⟩ := hk
    obtain ⟨v', vs', e, a1, a2⟩ := views_cons hv
    cases vs with
    | nil => cases e
    | cons v vs =>
      rw [rereads] at e
      cases e
      rw [Dresseds] at hd; rw [Wkt.Wfs] at hw; rw [Wkt.AllCoordss] at hc; rw [AreGeometries] at hi
      obtain ⟨t', ts', e, i1, i2⟩ := hi
      cases e
      have k := good_json g t v n h1 hd.2.1 a1 hw.1 hc.1 i1 (ht t (by simp))
      rw [unfeat_self hd.1] at k
      intro u hu
      rw [jsonTs] at hu
      rcases List.mem_cons.1 hu with rfl | hu
      · exact k
      · exact good_jsons gs ts vs n h2 hd.2.2 a2 hw.2 hc.2 i2 (fun t h => ht t (by simp [h])) u hu
end

/-! ### Features -/

theorem written_spelled (np : Bool) {fm : List (List Byte × List Byte)} (c : List Byte) (hs : ∀ m ∈ fm, (Named m.1 "id" → m.1 = txt "\"id\"") ∧ (Named m.1 "properties" → m.1 = txt "\"properties\"")) :
    ∀ m ∈ written np fm c, (Named m.1 "id" → m.1 = txt "\"id\"") ∧ (Named m.1 "properties" → m.1 = txt "\"properties\"") := by
  intro m hm
  rw [(written_perm np fm c).mem_iff] at hm
  rcases List.mem_cons.1 hm with rfl | hm
  · exact ⟨fun h => absurd h (named_other type_plain (by decide)), fun h => absurd h (named_other type_plain (by decide))⟩
  rcases List.mem_cons.1 hm with rfl | hm
  · exact ⟨fun h => absurd h (named_other geometry_plain (by decide)), fun h => absurd h (named_other geometry_plain (by decide))⟩
  rcases List.mem_append.1 hm with hm | hm
  · unfold added at hm
    split at hm
    · simp at hm
    · rw [List.mem_singleton] at hm
      subst hm
      exact ⟨fun h => absurd h (named_other properties_plain (by decide)), fun _ => (by decide : quoted "properties" = txt "\"properties\"")⟩
  · exact hs m hm

theorem written_idFirst (np : Bool) (fm : List (List Byte × List Byte)) (c : List Byte) : written np (idFirst fm) c = written np fm c := by
  have h1 : ids (idFirst fm) = ids fm := by
    rw [idFirst_eq, ids, List.filter_append]
    unfold ids rest
    rw [List.filter_filter, List.filter_filter]
    simp
  have h2 : rest (idFirst fm) = rest fm := by
    rw [idFirst_eq, rest, List.filter_append]
    unfold ids rest
    rw [List.filter_filter, List.filter_filter]
    simp
  have h3 : added np (idFirst fm) = added np fm := by
    unfold added
    have : (∃ m ∈ idFirst fm, Named m.1 "properties") ↔ ∃ m ∈ fm, Named m.1 "properties" := by
      have hp : (idFirst fm).Perm fm := filter_both fm
      simp only [hp.mem_iff]
    by_cases h : ∃ m ∈ fm, Named m.1 "properties"
    · rw [if_pos h, if_pos (this.2 h)]
    · rw [if_neg h, if_neg fun h' => h (this.1 h')]
  rw [written, written, h1, h2, h3]

/-- A Feature that is read again is stored and written in the same way. -/
theorem feature_fixed {g g' : Geom} {v : GV} {fm : List (List Byte × List Byte)} {x : Option (List Byte)} (hs : Stored g fm x) (hv : view g = some v) (hw : Wkt.Wf v)
    (hc : Wkt.AllCoords (Ok N num) v) (hk : FeatureKeeps (jsonT num g) g') (hv' : view g' = some (reread (zForM v))) (ht : Tidy g') : Stored g' (idFirst fm) x ∧ jsonT num g' = jsonT num g := by
  have ha := feature_again hs hv hw hc hk hv'
  obtain ⟨c, e, hj, h⟩ := feature_text hs hv hw hc
  rw [e] at hk
  obtain ⟨ms, c', x', h1, h2, h3, h4, h5, h6, h7, h8⟩ := hk
  obtain rfl := obj_unique (objText_obj (written_json _ (foreign_json hs.foreign) hj)) h1
  obtain rfl := member_unique (written_geometry _ c hs.foreign) h2
  have hkept := written_kept g.flags.nullProps c hs.foreign hs.said
  have hst : Stored g' (idFirst fm) x' := by
    rw [← hkept]
    refine keeps_stored h1 (written_members _ c hs.members) (written_spelled _ c hs.spelled) h3 h4 h5 h6 h7 h8 ht hv' fun hn => ?_
    have hg := hs.geometry
    rcases h with ⟨k1, -⟩ | ⟨-, k2, -⟩
    · rw [if_pos k1, hv] at hg
      have := hg.2
      cases this
      simp [zForM, reread]
    · exact absurd hn k2
  have hx : x' = x := by
    rw [hkept] at h3
    have hx := extra_with hs.extra
    have hx' := extra_with h3
    rcases h with ⟨k1, k2⟩ | ⟨k1, k2, k3, -, k4, -⟩
    · rw [if_pos k2] at h8
      have hg := hs.geometry
      rw [if_pos k1] at hg
      rw [h8, hg.1]
    · rw [if_neg k2] at h8
      have hsame := keeps_same _ _ c v k4 h8 (by rw [view_withExtra, hv]) (by rw [view_withExtra, hv']) k3
      rw [← hx', ← same_extraOf hsame, hx]
  subst hx
  refine ⟨hst, ?_⟩
  obtain ⟨c2, e2, -, h'⟩ := feature_text hst hv' (reread_wf _ ((zForM_wf v).2 hw)) (reread_coords _ ((zForM_coords v).2 hc))
  obtain ⟨-, -, -, a4, a5, a6⟩ := ha
  rw [e, e2, written_idFirst, a4]
  congr 1
  rcases h with ⟨k1, k2⟩ | ⟨k1, k2, k3, -, k4, k5⟩
  · rcases h' with ⟨-, k2'⟩ | ⟨k1', -⟩
    · rw [k2, k2']
    · rw [a5, k1] at k1'; cases k1'
  · rcases h' with ⟨k1', -⟩ | ⟨-, -, k3', -, k4', k5'⟩
    · rw [a5, k1] at k1'; cases k1'
    · rw [k5, k5']
      rw [same_text _ _ v k3 k3' (by rw [view_withExtra, hv]) (by rw [view_withExtra, hv']) a6]

/-- A Feature that was parsed is stored with the members that are kept. -/
theorem feature_stored {g : Geom} {f : Option GV} {t : List Byte} (hi : IsFeature N0 f t) (hsp : SpelledIn t) (hk : FeatureKeeps t g) (hv : view g = some (shown f)) (ht : Tidy g) :
    ∃ ms x, Spec.Geojson.IsObj ms t ∧ Stored g (kept ms) x := by
  obtain ⟨ms0, ty, c0, i1, -, -, i2, i3, i4⟩ := hi
  obtain ⟨ms, c, x, h1, h2, h3, h4, h5, h6, h7, h8⟩ := hk
  obtain rfl := obj_unique i1 h1
  obtain rfl := member_unique i2 h2
  refine ⟨ms0, x, h1, keeps_stored h1 i3 (hsp _ h1) h3 h4 h5 h6 h7 h8 ht hv fun hn => ?_⟩
  cases f with
  | none => rfl
  | some v => exact absurd hn (geometry_not_null i4)

theorem good_feature {g : Geom} {f : Option GV} {t : List Byte} {n : Nat} (hi : IsFeature N0 f t) (hsp : SpelledIn t) (hk : FeatureKeeps t g) (hv : view g = some (shown f)) (ht : Tidy g)
    (hf : ∀ v, f = some v → Wkt.Wf v ∧ Wkt.AllCoords (Ok N num) v) (hg : Good n t) : Good n (jsonT num g) := by
  have hi' := hi
  have hk' := hk
  obtain ⟨ms0, ty, c0, i1, -, -, i2, i3, i4⟩ := hi
  obtain ⟨ms, c, x, h1, h2, h3, h4, h5, h6, h7, h8⟩ := hk
  obtain rfl := obj_unique i1 h1
  obtain rfl := member_unique i2 h2
  have hnn : ∀ v, f = some v → c0 ≠ txt "null" := by
    rintro v rfl hn
    exact absurd hn (geometry_not_null i4)
  have hst : Stored g (kept ms0) x := keeps_stored h1 i3 (hsp _ h1) h3 h4 h5 h6 h7 h8 ht hv fun hn => by
    cases f with
    | none => rfl
    | some v => exact absurd hn (hnn v rfl)
  have hwc : Wkt.Wf (shown f) ∧ Wkt.AllCoords (Ok N num) (shown f) := by
    cases f with
    | none => exact ⟨by simp [shown, Wkt.Wf], by simp [shown, Wkt.AllCoords]⟩
    | some v => exact ⟨reread_wf v (hf v rfl).1, reread_coords v (hf v rfl).2⟩
  obtain ⟨c', e, -, h⟩ := feature_text hst hv hwc.1 hwc.2
  obtain ⟨k, rfl, hm⟩ := obj_good h1 hg
  have hmem : ∃ kk, (kk, c0) ∈ ms0 := by obtain ⟨a, kk, b, rfl, -⟩ := i2; exact ⟨kk, by simp⟩
  obtain ⟨kk, hmem⟩ := hmem
  have hgc : Good k c0 := (hm _ hmem).2.2
  have hk0 : 0 < k := val_pos hgc.1
  have hc' : Good k c' := by
    rcases h with ⟨-, rfl⟩ | ⟨k1, -, k3, -, -, rfl⟩
    · exact Good.up (n := 1) ⟨.null 0, clean_tame (by decide)⟩ hk0
    · have hne : c0 ≠ txt "null" := fun e => by rw [h7.2 e] at k1; cases k1
      rw [if_neg hne] at h8
      cases f with
      | none => exact absurd i4 hne
      | some v => exact good_json _ c0 v k h8 k3 (by rw [view_withExtra, hv]; rfl) (hf v rfl).1 (hf v rfl).2 i4 hgc
  rw [e]
  refine good_obj fun m hm' => ?_
  rw [(written_perm _ _ c').mem_iff] at hm'
  rcases List.mem_cons.1 hm' with rfl | hm'
  · obtain ⟨a, b, -⟩ := quoted_good type_plain hk0
    exact ⟨a, b, (quoted_good feature_plain hk0).2.2⟩
  rcases List.mem_cons.1 hm' with rfl | hm'
  · obtain ⟨a, b, -⟩ := quoted_good geometry_plain hk0
    exact ⟨a, b, hc'⟩
  rcases List.mem_append.1 hm' with hm' | hm'
  · unfold added at hm'
    split at hm'
    · simp at hm'
    · rw [List.mem_singleton] at hm'
      subst hm'
      obtain ⟨a, b, -⟩ := quoted_good properties_plain hk0
      refine ⟨a, b, Good.up (n := 1) ?_ hk0⟩
      cases g.flags.nullProps
      · exact ⟨.obj0 0 [] ws_none, clean_tame (by decide)⟩
      · exact ⟨.null 0, clean_tame (by decide)⟩
  · exact hm m (kept_in hm').1

/-! ### FeatureCollections -/

theorem features_fixed : ∀ (gs gs' : List Geom) (vs : List GV), (∀ f ∈ gs, ∃ fm fx, Stored f fm fx) → views gs = some vs → Wkt.Wfs vs → Wkt.AllCoordss (Ok N num) vs →
    List.Forall₂ FeatureKeeps (jsonTs num gs) gs' → (vs = [] ∨ views gs' = some (rereads (zForMs vs))) → (∀ g ∈ gs', Tidy g) → jsonTs num gs' = jsonTs num gs
  | [], gs', vs, _, _, _, _, h, _, _ => by rw [jsonTs] at h; cases h; rw [jsonTs]
  | g :: gs, gs', vs, hs, hv, hw, hc, h, hv', ht => by
    rw [jsonTs] at h
    cases h with
    | @cons _ g' _ gs' h1 h2 =>
      obtain ⟨v, vs, rfl, a1, a2⟩ := views_cons hv
      rw [Wkt.Wfs] at hw; rw [Wkt.AllCoordss] at hc
      obtain ⟨v', vs', e, b1, b2⟩ := views_cons (hv'.resolve_left (by simp))
      rw [zForMs, rereads] at e
      cases e
      obtain ⟨fm, fx, hst⟩ := hs g (by simp)
      rw [jsonTs, jsonTs, (feature_fixed hst a1 hw.1 hc.1 h1 b1 (ht g' (by simp))).2,
        features_fixed gs gs' vs (fun f hf => hs f (by simp [hf])) a2 hw.2 hc.2 h2 (.inr b2) fun g hg => ht g (by simp [hg])]

theorem stored_views {fl : Flags} {gs : List Geom} {x : Option (List Byte)} {v : GV} (hv : view (.coll fl true gs [] x) = some v) (h5 : fl.isEmpty = true → gs = []) :
    ∃ vs, v = .coll vs ∧ views gs = some vs := by
  obtain ⟨vs, e, h, -⟩ := coll_dressed (num := fun _ => []) hv (fun h => h.elim h5 (by simp))
  exact ⟨vs, e, h⟩

theorem collection_fixed {g g' : Geom} {v : GV} (hs : StoredAll g) (hv : view g = some v) (hw : Wkt.Wf v) (hc : Wkt.AllCoords (Ok N num) v) (hk : CollectionKeeps (jsonT num g) g')
    (hv' : view g' = some (reread (zForM v))) (ht : Tidy g') : jsonT num g' = jsonT num g := by
  obtain ⟨fl, gs, x, rfl, h1, h2, h3, h4, h5, ⟨ms, hm, rfl⟩, h6⟩ := hs
  obtain ⟨vs, rfl, hvs⟩ := stored_views hv h5
  rw [Wkt.Wf] at hw; rw [Wkt.AllCoords] at hc
  obtain ⟨fs, a1, a2, a3, a4⟩ := features_written gs vs hvs hw hc h6
  have hp : Plain (txt "features") := by decide
  have hq : Plain (txt "FeatureCollection") := by decide
  have hj : JVal (bracket 0x5B#8 0x5D#8 (jsonTs num gs)) := arr_jval (bracket_arr _) a4
  rw [collection_text h1 h2 hm] at hk ⊢
  obtain ⟨ms', c, ts, fl', gs', k1, k2, k3, rfl, k5, k6, k7, k8, k9⟩ := hk
  have ho := objText_obj (two_json hq hp hj hm)
  obtain rfl := obj_unique ho k1
  have hmem : Member (two "FeatureCollection" "features" (bracket 0x5B#8 0x5D#8 (jsonTs num gs)) ++ ms) "features" (bracket 0x5B#8 0x5D#8 (jsonTs num gs)) := by
    refine ⟨[_], _, ms, rfl, named_self hp, fun m hm' => ?_⟩
    rcases List.mem_cons.1 hm' with rfl | hm'
    · exact named_other type_plain (by decide)
    · exact (hm m hm').2.2 _ (by simp)
  obtain rfl := member_unique hmem k2
  obtain rfl := arr_unique (bracket_arr _) k3 a4 (keepsf_all k9)
  rw [two_others hp hm, collection_text k5 k6 hm]
  rw [two_others hp hm] at hv' ht
  rw [Tidy] at ht
  rw [zForM, reread] at hv'
  obtain ⟨us, e, h⟩ := stored_views hv' ht.2.2.1
  cases e
  rw [features_fixed gs gs' vs h6 hvs hw hc k9 (.inr h) (tidies_iff.1 ht.2.2.2.1)]

theorem features_json {fs : List (Option GV)} {ts : List (List Byte)} (h : List.Forall₂ (IsFeature N0) fs ts) : ∀ t ∈ ts, JVal t := by
  induction h with
  | nil => simp
  | cons h _ ih =>
    intro t ht
    rcases List.mem_cons.1 ht with rfl | ht
    · obtain ⟨ms, ty, c, h1, -⟩ := h
      exact obj_jval h1
    · exact ih t ht

theorem features_stored : ∀ (gs : List Geom) (fs : List (Option GV)) (ts : List (List Byte)) (n : Nat), List.Forall₂ (IsFeature N0) fs ts → List.Forall₂ FeatureKeeps ts gs →
    views gs = some (fs.map shown) → (∀ g ∈ gs, Tidy g) → (∀ u ∈ ts, SpelledIn u) → (∀ v, some v ∈ fs → Wkt.Wf v ∧ Wkt.AllCoords (Ok N num) v) → (∀ u ∈ ts, Good n u) →
    (∀ f ∈ gs, ∃ fm fx, Stored f fm fx) ∧ ∀ u ∈ jsonTs num gs, Good n u
  | [], fs, ts, n, _, _, _, _, _, _, _ => ⟨by simp, by simp [jsonTs]⟩
  | g :: gs, fs, ts, n, hi, hk, hv, ht, hsp, hf, hg => by
    cases hk with
    | @cons t _ ts _ h1 h2 =>
      cases hi with
      | @cons f _ fs _ i1 i2 =>
        obtain ⟨v, vs, e, a1, a2⟩ := views_cons hv
        rw [List.map_cons] at e
        cases e
        obtain ⟨b1, b2⟩ := features_stored gs fs ts n i2 h2 a2 (fun g hg => ht g (by simp [hg])) (fun u hu => hsp u (by simp [hu])) (fun v hv => hf v (by simp [hv])) fun u hu => hg u (by simp [hu])
        obtain ⟨ms, x, -, hst⟩ := feature_stored i1 (hsp t (by simp)) h1 a1 (ht g (by simp))
        refine ⟨fun f hf => ?_, fun u hu => ?_⟩
        · rcases List.mem_cons.1 hf with rfl | hf
          · exact ⟨_, _, hst⟩
          · exact b1 f hf
        · rw [jsonTs] at hu
          rcases List.mem_cons.1 hu with rfl | hu
          · exact good_feature i1 (hsp t (by simp)) h1 a1 (ht g (by simp)) (fun v hv => hf v (by simp [hv])) (hg t (by simp))
          · exact b2 u hu

theorem collection_stored {g : Geom} {fs : List (Option GV)} {t : List Byte} {n : Nat} (hi : IsFeatures N0 fs t) (hsp : SpelledAll t) (hk : CollectionKeeps t g)
    (hv : view g = some (.coll (fs.map shown))) (ht : Tidy g) (hf : ∀ v, some v ∈ fs → Wkt.Wf v ∧ Wkt.AllCoords (Ok N num) v) (hg : Good n t) : StoredAll g ∧ Good n (jsonT num g) := by
  obtain ⟨c0, ts0, ⟨ms0, ty, i1, -, -, i2⟩, i3, i4⟩ := hi
  obtain ⟨ms, c, ts, fl, gs, k1, k2, k3, rfl, k5, k6, k7, k8, k9⟩ := hk
  obtain rfl := obj_unique i1 k1
  obtain rfl := member_unique i2 k2
  obtain rfl := arr_unique i3 k3 (features_json i4) (keepsf_all k9)
  rw [Tidy] at ht
  obtain ⟨vs, e, hvs⟩ := stored_views hv ht.2.2.1
  cases e
  obtain ⟨k, rfl, hm⟩ := obj_good i1 hg
  obtain ⟨a, kk, b, e, -⟩ := id i2
  have g1 := (hm (kk, c0) (by rw [e]; simp)).2.2
  obtain ⟨k2, rfl, hts⟩ := arr_good i3 (features_json i4) g1
  obtain ⟨s1, s2⟩ := features_stored gs fs ts0 k2 i4 k9 hvs (tidies_iff.1 ht.2.2.2.1) (hsp _ _ _ i1 i2 i3 (features_json i4)) hf hts
  refine ⟨⟨fl, gs, _, rfl, k5, k6, k7, k8, ht.2.2.1, ⟨_, others_stores i1, rfl⟩, s1⟩, ?_⟩
  rw [collection_text k5 k6 (others_stores i1)]
  exact two_good (by decide) (by decide) (by omega) (good_arr s2) fun m h => hm m (others_in h).1

end

end Tg.Gp
