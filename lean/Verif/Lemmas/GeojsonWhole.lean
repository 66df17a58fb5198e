import Verif.Lemmas.GeojsonRead
/-! Whole GeoJSON geometries. -/
set_option linter.unusedSectionVars false
namespace Tg.Gp
open Json
open Wp (P Base checkBase dimFlags polyOf showBytes Safe bind_ok safe_ok safe_err)
open Spec.Json (Ws Val Elems Mems Chr Chrs Str Utf8 HexDigit IsNumber)
open Spec.Geojson (Items IsArr Pairs Spells Named Member TypeObj others extraText IsPosn IsSeries IsRings IsPolys IsList IsGeometry AreGeometries Keeps KeepAll ZFirst ZFirsts reread rereads)
open Spec (view views posOk dims eachAfter join bracket)
open Spec.Wkt (LineWf RingWf Wf Wfs)

variable {sd : List Byte → F64 × Nat}

/-! ### The type of an object -/

theorem val_str {n : Nat} {v : List Byte} (h : Val Str n v) (hv : v.head? = some 0x22#8) : Str v := by
  cases h with
  | null => simp at hv
  | true_ => simp at hv
  | false_ => simp at hv
  | num _ _ h =>
    obtain ⟨b, t, rfl, hb⟩ := number_head h
    simp at hv; subst hv
    rcases hb with hb | hb
    · exact absurd hb (by decide)
    · exact absurd hb.1 (by decide)
  | str _ _ h => exact h
  | arr0 => simp at hv
  | arr => simp at hv
  | obj0 => simp at hv
  | obj => simp at hv

theorem named_str {v : List Byte} (h : JVal v) {s : String} (hn : Named v s) : Str v := by
  obtain ⟨n, h⟩ := h
  obtain ⟨cs, rfl, -⟩ := hn
  exact val_str h rfl

/-- Finding a member. -/
theorem get_member {ms : List (List Byte × List Byte)} {t v : List Byte} {s : String} (ha : Ascii s) (ho : Spec.Geojson.IsObj ms t) (hm : Member ms s v) {j : Option J} {r : List Byte}
    (hj : Here j t r) : ∃ r', objGet j (txt s) = peekAny (v ++ r') ∧ Here (objGet j (txt s)) v r' := by
  rw [objGet_find (obj_head ho hj).2]
  have hp := obj_pairs ho hj
  obtain ⟨A, k, B, rfl, hk, hn⟩ := hm
  obtain ⟨pa, pb, hpa, hpb, hpe⟩ := forall₂_split hp
  rw [hpe, List.find?_append]
  have h1 : pa.find? (fun p => strEq p.1 (txt s)) = none := by
    rw [List.find?_eq_none]
    intro p hp
    obtain ⟨i, hi, rfl⟩ := List.mem_iff_getElem.1 hp
    have hl := hpa.length_eq
    have hmem := hpa.get (i := i) hi (by omega)
    simp only [List.get_eq_getElem] at hmem
    rw [mem_strEq_not hmem (ho.1 _ (by simp)).1 ha (hn _ (by simp))]
    simp
  rw [h1]
  cases hpb with
  | @cons p _ pb _ hpk hpb =>
    rw [List.find?_cons, (mem_strEq hpk (ho.1 (k, v) (by simp)).1 ha).2 hk]
    obtain ⟨-, r2, e2, h2⟩ := hpk
    exact ⟨r2, e2, h2⟩

/-- The parser goes by the type. -/
theorem dispatch {name field : String} {c t r : List Byte} (h : TypeObj name field c t) (hl : (txt name).length ≤ 23) (h0 : ∀ b ∈ txt name, b ≠ 0#8) {j : Option J} (hj : Here j t r)
    (d : Nat) (req : Bool) : parseGeojson sd (d + 1) j req =
      (if txt name = txt "Point" then parsePoint sd j req
        else if txt name = txt "LineString" then parseLine sd j req
        else if txt name = txt "Polygon" then parsePolygon sd j req
        else if txt name = txt "MultiPoint" then parseMPoint sd j
        else if txt name = txt "MultiLineString" then parseMLine sd j
        else if txt name = txt "MultiPolygon" then parseMPoly sd j
        else if txt name = txt "GeometryCollection" then parseColl (fun j => parseGeojson sd d j false) j
        else if txt name = txt "Feature" then parseFeature (parseGeojson sd d) j
        else if txt name = txt "FeatureCollection" then parseFeatureColl (fun j => parseGeojson sd d j false) j
        else .err ("unknown type '" ++ showBytes (txt name) ++ "'")) := by
  obtain ⟨ms, ty, ho, hty, hn, -⟩ := h
  obtain ⟨r', e1, e2⟩ := get_member ascii_type ho hty hj
  have hjv : JVal ty := by
    obtain ⟨A, k, B, rfl, -⟩ := hty
    exact (ho.1 (k, ty) (by simp)).2
  have hcp := copyStr_named (named_str hjv hn) hn hl h0 e1
  obtain ⟨i, hi, -⟩ := e2
  rw [parseGeojson, if_neg (by rw [(obj_head ho hj).1]; simp), hi]
  rw [hi] at hcp
  simp only [hcp]

/-! ### Flags and coordinates -/

/-- No Feature. -/
def Ordinary (g : Geom) : Prop := g.flags.isFeature = false ∧ g.flags.isFeatureCol = false ∧ g.flags.nullProps = false ∧ g.flags.unlocated = false

/-- Is it a collection? -/
def isColl : Geom → Bool
  | .coll .. => true
  | _ => false

theorem isColl_addFlags (g : Geom) (f : Flags) : isColl (addFlags g f) = isColl g := by cases g <;> rfl

theorem isColl_finish {fl : Flags} {x : Option (List Byte)} {g g' : Geom} (h : finish fl x g = .ok g') : isColl g' = isColl g := by
  unfold finish setX at h
  cases x with
  | none => cases h; exact isColl_addFlags g fl
  | some x => cases g <;> simp only [addFlags] at h <;> cases h <;> rfl

theorem keeps_of {ms : List (List Byte × List Byte)} {t : List Byte} {g : Geom} (ho : Spec.Geojson.IsObj ms t) (hx : xjsonOf g = extraText (others ["type", "coordinates"] ms)) (hc : isColl g = false) :
    Keeps t g := by
  cases g with
  | coll => simp [isColl] at hc
  | _ => exact ⟨ms, ho, hx⟩

theorem dimFlags_zm {z m : Bool} (h : m = true → z = true) : dimFlags (dims z m) false = Wp.dimFlags (dims z m) false ∧ dimFlags (dims z m) false = zmFlags z m := by
  refine ⟨rfl, ?_⟩
  cases z <;> cases m <;> simp_all [dimFlags, dims, zmFlags]

theorem extras_two {z m : Bool} {ps : List (List F64)} (h : ∀ p ∈ ps, posOk z m p) : (if dims z m = 2 then [] else ps.flatMap extraOf) = ps.flatMap extraOf := by
  split_ifs with h2
  · symm
    rw [List.flatMap_eq_nil_iff]
    intro p hp
    have : p.length = dims z m := h p hp
    rw [extraOf, List.drop_eq_nil_iff]; omega
  · rfl

theorem extras_two' {z m : Bool} {rs : List (List (List F64))} (h : ∀ r ∈ rs, ∀ p ∈ r, posOk z m p) :
    (if dims z m = 2 then [] else rs.flatMap (·.flatMap extraOf)) = rs.flatMap (·.flatMap extraOf) := by
  split_ifs with h2
  · symm
    rw [List.flatMap_eq_nil_iff]
    intro r hr
    have := extras_two (h r hr)
    rw [if_pos h2] at this
    exact this.symm
  · rfl

theorem extras_two'' {z m : Bool} {ps : List (List (List (List F64)))} (h : ∀ rs ∈ ps, ∀ r ∈ rs, ∀ p ∈ r, posOk z m p) :
    (if dims z m = 2 then [] else ps.flatMap (·.flatMap (·.flatMap extraOf))) = ps.flatMap (·.flatMap (·.flatMap extraOf)) := by
  split_ifs with h2
  · symm
    rw [List.flatMap_eq_nil_iff]
    intro r hr
    have := extras_two' (h r hr)
    rw [if_pos h2] at this
    exact this.symm
  · rfl

theorem walk_first {ts : List (List Byte)} {j : Option J} (h : Walk ts j) : j.isNone = decide (ts = []) := by
  cases ts with
  | nil => rw [Walk] at h; subst h; rfl
  | cons t ts => obtain ⟨⟨r, h⟩, -⟩ := h; obtain ⟨i, rfl, -⟩ := h; simp

theorem list_first {α : Type} {I : α → List Byte → Prop} (hI : ∀ a t, I a t → JVal t) {l : List α} {t r : List Byte} (h : IsList I l t) {j : Option J} (hj : Here j t r) :
    (first j).isNone = true ↔ l = [] := by
  obtain ⟨ts, h1, h2⟩ := h
  rw [walk_first (arr_walk h1 (forall₂_jval hI h2) hj)]
  cases h2 <;> simp

theorem posn_first {p : List F64} {t r : List Byte} (h : IsPosn (Num sd) p t) {j : Option J} (hj : Here j t r) (hp : p ≠ []) : (first j).isNone = false := by
  obtain ⟨ts, h1, h2, h3⟩ := h
  rw [walk_first (arr_walk h1 (fun v hv => ⟨1, .num _ _ (h2 v hv)⟩) hj)]
  simp only [decide_eq_false_iff_not]
  rintro rfl
  simp at h3
  exact hp h3

/-! ### The types -/

/-- What is read from an object: the view, the extra members, no Feature, and a `struct tg_geom` if one is asked for. -/
def Reads (g : Geom) (v : GV) (x : Option (List Byte)) (req : Bool) : Prop :=
  view g = some v ∧ xjsonOf g = x ∧ Ordinary g ∧ (req = true → Boxed g)

theorem finish_reads {fl : Flags} {x : Option (List Byte)} {g : Geom} {v : GV} {req : Bool} (hb : x.isSome ∨ req = true → Boxed g) (hx : xjsonOf g = none)
    (hv : view (addFlags g fl) = some v) (ho : Ordinary (addFlags g fl)) (hc : isColl g = false) : ∃ g', finish fl x g = .ok g' ∧ Reads g' v x req ∧ isColl g' = false := by
  obtain ⟨g', h1, h2, h3, h4, h5, -⟩ := finish_ok (fl := fl) (x := x) (fun h => hb (.inl h)) hx
  refine ⟨g', h1, ⟨by rw [h2, hv], h3, ?_, fun h => h5 (hb (.inr h))⟩, by rw [isColl_finish h1, hc]⟩
  unfold Ordinary at ho ⊢
  rw [h4]; exact ho

variable {j T : Option J} {c r : List Byte} {x : Option (List Byte)}

theorem point_read (req : Bool) (hb : takeBasic j "coordinates" = .ok ⟨T, { isEmpty := (first T).isNone }, x⟩) (hT : Here T c r) {z m : Bool} (hzm : m = true → z = true)
    {p : List F64} (hc : IsPosn (Num sd) p c) (hp : posOk z m p) : ∃ g, parsePoint sd j req = .ok g ∧ Reads g (.point z m (some p)) x req ∧ isColl g = false := by
  have hl : p.length = dims z m := hp
  have hD := Wp.dims_bounds z m
  have hf : (first T).isNone = false := posn_first hc hT (by rintro rfl; simp at hl; omega)
  rw [parsePoint, hb]
  simp only [P.bind]
  rw [hf, if_neg (by simp), posn_read _ hc hT _ (by omega)]
  simp only
  rw [if_neg (by omega)]
  have hfl : ∀ g : Geom, addFlags g { isEmpty := false } = g := addFlags_none
  cases z <;> cases m <;> simp [dims] at hl hzm
  · match p, hl with
    | [a, b], _ =>
      by_cases hq : (!req && x.isNone) = true
      · rw [if_pos (by simpa using hq)]
        have hq' : req = false ∧ x = none := by
          cases req <;> cases x <;> simp at hq ⊢
        exact finish_reads (by rintro (h | h) <;> simp_all) rfl (by rw [hfl]; rfl) (by rw [hfl]; exact ⟨rfl, rfl, rfl, rfl⟩) rfl
      · rw [if_neg (by simpa using hq), if_pos (show [a, b].length = 2 from rfl)]
        exact finish_reads (fun _ => trivial) rfl (by rw [hfl]; rfl) (by rw [hfl]; exact ⟨rfl, rfl, rfl, rfl⟩) rfl
  · match p, hl with
    | [a, b, e], _ =>
      rw [if_neg (by simp), if_neg (by simp), if_pos (show [a, b, e].length = 3 from rfl)]
      exact finish_reads (fun _ => trivial) rfl (by rw [hfl]; rfl) (by rw [hfl]; exact ⟨rfl, rfl, rfl, rfl⟩) rfl
  · match p, hl with
    | [a, b, e, f], _ =>
      rw [if_neg (by simp), if_neg (by simp), if_neg (by simp)]
      exact finish_reads (fun _ => trivial) rfl (by rw [hfl]; rfl) (by rw [hfl]; exact ⟨rfl, rfl, rfl, rfl⟩) rfl

theorem point_empty (req : Bool) (hb : takeBasic j "coordinates" = .ok ⟨T, { isEmpty := (first T).isNone }, x⟩) (hT : Here T c r) (hc : IsArr [] c) :
    ∃ g, parsePoint sd j req = .ok g ∧ Reads g (.point false false none) x req ∧ isColl g = false := by
  have hf : (first T).isNone = true := by rw [walk_first (arr_walk hc (by simp) hT)]; simp
  rw [parsePoint, hb]
  simp only [P.bind]
  rw [hf, if_pos rfl]
  exact finish_reads (fun _ => trivial) rfl rfl ⟨rfl, rfl, rfl, rfl⟩ rfl

theorem line_read (req : Bool) (hb : takeBasic j "coordinates" = .ok ⟨T, { isEmpty := (first T).isNone }, x⟩) (hT : Here T c r) {z m : Bool} {ps : List (List F64)}
    (hzm : ps = [] ∨ (m = true → z = true)) (hc : IsSeries (Num sd) ps c) (hp : ps = [] ∨ LineWf z m ps) :
    ∃ g, parseLine sd j req = .ok g ∧ Reads g (reread (.line z m ps)) x req ∧ isColl g = false := by
  have hf := list_first (fun _ _ => posn_jval) hc hT
  rw [parseLine, hb]
  simp only [P.bind]
  rw [reread]
  by_cases h0 : ps = []
  · rw [if_pos (hf.2 h0), if_pos h0, hf.2 h0]
    exact finish_reads (fun _ => trivial) rfl rfl ⟨rfl, rfl, rfl, rfl⟩ rfl
  · have hw := hp.resolve_left h0
    have hzm := hzm.resolve_left h0
    have hf' : (first T).isNone = false := by rw [← Bool.not_eq_true]; exact fun h => h0 (hf.1 h)
    rw [hf', if_neg (by simp), if_neg h0, posns_read 1 (Wp.dims_bounds z m).1 hc (fun p hp => hw.2 p hp) (Wp.wf_checkLine hw) (.inl rfl) hT]
    simp only
    rw [dimsAfter, if_neg h0]
    have hfl : ∀ g : Geom, addFlags g { isEmpty := false } = g := addFlags_none
    split_ifs with h1 h2
    · rw [Bool.and_eq_true, Bool.and_eq_true, beq_iff_eq] at h1
      obtain ⟨⟨hq, hx⟩, h2⟩ := h1
      obtain ⟨rfl, rfl⟩ := Wp.dims_two h2
      refine finish_reads (by rintro (h | h) <;> simp_all) rfl ?_ (by rw [hfl]; exact ⟨rfl, rfl, rfl, rfl⟩) rfl
      rw [hfl]
      simp only [view, Bool.or_self, Bool.false_eq_true, if_false]
      rw [posns_zero_map hw.2]
    · obtain ⟨rfl, rfl⟩ := Wp.dims_two h2
      refine finish_reads (fun _ => trivial) rfl ?_ (by rw [hfl, (dimFlags_zm hzm).2]; exact ⟨rfl, rfl, rfl, rfl⟩) rfl
      have := Wp.view_line hw.2
      rw [← extras_two hw.2, if_pos (show dims false false = 2 from rfl)] at this
      rw [hfl, (dimFlags_zm hzm).2]; exact this
    · refine finish_reads (fun _ => trivial) rfl ?_ (by rw [hfl, (dimFlags_zm hzm).2]; exact ⟨rfl, rfl, rfl, rfl⟩) rfl
      rw [hfl, (dimFlags_zm hzm).2]; exact Wp.view_line hw.2

theorem poly_read (req : Bool) (hb : takeBasic j "coordinates" = .ok ⟨T, { isEmpty := (first T).isNone }, x⟩) (hT : Here T c r) {z m : Bool} {rs : List (List (List F64))}
    (hzm : rs = [] ∨ (m = true → z = true)) (hc : IsRings (Num sd) rs c) (hp : ∀ r ∈ rs, RingWf z m r) :
    ∃ g, parsePolygon sd j req = .ok g ∧ Reads g (reread (.poly z m rs)) x req ∧ isColl g = false := by
  have hf := list_first (fun _ _ => series_jval) hc hT
  rw [parsePolygon, hb]
  simp only [P.bind]
  rw [reread]
  by_cases h0 : rs = []
  · rw [if_pos (hf.2 h0), if_pos h0, hf.2 h0]
    exact finish_reads (fun _ => trivial) rfl rfl ⟨rfl, rfl, rfl, rfl⟩ rfl
  · have hzm := hzm.resolve_left h0
    have hf' : (first T).isNone = false := by rw [← Bool.not_eq_true]; exact fun h => h0 (hf.1 h)
    have hp' : ∀ r ∈ rs, ∀ p ∈ r, posOk z m p := fun r hr => (hp r hr).2.1
    rw [hf', if_neg (by simp), if_neg h0, rings_read 2 hc hp h0 (.inl rfl) hT]
    simp only
    have hfl : ∀ g : Geom, addFlags g { isEmpty := false } = g := addFlags_none
    split_ifs with h1 h2
    · rw [Bool.and_eq_true, Bool.and_eq_true, beq_iff_eq] at h1
      obtain ⟨⟨hq, hx⟩, h2⟩ := h1
      obtain ⟨rfl, rfl⟩ := Wp.dims_two h2
      refine finish_reads (by rintro (h | h) <;> simp_all) rfl ?_ (by rw [hfl]; exact ⟨rfl, rfl, rfl, rfl⟩) rfl
      rw [hfl]
      simp only [view, Bool.or_self, Bool.false_eq_true, if_false]
      rw [Wp.rings_polyOf h0, posnss_zero_map hp']
    · obtain ⟨rfl, rfl⟩ := Wp.dims_two h2
      refine finish_reads (fun _ => trivial) rfl ?_ (by rw [hfl, (dimFlags_zm hzm).2]; exact ⟨rfl, rfl, rfl, rfl⟩) rfl
      have := Wp.view_poly h0 hp'
      rw [← extras_two' hp', if_pos (show dims false false = 2 from rfl)] at this
      rw [hfl, (dimFlags_zm hzm).2]; exact this
    · refine finish_reads (fun _ => trivial) rfl ?_ (by rw [hfl, (dimFlags_zm hzm).2]; exact ⟨rfl, rfl, rfl, rfl⟩) rfl
      rw [hfl, (dimFlags_zm hzm).2]; exact Wp.view_poly h0 hp'

theorem mpoint_read (req : Bool) (hb : takeBasic j "coordinates" = .ok ⟨T, { isEmpty := (first T).isNone }, x⟩) (hT : Here T c r) {z m : Bool} {ps : List (List F64)}
    (hzm : ps = [] ∨ (m = true → z = true)) (hc : IsSeries (Num sd) ps c) (hp : ∀ p ∈ ps, posOk z m p) :
    ∃ g, parseMPoint sd j = .ok g ∧ Reads g (reread (.mpoint z m ps)) x req ∧ isColl g = false := by
  have hf := list_first (fun _ _ => posn_jval) hc hT
  rw [parseMPoint, hb]
  simp only [P.bind]
  rw [reread, posns_read (base := .point) 1 (Wp.dims_bounds z m).1 hc (fun p hq => hp p hq) rfl (.inl rfl) hT]
  simp only
  rw [dimsAfter]
  by_cases h0 : ps = []
  · subst h0
    rw [if_pos rfl, if_pos rfl, hf.2 rfl]
    exact finish_reads (fun _ => trivial) rfl rfl ⟨rfl, rfl, rfl, rfl⟩ rfl
  · have hzm := hzm.resolve_left h0
    have hf' : (first T).isNone = false := by rw [← Bool.not_eq_true]; exact fun h => h0 (hf.1 h)
    have hfl : ∀ g : Geom, addFlags g { isEmpty := false } = g := addFlags_none
    rw [if_neg h0, if_neg h0, extras_two hp, hf']
    refine finish_reads (fun _ => trivial) rfl ?_ (by rw [hfl, (dimFlags_zm hzm).2]; exact ⟨rfl, rfl, rfl, rfl⟩) rfl
    rw [hfl, (dimFlags_zm hzm).2]; exact Wp.view_mpoint hp

theorem mline_read (req : Bool) (hb : takeBasic j "coordinates" = .ok ⟨T, { isEmpty := (first T).isNone }, x⟩) (hT : Here T c r) {z m : Bool} {ps : List (List (List F64))}
    (hzm : ps = [] ∨ (m = true → z = true)) (hc : IsRings (Num sd) ps c) (hp : ∀ p ∈ ps, LineWf z m p) :
    ∃ g, parseMLine sd j = .ok g ∧ Reads g (reread (.mline z m ps)) x req ∧ isColl g = false := by
  have hf := list_first (fun _ _ => series_jval) hc hT
  have hp' : ∀ r ∈ ps, ∀ p ∈ r, posOk z m p := fun r hr => (hp r hr).2
  rw [parseMLine, hb]
  simp only [P.bind]
  rw [reread, lines_read _ 2 hc hp (.inl rfl) hT _ (by omega)]
  simp only
  rw [dimsAfter]
  by_cases h0 : ps = []
  · subst h0
    rw [if_pos rfl, if_pos rfl, hf.2 rfl]
    exact finish_reads (fun _ => trivial) rfl rfl ⟨rfl, rfl, rfl, rfl⟩ rfl
  · have hzm := hzm.resolve_left h0
    have hf' : (first T).isNone = false := by rw [← Bool.not_eq_true]; exact fun h => h0 (hf.1 h)
    have hfl : ∀ g : Geom, addFlags g { isEmpty := false } = g := addFlags_none
    rw [if_neg h0, if_neg h0, extras_two' hp', hf']
    refine finish_reads (fun _ => trivial) rfl ?_ (by rw [hfl, (dimFlags_zm hzm).2]; exact ⟨rfl, rfl, rfl, rfl⟩) rfl
    rw [hfl, (dimFlags_zm hzm).2]; exact Wp.view_mline hp'

theorem mpoly_read (req : Bool) (hb : takeBasic j "coordinates" = .ok ⟨T, { isEmpty := (first T).isNone }, x⟩) (hT : Here T c r) {z m : Bool} {ps : List (List (List (List F64)))}
    (hzm : ps = [] ∨ (m = true → z = true)) (hc : IsPolys (Num sd) ps c) (hp : ∀ rs ∈ ps, rs ≠ [] ∧ ∀ r ∈ rs, RingWf z m r) :
    ∃ g, parseMPoly sd j = .ok g ∧ Reads g (reread (.mpoly z m ps)) x req ∧ isColl g = false := by
  have hf := list_first (fun _ _ => rings_jval) hc hT
  have hp' : ∀ rs ∈ ps, ∀ r ∈ rs, ∀ p ∈ r, posOk z m p := fun rs hrs r hr => ((hp rs hrs).2 r hr).2.1
  rw [parseMPoly, hb]
  simp only [P.bind]
  rw [reread, polys_read _ 3 hc hp (.inl rfl) hT _ (by omega)]
  simp only
  rw [dimsAfter]
  by_cases h0 : ps = []
  · subst h0
    rw [if_pos rfl, if_pos rfl, hf.2 rfl]
    exact finish_reads (fun _ => trivial) rfl rfl ⟨rfl, rfl, rfl, rfl⟩ rfl
  · have hzm := hzm.resolve_left h0
    have hf' : (first T).isNone = false := by rw [← Bool.not_eq_true]; exact fun h => h0 (hf.1 h)
    have hfl : ∀ g : Geom, addFlags g { isEmpty := false } = g := addFlags_none
    rw [if_neg h0, if_neg h0, extras_two'' hp', hf']
    refine finish_reads (fun _ => trivial) rfl ?_ (by rw [hfl, (dimFlags_zm hzm).2]; exact ⟨rfl, rfl, rfl, rfl⟩) rfl
    rw [hfl, (dimFlags_zm hzm).2]; exact Wp.view_mpoly (fun rs hrs => (hp rs hrs).1) hp'

/-! ### All types -/

theorem typeObj_jval {name field : String} {c t : List Byte} (h : TypeObj name field c t) : JVal t := by
  obtain ⟨ms, ty, ho, -⟩ := h
  exact obj_jval ho

theorem geometry_jval {v : GV} {t : List Byte} (h : IsGeometry (Num sd) v t) : JVal t := by
  match v with
  | .point _ _ (some p) => obtain ⟨c, h, -⟩ := h; exact typeObj_jval h
  | .point _ _ none => obtain ⟨c, h, -⟩ := h; exact typeObj_jval h
  | .line _ _ _ | .poly _ _ _ | .mpoint _ _ _ | .mline _ _ _ | .mpoly _ _ _ => obtain ⟨c, h, -⟩ := h; exact typeObj_jval h
  | .coll _ => obtain ⟨c, ts, h, -⟩ := h; exact typeObj_jval h

theorem geometries_jval : ∀ {vs : List GV} {ts : List (List Byte)}, AreGeometries (Num sd) vs ts → ∀ t ∈ ts, JVal t
  | [], ts, h => by rw [AreGeometries] at h; subst h; simp
  | v :: vs, ts, h => by
    rw [AreGeometries] at h
    obtain ⟨t, ts', rfl, h1, h2⟩ := h
    intro t' ht
    rcases List.mem_cons.1 ht with rfl | ht
    · exact geometry_jval h1
    · exact geometries_jval h2 t' ht

/-- The members of an object with coordinates. -/
theorem take_coords {name : String} {c t : List Byte} (h : TypeObj name "coordinates" c t) {vs : List (List Byte)} (hc : IsArr vs c) {j : Option J} {r : List Byte} (hj : Here j t r) :
    ∃ ms T r', Spec.Geojson.IsObj ms t ∧ takeBasic j "coordinates" = .ok ⟨T, { isEmpty := (first T).isNone }, extraText (others ["type", "coordinates"] ms)⟩ ∧ Here T c r' := by
  obtain ⟨ms, ty, ho, -, -, hm⟩ := h
  obtain ⟨T, r', h1, h2⟩ := takeBasic_obj (by decide) ascii_coordinates (by decide) ho hm hc hj
  exact ⟨ms, T, r', ho, h1, h2⟩

/-- What `parse_geojson` gives for a geometry. -/
def Gives (sd : List Byte → F64 × Nat) (d : Nat) (j : Option J) (req : Bool) (v : GV) (t : List Byte) : Prop :=
  ∃ g, parseGeojson sd d j req = .ok g ∧ view g = some v ∧ Keeps t g ∧ Ordinary g ∧ (req = true → Boxed g)

theorem gives_of {d : Nat} {j : Option J} {req : Bool} {v : GV} {t : List Byte} {ms : List (List Byte × List Byte)} {p : P Geom} (hp : parseGeojson sd d j req = p) (ho : Spec.Geojson.IsObj ms t)
    (h : ∃ g, p = .ok g ∧ Reads g v (extraText (others ["type", "coordinates"] ms)) req ∧ isColl g = false) : Gives sd d j req v t := by
  obtain ⟨g, rfl, ⟨h1, h2, h3, h4⟩, h5⟩ := h
  exact ⟨g, hp, h1, keeps_of ho h2 h5, h3, h4⟩

mutual
/-- `parse_geojson` reads every geometry object. -/
theorem read_geo (v : GV) (t : List Byte) (ht : IsGeometry (Num sd) v t) (hv : Wf v) (hz : ZFirst v) (d : Nat) (j : Option J) (r : List Byte) (hj : Here j t r) (hd : size j < d) (req : Bool) :
    Gives sd d j req (reread v) t := by
  obtain ⟨d, rfl⟩ : ∃ e, d = e + 1 := ⟨d - 1, by omega⟩
  match v with
  | .point z m (some p) =>
    rw [IsGeometry] at ht
    obtain ⟨c, ht, hc⟩ := ht
    have hdp := dispatch (sd := sd) ht (by decide) (by decide) hj d req
    rw [if_pos rfl] at hdp
    obtain ⟨ms, T, r', ho, hb, hT⟩ := take_coords ht hc.choose_spec.1 hj
    rw [reread]
    exact gives_of hdp ho (point_read req hb hT hz hc hv)
  | .point z m none =>
    rw [IsGeometry] at ht
    obtain ⟨c, ht, hc⟩ := ht
    have hdp := dispatch (sd := sd) ht (by decide) (by decide) hj d req
    rw [if_pos rfl] at hdp
    obtain ⟨ms, T, r', ho, hb, hT⟩ := take_coords ht hc hj
    rw [reread]
    exact gives_of hdp ho (point_empty req hb hT hc)
  | .line z m ps =>
    rw [IsGeometry] at ht
    obtain ⟨c, ht, hc⟩ := ht
    have hdp := dispatch (sd := sd) ht (by decide) (by decide) hj d req
    rw [if_neg (by decide), if_pos rfl] at hdp
    obtain ⟨ms, T, r', ho, hb, hT⟩ := take_coords ht hc.choose_spec.1 hj
    exact gives_of hdp ho (line_read req hb hT hz hc hv)
  | .poly z m rs =>
    rw [IsGeometry] at ht
    obtain ⟨c, ht, hc⟩ := ht
    have hdp := dispatch (sd := sd) ht (by decide) (by decide) hj d req
    rw [if_neg (by decide), if_neg (by decide), if_pos rfl] at hdp
    obtain ⟨ms, T, r', ho, hb, hT⟩ := take_coords ht hc.choose_spec.1 hj
    exact gives_of hdp ho (poly_read req hb hT hz hc hv)
  | .mpoint z m ps =>
    rw [IsGeometry] at ht
    obtain ⟨c, ht, hc⟩ := ht
    have hdp := dispatch (sd := sd) ht (by decide) (by decide) hj d req
    rw [if_neg (by decide), if_neg (by decide), if_neg (by decide), if_pos rfl] at hdp
    obtain ⟨ms, T, r', ho, hb, hT⟩ := take_coords ht hc.choose_spec.1 hj
    exact gives_of hdp ho (mpoint_read req hb hT hz hc hv)
  | .mline z m ls =>
    rw [IsGeometry] at ht
    obtain ⟨c, ht, hc⟩ := ht
    have hdp := dispatch (sd := sd) ht (by decide) (by decide) hj d req
    rw [if_neg (by decide), if_neg (by decide), if_neg (by decide), if_neg (by decide), if_pos rfl] at hdp
    obtain ⟨ms, T, r', ho, hb, hT⟩ := take_coords ht hc.choose_spec.1 hj
    exact gives_of hdp ho (mline_read req hb hT hz hc hv)
  | .mpoly z m ps =>
    rw [IsGeometry] at ht
    obtain ⟨c, ht, hc⟩ := ht
    have hdp := dispatch (sd := sd) ht (by decide) (by decide) hj d req
    rw [if_neg (by decide), if_neg (by decide), if_neg (by decide), if_neg (by decide), if_neg (by decide), if_pos rfl] at hdp
    obtain ⟨ms, T, r', ho, hb, hT⟩ := take_coords ht hc.choose_spec.1 hj
    exact gives_of hdp ho (mpoly_read req hb hT hz hc hv)
  | .coll gs =>
    rw [IsGeometry] at ht
    obtain ⟨c, ts, ht, hc, hts⟩ := ht
    have hdp := dispatch (sd := sd) ht (by decide) (by decide) hj d req
    rw [if_neg (by decide), if_neg (by decide), if_neg (by decide), if_neg (by decide), if_neg (by decide), if_neg (by decide), if_pos rfl] at hdp
    obtain ⟨ms, ty, ho, -, -, hm⟩ := ht
    obtain ⟨T, r', hb, hT⟩ := takeBasic_obj (by decide) ascii_geometries (by decide) ho hm hc hj
    have hsz := (takeBasic_target hb).2
    simp only at hsz
    have hw := arr_walk hc (geometries_jval hts) hT
    have hsf := size_first T
    obtain ⟨hs, e1, e2, e3⟩ := read_geos gs ts hts hv hz d (first T) hw (by omega) (size T + 1) (by omega)
    rw [parseColl, hb] at hdp
    simp only [P.bind] at hdp
    rw [e1] at hdp
    simp only at hdp
    obtain ⟨g', h1, h2, h3, h4, h5, h6⟩ := finish_ok (fl := { isEmpty := (first T).isNone }) (x := extraText (others ["type", "geometries"] ms)) (g := .coll {} true hs [] none) (fun _ => trivial) rfl
    rw [h1] at hdp
    refine ⟨g', hdp, ?_, ?_, ?_, fun _ => h5 trivial⟩
    · rw [h2, reread, addFlags, view, e2, walk_first hw]
      simp only [orFlags, Bool.or_self, Bool.false_or, Bool.not_true, Bool.false_eq_true, if_false]
      cases gs with
      | nil => rw [AreGeometries] at hts; subst hts; rfl
      | cons v vs => rw [AreGeometries] at hts; obtain ⟨t, ts', rfl, -⟩ := hts; rfl
    · rw [h6 _ _ _ _ rfl, Keeps]
      exact ⟨ms, c, ts, ho, hm, hc, rfl, e3⟩
    · unfold Ordinary; rw [h4]; exact ⟨rfl, rfl, rfl, rfl⟩
/-- … and every list of them. -/
theorem read_geos (vs : List GV) (ts : List (List Byte)) (ht : AreGeometries (Num sd) vs ts) (hv : Wfs vs) (hz : ZFirsts vs) (d : Nat) (j : Option J) (hw : Walk ts j) (hd : size j < d)
    (f : Nat) (hf : size j < f) :
    ∃ gs, childLoop (fun j => parseGeojson sd d j false)
      (fun g => if g.flags.isFeature || g.flags.isFeatureCol then some ("'geometries' must only contain objects with " ++ onlyGeoms) else none) f j = .ok gs ∧
      views gs = some (rereads vs) ∧ KeepAll ts gs := by
  obtain ⟨f, rfl⟩ : ∃ e, f = e + 1 := ⟨f - 1, by omega⟩
  match vs with
  | [] =>
    rw [AreGeometries] at ht
    subst ht
    rw [Walk] at hw
    subst hw
    exact ⟨[], rfl, rfl, rfl⟩
  | v :: vs =>
    rw [AreGeometries] at ht
    obtain ⟨t, ts', rfl, h1, h2⟩ := ht
    obtain ⟨⟨r, hh⟩, hw⟩ := hw
    obtain ⟨g, e1, e2, e3, e4, -⟩ := read_geo v t h1 hv.1 hz.1 d j r hh hd false
    obtain ⟨i, rfl, hne⟩ := here_some hh
    have hsz := size_next hne
    obtain ⟨gs, f1, f2, f3⟩ := read_geos vs ts' h2 hv.2 hz.2 d (next (some i)) hw (by omega) f (by omega)
    refine ⟨g :: gs, ?_, by simp only [views, rereads, e2, f2], ⟨t, ts', rfl, e3, f3⟩⟩
    rw [childLoop, e1]
    simp only [P.bind, e4.1, e4.2.1, Bool.or_self, Bool.false_eq_true, if_false]
    rw [f1]
end

end Tg.Gp
