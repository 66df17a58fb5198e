import Verif.Lemmas.GeojsonLooseLoops
/-! Which objects the GeoJSON parser reads, and as what. -/
set_option linter.unusedSectionVars false
namespace Tg.Gp
open Json
open Wp (P Base checkBase dimFlags polyOf showBytes Safe bind_ok safe_ok safe_err)
open Spec.Json (Ws Val Elems Mems Chr Chrs Str Utf8 HexDigit IsNumber)
open Spec.Geojson (Items IsArr Pairs Spells Named Member IsPosn IsSeries IsRings IsPolys IsList FirstMember LastMember NamedTo LooseObj Loose AreLoose LooseMembers LooseFeature LooseFeatures ZFirst ZFirsts reread rereads shown)
open Spec (view views posOk dims)
open Spec.Wkt (LineWf RingWf Wf Wfs)

variable {sd : List Byte → F64 × Nat}

/-! ### The type -/

theorem namedTo_str {v : List Byte} (h : JVal v) {s : String} (hn : NamedTo v s) : Str v := by
  obtain ⟨n, h⟩ := h
  obtain ⟨cs, rfl, -⟩ := hn
  exact val_str h rfl

theorem typeName_of {s : String} (h : (match txt s with | [] => false | b :: _ => decide (0x41 ≤ b.toNat ∧ b.toNat ≤ 0x5A)) = true) (hl : (txt s).length < 23)
    (hc : ∀ b ∈ txt s, b ≠ 0#8 ∧ b.toNat < 0x80) : TypeName s := by
  refine ⟨?_, hl, hc⟩
  cases e : txt s with
  | nil => rw [e] at h; cases h
  | cons b l => rw [e] at h; exact ⟨b, l, rfl, of_decide_eq_true h⟩

theorem tn_point : TypeName "Point" := typeName_of (by decide) (by decide) (by decide)
theorem tn_linestring : TypeName "LineString" := typeName_of (by decide) (by decide) (by decide)
theorem tn_polygon : TypeName "Polygon" := typeName_of (by decide) (by decide) (by decide)
theorem tn_multipoint : TypeName "MultiPoint" := typeName_of (by decide) (by decide) (by decide)
theorem tn_multilinestring : TypeName "MultiLineString" := typeName_of (by decide) (by decide) (by decide)
theorem tn_multipolygon : TypeName "MultiPolygon" := typeName_of (by decide) (by decide) (by decide)
theorem tn_geometrycollection : TypeName "GeometryCollection" := typeName_of (by decide) (by decide) (by decide)
theorem tn_feature : TypeName "Feature" := typeName_of (by decide) (by decide) (by decide)
theorem tn_featurecollection : TypeName "FeatureCollection" := typeName_of (by decide) (by decide) (by decide)

/-- The parser goes by the first type. -/
theorem dispatch_first {name : String} {ms : List (List Byte × List Byte)} {ty t r : List Byte} (hs : TypeName name) (ho : Spec.Geojson.IsObj ms t) (hty : FirstMember ms "type" ty) (hn : NamedTo ty name)
    {j : Option J} (hj : Here j t r) (d : Nat) (req : Bool) : parseGeojson sd (d + 1) j req =
      (if txt name = txt "Point" then parsePoint sd j req
        else if txt name = txt "LineString" then parseLine sd j req
        else if txt name = txt "Polygon" then parsePolygon sd j req
        else if txt name = txt "MultiPoint" then parseMPoint sd j
        else if txt name = txt "MultiLineString" then parseMLine sd j
        else if txt name = txt "MultiPolygon" then parseMPoly sd j
        else if txt name = txt "GeometryCollection" then parseColl (fun j => parseGeojson sd d j false) j
        else if txt name = txt "Feature" then parseFeature (parseGeojson sd d) j
        else if txt name = txt "FeatureCollection" then parseFeatureColl (fun j => parseGeojson sd d j false) j
        else .err ("unknown type '" ++ showBytes (txt name) ++ "'")) := by
  rcases get_first ascii_type ho hj with ⟨v, r', h1, e1, e2⟩ | ⟨h1, -⟩
  · obtain rfl := firstMember_unique h1 hty
    have hjv : JVal v := by
      obtain ⟨m, hm, -, rfl⟩ := firstMember_named h1
      exact (ho.1 m hm).2
    have hcp := copyStr_to (namedTo_str hjv hn) hs hn e1
    obtain ⟨i, hi, -⟩ := e2
    rw [parseGeojson, if_neg (by rw [(obj_head ho hj).1]; simp), hi]
    rw [hi] at hcp
    simp only [hcp]
  · obtain ⟨m, hm, hn', -⟩ := firstMember_named hty
    exact absurd hn' (h1 m hm)

/-- What was parsed is an object with a type. -/
theorem dispatch_inv {t r : List Byte} (hv : JVal t) {j : Option J} (hj : Here j t r) {d : Nat} {req : Bool} {g : Geom} (h : parseGeojson sd (d + 1) j req = .ok g) :
    ∃ ms ty, Spec.Geojson.IsObj ms t ∧ FirstMember ms "type" ty ∧
      ((NamedTo ty "Point" ∧ parsePoint sd j req = .ok g) ∨ (NamedTo ty "LineString" ∧ parseLine sd j req = .ok g) ∨ (NamedTo ty "Polygon" ∧ parsePolygon sd j req = .ok g) ∨
        (NamedTo ty "MultiPoint" ∧ parseMPoint sd j = .ok g) ∨ (NamedTo ty "MultiLineString" ∧ parseMLine sd j = .ok g) ∨ (NamedTo ty "MultiPolygon" ∧ parseMPoly sd j = .ok g) ∨
        (NamedTo ty "GeometryCollection" ∧ parseColl (fun j => parseGeojson sd d j false) j = .ok g) ∨ (NamedTo ty "Feature" ∧ parseFeature (parseGeojson sd d) j = .ok g) ∨
        (NamedTo ty "FeatureCollection" ∧ parseFeatureColl (fun j => parseGeojson sd d j false) j = .ok g)) := by
  rw [parseGeojson] at h
  by_cases ht : jtype j ≠ .object
  · rw [if_pos ht] at h; cases h
  rw [if_neg ht] at h
  obtain ⟨ms, ho⟩ := jval_obj hv hj (not_not.1 ht)
  rcases get_first ascii_type ho hj with ⟨v, r', h1, e1, e2⟩ | ⟨-, e1⟩
  swap
  · rw [e1] at h; cases h
  refine ⟨ms, v, ho, h1, ?_⟩
  have hjv : JVal v := by
    obtain ⟨m, hm, -, rfl⟩ := firstMember_named h1
    exact (ho.1 m hm).2
  have key : ∀ {s : String}, TypeName s → copyStr (objGet j (txt "type")) 24 = txt s → NamedTo v s := fun hs hc => copyStr_inv hjv hs e1 e2 hc
  obtain ⟨i, hi, -⟩ := e2
  rw [hi] at h key
  dsimp only at h
  by_cases c1 : copyStr (some i) 24 = txt "Point"
  · rw [if_pos c1] at h; exact .inl ⟨key tn_point c1, h⟩
  rw [if_neg c1] at h
  by_cases c2 : copyStr (some i) 24 = txt "LineString"
  · rw [if_pos c2] at h; exact .inr (.inl ⟨key tn_linestring c2, h⟩)
  rw [if_neg c2] at h
  by_cases c3 : copyStr (some i) 24 = txt "Polygon"
  · rw [if_pos c3] at h; exact .inr (.inr (.inl ⟨key tn_polygon c3, h⟩))
  rw [if_neg c3] at h
  by_cases c4 : copyStr (some i) 24 = txt "MultiPoint"
  · rw [if_pos c4] at h; exact .inr (.inr (.inr (.inl ⟨key tn_multipoint c4, h⟩)))
  rw [if_neg c4] at h
  by_cases c5 : copyStr (some i) 24 = txt "MultiLineString"
  · rw [if_pos c5] at h; exact .inr (.inr (.inr (.inr (.inl ⟨key tn_multilinestring c5, h⟩))))
  rw [if_neg c5] at h
  by_cases c6 : copyStr (some i) 24 = txt "MultiPolygon"
  · rw [if_pos c6] at h; exact .inr (.inr (.inr (.inr (.inr (.inl ⟨key tn_multipolygon c6, h⟩)))))
  rw [if_neg c6] at h
  by_cases c7 : copyStr (some i) 24 = txt "GeometryCollection"
  · rw [if_pos c7] at h; exact .inr (.inr (.inr (.inr (.inr (.inr (.inl ⟨key tn_geometrycollection c7, h⟩))))))
  rw [if_neg c7] at h
  by_cases c8 : copyStr (some i) 24 = txt "Feature"
  · rw [if_pos c8] at h; exact .inr (.inr (.inr (.inr (.inr (.inr (.inr (.inl ⟨key tn_feature c8, h⟩)))))))
  rw [if_neg c8] at h
  by_cases c9 : copyStr (some i) 24 = txt "FeatureCollection"
  · rw [if_pos c9] at h; exact .inr (.inr (.inr (.inr (.inr (.inr (.inr (.inr (⟨key tn_featurecollection c9, h⟩))))))))
  rw [if_neg c9] at h; cases h

/-! ### The types with coordinates -/

/-- What is read as a geometry. -/
def Got (sd : List Byte → F64 × Nat) (v : GV) (t : List Byte) (g : Geom) : Prop :=
  Loose (Num sd) v t ∧ Wf v ∧ ZFirst v ∧ view g = some (reread v) ∧ Ordinary g

variable {ms : List (List Byte × List Byte)} {ty t r : List Byte} {j : Option J} {g : Geom}

theorem got_of {p : P Geom} {v : GV} {x : Option (List Byte)} {req : Bool} (h : p = .ok g) (hl : Loose (Num sd) v t) (hw : Wf v) (hz : ZFirst v)
    (hr : ∃ g, p = .ok g ∧ Reads g (reread v) x req ∧ isColl g = false) : ∃ v, Got sd v t g := by
  obtain ⟨g', e, ⟨h1, -, h3, -⟩, -⟩ := hr
  rw [h] at e
  cases e
  exact ⟨v, hl, hw, hz, h1, h3⟩

/-- The array with the coordinates. -/
theorem coords_inv (ho : Spec.Geojson.IsObj ms t) (hj : Here j t r) {k : Basic → P Geom} (h : (takeBasic j "coordinates").bind k = .ok g) :
    ∃ T c r' x, LastMember ms "coordinates" c ∧ Here T c r' ∧ JVal c ∧ jtype T = .array ∧ takeBasic j "coordinates" = .ok ⟨T, { isEmpty := (first T).isNone }, x⟩ ∧
      k ⟨T, { isEmpty := (first T).isNone }, x⟩ = .ok g := by
  obtain ⟨b, h1, h2⟩ := bind_ok h
  obtain ⟨c, r', vs, h3, h4, h5, h6, h7⟩ := takeBasic_inv (by decide) ascii_coordinates (by decide) ho hj h1
  rw [h7] at h1 h2
  exact ⟨b.target, c, r', b.extra, h3, h4, arr_jval h5 h6, arr_head h5 h4, h1, h2⟩

/-- An array without elements. -/
theorem arr_none {c r : List Byte} (hv : JVal c) {T : Option J} (hT : Here T c r) (ht : jtype T = .array) (hf : (first T).isNone = true) : IsArr [] c := by
  obtain ⟨vs, h1, h2⟩ := jval_arr hv hT ht
  rw [walk_first (arr_walk h1 h2 hT)] at hf
  rw [of_decide_eq_true hf] at h1
  exact h1

theorem point_inv {req : Bool} (ho : Spec.Geojson.IsObj ms t) (hj : Here j t r) (hty : FirstMember ms "type" ty) (hn : NamedTo ty "Point") (h : parsePoint sd j req = .ok g) : ∃ v, Got sd v t g := by
  have h' := h
  rw [parsePoint] at h'
  obtain ⟨T, c, r', x, hl, hT, hc, hta, hb, h'⟩ := coords_inv ho hj h'
  dsimp only at h'
  by_cases hf : (first T).isNone = true
  · have ha := arr_none hc hT hta hf
    refine got_of (v := .point false false none) h ?_ trivial trivial (point_empty req hb hT ha)
    rw [Loose]; exact ⟨c, ⟨ms, ty, ho, hty, hn, hl⟩, ha⟩
  · rw [if_neg hf] at h'
    obtain ⟨p, h1, h'⟩ := bind_ok h'
    obtain ⟨hp, hp4⟩ := posn_inv _ hc hT hta h1
    by_cases h2 : p.length < 2
    · rw [if_pos h2] at h'; cases h'
    obtain ⟨z, m, hd, hzm⟩ := zm_of (D := p.length) ⟨by omega, hp4⟩
    refine got_of (v := .point z m (some p)) h ?_ hd.symm hzm (point_read req hb hT hzm hp hd.symm)
    rw [Loose]; exact ⟨c, ⟨ms, ty, ho, hty, hn, hl⟩, hp⟩

theorem nil_list {α : Type} {I : α → List Byte → Prop} {c : List Byte} (h : IsArr [] c) : IsList I [] c := ⟨[], h, .nil⟩

theorem line_got {req : Bool} (ho : Spec.Geojson.IsObj ms t) (hj : Here j t r) (hty : FirstMember ms "type" ty) (hn : NamedTo ty "LineString") (h : parseLine sd j req = .ok g) : ∃ v, Got sd v t g := by
  have h' := h
  rw [parseLine] at h'
  obtain ⟨T, c, r', x, hl, hT, hc, hta, hb, h'⟩ := coords_inv ho hj h'
  dsimp only at h'
  by_cases hf : (first T).isNone = true
  · have ha := arr_none hc hT hta hf
    refine got_of (v := .line false false []) h ?_ (.inl rfl) (.inl rfl) (line_read req hb hT (.inl rfl) (nil_list ha) (.inl rfl))
    rw [Loose]; exact ⟨c, ⟨ms, ty, ho, hty, hn, hl⟩, nil_list ha⟩
  · rw [if_neg hf] at h'
    obtain ⟨⟨D, ps⟩, h1, h'⟩ := bind_ok h'
    obtain ⟨i1, i2, i3, -⟩ := line_inv 1 _ _ _ _ _ _ hc hT hta h1
    obtain ⟨z, m, hd, hzm⟩ := zm_of i3
    have hw := i2 z m hd
    refine got_of (v := .line z m ps) h ?_ (.inr hw) (.inr hzm) (line_read req hb hT (.inr hzm) i1 (.inr hw))
    rw [Loose]; exact ⟨c, ⟨ms, ty, ho, hty, hn, hl⟩, i1⟩

theorem poly_got {req : Bool} (ho : Spec.Geojson.IsObj ms t) (hj : Here j t r) (hty : FirstMember ms "type" ty) (hn : NamedTo ty "Polygon") (h : parsePolygon sd j req = .ok g) : ∃ v, Got sd v t g := by
  have h' := h
  rw [parsePolygon] at h'
  obtain ⟨T, c, r', x, hl, hT, hc, hta, hb, h'⟩ := coords_inv ho hj h'
  dsimp only at h'
  by_cases hf : (first T).isNone = true
  · have ha := arr_none hc hT hta hf
    refine got_of (v := .poly false false []) h ?_ (by simp [Wf]) (.inl rfl) (poly_read req hb hT (.inl rfl) (nil_list ha) (by simp))
    rw [Loose]; exact ⟨c, ⟨ms, ty, ho, hty, hn, hl⟩, nil_list ha⟩
  · rw [if_neg hf] at h'
    obtain ⟨⟨D, ps⟩, h1, h'⟩ := bind_ok h'
    obtain ⟨i1, ⟨-, i2⟩, i3, -⟩ := rings_inv 2 _ _ _ _ _ _ hc hT hta h1
    obtain ⟨z, m, hd, hzm⟩ := zm_of i3
    have hw : ∀ l ∈ ps, RingWf z m l := fun l hl => i2 l hl z m hd
    refine got_of (v := .poly z m ps) h ?_ hw (.inr hzm) (poly_read req hb hT (.inr hzm) i1 hw)
    rw [Loose]; exact ⟨c, ⟨ms, ty, ho, hty, hn, hl⟩, i1⟩

theorem mpoint_got (ho : Spec.Geojson.IsObj ms t) (hj : Here j t r) (hty : FirstMember ms "type" ty) (hn : NamedTo ty "MultiPoint") (h : parseMPoint sd j = .ok g) : ∃ v, Got sd v t g := by
  have h' := h
  rw [parseMPoint] at h'
  obtain ⟨T, c, r', x, hl, hT, hc, hta, hb, h'⟩ := coords_inv ho hj h'
  obtain ⟨⟨D, ps⟩, h1, h'⟩ := bind_ok h'
  obtain ⟨i1, i2, -, i4, -⟩ := parsePosns_inv 1 hc hT hta h1
  by_cases h0 : ps = []
  · subst h0
    refine got_of (v := .mpoint false false []) h ?_ (by simp [Wf]) (.inl rfl) (mpoint_read false hb hT (.inl rfl) i1 (by simp))
    rw [Loose]; exact ⟨c, ⟨ms, ty, ho, hty, hn, hl⟩, i1⟩
  · obtain ⟨z, m, hd, hzm⟩ := zm_of (i4 h0)
    have hw : ∀ p ∈ ps, posOk z m p := fun p hp => (i2 p hp).trans hd.symm
    refine got_of (v := .mpoint z m ps) h ?_ hw (.inr hzm) (mpoint_read false hb hT (.inr hzm) i1 hw)
    rw [Loose]; exact ⟨c, ⟨ms, ty, ho, hty, hn, hl⟩, i1⟩

theorem mline_got (ho : Spec.Geojson.IsObj ms t) (hj : Here j t r) (hty : FirstMember ms "type" ty) (hn : NamedTo ty "MultiLineString") (h : parseMLine sd j = .ok g) : ∃ v, Got sd v t g := by
  have h' := h
  rw [parseMLine] at h'
  obtain ⟨T, c, r', x, hl, hT, hc, hta, hb, h'⟩ := coords_inv ho hj h'
  obtain ⟨⟨D, ps⟩, h1, h'⟩ := bind_ok h'
  obtain ⟨vs, h2, h3⟩ := jval_arr hc hT hta
  obtain ⟨i1, i2, i3, -⟩ := arrLoop_inv _ _ (line_inv 2) vs _ _ _ _ _ (arr_walk h2 h3 hT) h3 h1
  have i1 : IsRings (Num sd) ps c := ⟨vs, h2, i1⟩
  by_cases h0 : ps = []
  · subst h0
    refine got_of (v := .mline false false []) h ?_ (by simp [Wf]) (.inl rfl) (mline_read false hb hT (.inl rfl) i1 (by simp))
    rw [Loose]; exact ⟨c, ⟨ms, ty, ho, hty, hn, hl⟩, i1⟩
  · obtain ⟨z, m, hd, hzm⟩ := zm_of (i3 h0)
    have hw : ∀ p ∈ ps, LineWf z m p := fun p hp => i2 p hp z m hd
    refine got_of (v := .mline z m ps) h ?_ hw (.inr hzm) (mline_read false hb hT (.inr hzm) i1 hw)
    rw [Loose]; exact ⟨c, ⟨ms, ty, ho, hty, hn, hl⟩, i1⟩

theorem mpoly_got (ho : Spec.Geojson.IsObj ms t) (hj : Here j t r) (hty : FirstMember ms "type" ty) (hn : NamedTo ty "MultiPolygon") (h : parseMPoly sd j = .ok g) : ∃ v, Got sd v t g := by
  have h' := h
  rw [parseMPoly] at h'
  obtain ⟨T, c, r', x, hl, hT, hc, hta, hb, h'⟩ := coords_inv ho hj h'
  obtain ⟨⟨D, ps⟩, h1, h'⟩ := bind_ok h'
  obtain ⟨vs, h2, h3⟩ := jval_arr hc hT hta
  obtain ⟨i1, i2, i3, -⟩ := arrLoop_inv _ (fun D (a : List (List (List F64))) => a ≠ [] ∧ ∀ l ∈ a, RingOf D l) (rings_inv 3) vs _ _ _ _ _ (arr_walk h2 h3 hT) h3 h1
  have i1 : IsPolys (Num sd) ps c := ⟨vs, h2, i1⟩
  by_cases h0 : ps = []
  · subst h0
    refine got_of (v := .mpoly false false []) h ?_ (by simp [Wf]) (.inl rfl) (mpoly_read false hb hT (.inl rfl) i1 (by simp))
    rw [Loose]; exact ⟨c, ⟨ms, ty, ho, hty, hn, hl⟩, i1⟩
  · obtain ⟨z, m, hd, hzm⟩ := zm_of (i3 h0)
    have hw : ∀ rs ∈ ps, rs ≠ [] ∧ ∀ l ∈ rs, RingWf z m l := fun p hp => ⟨(i2 p hp).1, fun l hl => (i2 p hp).2 l hl z m hd⟩
    refine got_of (v := .mpoly z m ps) h ?_ hw (.inr hzm) (mpoly_read false hb hT (.inr hzm) i1 hw)
    rw [Loose]; exact ⟨c, ⟨ms, ty, ho, hty, hn, hl⟩, i1⟩

/-! ### Everything -/

/-- What is read as a Feature. -/
def GotFeature (sd : List Byte → F64 × Nat) (f : Option GV) (t : List Byte) (g : Geom) : Prop :=
  LooseFeature (Num sd) f t ∧ (∀ v, f = some v → Wf v ∧ ZFirst v) ∧ view g = some (shown f) ∧ g.flags.isFeature = true ∧ g.flags.isFeatureCol = false

/-- What is read as a FeatureCollection. -/
def GotFeatures (sd : List Byte → F64 × Nat) (fs : List (Option GV)) (t : List Byte) (g : Geom) : Prop :=
  LooseFeatures (Num sd) fs t ∧ (∀ v, some v ∈ fs → Wf v ∧ ZFirst v) ∧ view g = some (.coll (fs.map shown)) ∧ g.flags.isFeature = false ∧ g.flags.isFeatureCol = true

/-- What is read. -/
def GotAny (sd : List Byte → F64 × Nat) (t : List Byte) (g : Geom) : Prop := (∃ v, Got sd v t g) ∨ (∃ f, GotFeature sd f t g) ∨ ∃ fs, GotFeatures sd fs t g

theorem geos_inv {child : Option J → P Geom} (hch : ∀ t j r g, JVal t → Here j t r → child j = .ok g → GotAny sd t g) (e : String) :
    ∀ (ts : List (List Byte)) (j : Option J) (f : Nat) (gs : List Geom), Walk ts j → (∀ t ∈ ts, JVal t) →
    childLoop child (fun g => if g.flags.isFeature || g.flags.isFeatureCol then some e else none) f j = .ok gs →
    ∃ vs, AreLoose (Num sd) vs ts ∧ Wfs vs ∧ ZFirsts vs ∧ views gs = some (rereads vs)
  | ts, j, 0, gs, hw, hv, h => by cases h
  | [], j, f + 1, gs, hw, hv, h => by
    rw [Walk] at hw
    subst hw
    cases h
    exact ⟨[], by rw [AreLoose], trivial, trivial, rfl⟩
  | t :: ts, j, f + 1, gs, hw, hv, h => by
    obtain ⟨⟨r, hh⟩, hw⟩ := hw
    obtain ⟨i, rfl, -⟩ := here_some hh
    rw [childLoop] at h
    obtain ⟨g, h1, h⟩ := bind_ok h
    have hg := hch t _ r g (hv t (by simp)) hh h1
    by_cases hc : (g.flags.isFeature || g.flags.isFeatureCol) = true
    · rw [if_pos hc] at h; cases h
    rw [if_neg hc] at h
    dsimp only at h
    obtain ⟨gs', h2, h⟩ := bind_ok h
    cases h
    obtain ⟨vs, k1, k2, k3, k4⟩ := geos_inv hch e ts _ f gs' hw (fun u hu => hv u (by simp [hu])) h2
    rcases hg with ⟨v, i1, i2, i3, i4, -⟩ | ⟨_, -, -, -, i4, -⟩ | ⟨_, -, -, -, -, i5⟩
    · exact ⟨v :: vs, by rw [AreLoose]; exact ⟨t, ts, rfl, i1, k1⟩, ⟨i2, k2⟩, ⟨i3, k3⟩, by simp only [views, rereads, i4, k4]⟩
    · rw [i4] at hc; exact absurd rfl hc
    · rw [i5] at hc; simp at hc

theorem feats_inv {child : Option J → P Geom} (hch : ∀ t j r g, JVal t → Here j t r → child j = .ok g → GotAny sd t g) (e : String) :
    ∀ (ts : List (List Byte)) (j : Option J) (f : Nat) (gs : List Geom), Walk ts j → (∀ t ∈ ts, JVal t) →
    childLoop child (fun g => if g.flags.isFeature then none else some e) f j = .ok gs →
    ∃ fs, List.Forall₂ (LooseFeature (Num sd)) fs ts ∧ (∀ v, some v ∈ fs → Wf v ∧ ZFirst v) ∧ views gs = some (fs.map shown)
  | ts, j, 0, gs, hw, hv, h => by cases h
  | [], j, f + 1, gs, hw, hv, h => by
    rw [Walk] at hw
    subst hw
    cases h
    exact ⟨[], .nil, by simp, rfl⟩
  | t :: ts, j, f + 1, gs, hw, hv, h => by
    obtain ⟨⟨r, hh⟩, hw⟩ := hw
    obtain ⟨i, rfl, -⟩ := here_some hh
    rw [childLoop] at h
    obtain ⟨g, h1, h⟩ := bind_ok h
    have hg := hch t _ r g (hv t (by simp)) hh h1
    by_cases hc : g.flags.isFeature = true
    swap
    · rw [if_neg hc] at h; cases h
    rw [if_pos hc] at h
    dsimp only at h
    obtain ⟨gs', h2, h⟩ := bind_ok h
    cases h
    obtain ⟨fs, k1, k2, k3⟩ := feats_inv hch e ts _ f gs' hw (fun u hu => hv u (by simp [hu])) h2
    rcases hg with ⟨v, -, -, -, -, i5⟩ | ⟨u, i1, i2, i3, -⟩ | ⟨_, -, -, -, i4, -⟩
    · rw [i5.1] at hc; cases hc
    · refine ⟨u :: fs, .cons i1 k1, fun v hv => ?_, by simp only [views, List.map_cons, i3, k3]⟩
      rcases List.mem_cons.1 hv with hv | hv
      · exact i2 v hv.symm
      · exact k2 v hv
    · rw [i4] at hc; cases hc

/-- A collection is finished. -/
theorem coll_finish {fl f : Flags} {x : Option (List Byte)} {gs : List Geom} (h : finish fl x (.coll f true gs [] none) = .ok g) : g = .coll (orFlags f fl) true gs [] x := by
  obtain ⟨g', h1, -, -, -, -, h6⟩ := finish_ok (fl := fl) (x := x) (g := .coll f true gs [] none) (fun _ => trivial) rfl
  rw [h] at h1
  cases h1
  exact h6 _ _ _ _ rfl

theorem looseColl_view {T : Option J} {ts : List (List Byte)} {gs : List Geom} {vs : List GV} {f : Flags} {x : Option (List Byte)} (hw : Walk ts (first T)) (hv : views gs = some vs) (hl : ts = [] ↔ vs = [])
    (hf : f.isEmpty = false ∧ f.hasZ = false ∧ f.hasM = false) : view (.coll (orFlags f { isEmpty := (first T).isNone }) true gs [] x) = some (.coll vs) := by
  rw [view, hv, walk_first hw]
  by_cases h0 : ts = []
  · have := hl.1 h0
    subst this
    simp [orFlags, h0, hf.2.1, hf.2.2]
  · simp [orFlags, h0, hf.1, hf.2.1, hf.2.2]

theorem areLoose_nil {vs : List GV} {ts : List (List Byte)} (h : AreLoose (Num sd) vs ts) : ts = [] ↔ vs = [] := by
  cases vs with
  | nil => rw [AreLoose] at h; simp [h]
  | cons v vs => rw [AreLoose] at h; obtain ⟨t, ts', rfl, -⟩ := h; simp

theorem rereads_nil {vs : List GV} : rereads vs = [] ↔ vs = [] := by cases vs <;> simp [rereads]

/-- What `finish` leaves of the view and the flags. -/
theorem finish_keeps {fl : Flags} {x : Option (List Byte)} {g g' : Geom} (h : finish fl x g = .ok g') : view g' = view (addFlags g fl) ∧ g'.flags = (addFlags g fl).flags := by
  unfold finish setX at h
  cases x with
  | none => cases h; exact ⟨rfl, rfl⟩
  | some x => cases g <;> simp only [addFlags] at h <;> cases h <;> exact ⟨rfl, rfl⟩

theorem feature_inv {child : Option J → Bool → P Geom} (hch : ∀ t j r req g, JVal t → Here j t r → child j req = .ok g → GotAny sd t g) (ho : Spec.Geojson.IsObj ms t) (hj : Here j t r)
    (hty : FirstMember ms "type" ty) (hn : NamedTo ty "Feature") (h : parseFeature child j = .ok g) : ∃ f, GotFeature sd f t g := by
  rw [parseFeature] at h
  obtain ⟨b, hb, h⟩ := bind_ok h
  obtain ⟨hm, c, r', hl, hT, hc, hk⟩ := takeBasic_feature_inv ho hj hb
  obtain ⟨g0, h1, h⟩ := bind_ok h
  dsimp only at h
  by_cases hfe : (g0.flags.isFeature || g0.flags.isFeatureCol) = true
  · rw [if_pos hfe] at h; cases h
  rw [if_neg hfe] at h
  obtain ⟨y, hy⟩ : ∃ y, finish b.flags y (addFlags g0 { isFeature := true }) = .ok g := by
    cases hx : xjsonOf (addFlags g0 { isFeature := true }) with
    | none => rw [hx] at h; exact ⟨_, h⟩
    | some x => rw [hx] at h; exact ⟨_, h⟩
  obtain ⟨e1, e2⟩ := finish_keeps hy
  rcases hk with ⟨np, ms', hob, hfl⟩ | ⟨np, rfl, hfl⟩
  · rw [hfl] at h1
    dsimp only at h1
    rw [if_neg (by simp)] at h1
    rcases hch c _ _ _ _ hc hT h1 with ⟨v, i1, i2, i3, i4, i5⟩ | ⟨_, -, -, -, i4, -⟩ | ⟨_, -, -, -, -, i5⟩
    · refine ⟨some v, ⟨ms, ty, c, ho, hty, hn, hl, hm, i1⟩, ?_, ?_, ?_⟩
      · intro u hu; cases hu; exact ⟨i2, i3⟩
      · rw [e1, hfl, addFlags_twice, view_addFlags, i4]; rfl
      · have hne : ∀ m, g0 ≠ .err m := by rintro m rfl; simp [view] at i4
        rw [e2, hfl, addFlags_twice, flags_addFlags hne]
        simp [orFlags, i5.2.1]
    · rw [i4] at hfe; exact absurd rfl hfe
    · rw [i5] at hfe; simp at hfe
  · rw [hfl] at h1
    dsimp only at h1
    rw [if_pos rfl] at h1
    cases h1
    refine ⟨none, ⟨ms, ty, _, ho, hty, hn, hl, hm, rfl⟩, by simp, ?_, ?_⟩
    · rw [e1, hfl]; rfl
    · rw [e2, hfl]; exact ⟨rfl, rfl⟩

/-- Everything that is parsed. -/
theorem parse_inv : ∀ (d : Nat) (t : List Byte) (j : Option J) (r : List Byte) (req : Bool) (g : Geom), JVal t → Here j t r → parseGeojson sd d j req = .ok g → GotAny sd t g
  | 0, _, _, _, _, _, _, _, h => by cases h
  | d + 1, t, j, r, req, g, hv, hj, h => by
    obtain ⟨ms, ty, ho, hty, hk⟩ := dispatch_inv hv hj h
    rcases hk with ⟨hn, h⟩ | ⟨hn, h⟩ | ⟨hn, h⟩ | ⟨hn, h⟩ | ⟨hn, h⟩ | ⟨hn, h⟩ | ⟨hn, h⟩ | ⟨hn, h⟩ | ⟨hn, h⟩
    · exact .inl (point_inv ho hj hty hn h)
    · exact .inl (line_got ho hj hty hn h)
    · exact .inl (poly_got ho hj hty hn h)
    · exact .inl (mpoint_got ho hj hty hn h)
    · exact .inl (mline_got ho hj hty hn h)
    · exact .inl (mpoly_got ho hj hty hn h)
    · rw [parseColl] at h
      obtain ⟨b, hb, h⟩ := bind_ok h
      obtain ⟨c, r', vs, hl, hT, hc, hjs, hbe⟩ := takeBasic_inv (by decide) ascii_geometries (by decide) ho hj hb
      obtain ⟨gs, h1, h⟩ := bind_ok h
      have hw := arr_walk hc hjs hT
      obtain ⟨us, k1, k2, k3, k4⟩ := geos_inv (fun t j r g hv hj h => parse_inv d t j r false g hv hj h) _ vs _ _ gs hw hjs h1
      rw [hbe] at h
      have hg := coll_finish h
      refine .inl ⟨.coll us, ?_, k2, k3, ?_, ?_⟩
      · rw [Loose]; exact ⟨c, vs, ⟨ms, ty, ho, hty, hn, hl⟩, hc, k1⟩
      · rw [hg, reread]; exact looseColl_view hw k4 ((areLoose_nil k1).trans rereads_nil.symm) ⟨rfl, rfl, rfl⟩
      · rw [hg]; exact ⟨rfl, rfl, rfl, rfl⟩
    · exact .inr (.inl (feature_inv (fun t j r req g => parse_inv d t j r req g) ho hj hty hn h))
    · rw [parseFeatureColl] at h
      obtain ⟨b, hb, h⟩ := bind_ok h
      obtain ⟨c, r', vs, hl, hT, hc, hjs, hbe⟩ := takeBasic_inv (by decide) ascii_features (by decide) ho hj hb
      obtain ⟨gs, h1, h⟩ := bind_ok h
      have hw := arr_walk hc hjs hT
      obtain ⟨us, k1, k2, k3⟩ := feats_inv (fun t j r g hv hj h => parse_inv d t j r false g hv hj h) _ vs _ _ gs hw hjs h1
      rw [hbe] at h
      have hg := coll_finish h
      refine .inr (.inr ⟨us, ⟨c, vs, ⟨ms, ty, ho, hty, hn, hl⟩, hc, k1⟩, k2, ?_, ?_⟩)
      · rw [hg]; exact looseColl_view hw k3 (by cases k1 <;> simp) ⟨rfl, rfl, rfl⟩
      · rw [hg]; exact ⟨rfl, rfl⟩

/-! ### The other direction -/

theorem looseObj_jval {name field : String} {c t : List Byte} (h : LooseObj name field c t) : JVal t := by
  obtain ⟨ms, ty, ho, -⟩ := h
  exact obj_jval ho

theorem loose_obj {v : GV} {t : List Byte} (h : Loose (Num sd) v t) : ∃ ms, Spec.Geojson.IsObj ms t := by
  match v with
  | .point _ _ (some p) => rw [Loose] at h; obtain ⟨c, ⟨ms, _, h, -⟩, -⟩ := h; exact ⟨ms, h⟩
  | .point _ _ none => rw [Loose] at h; obtain ⟨c, ⟨ms, _, h, -⟩, -⟩ := h; exact ⟨ms, h⟩
  | .line _ _ _ | .poly _ _ _ | .mpoint _ _ _ | .mline _ _ _ | .mpoly _ _ _ => rw [Loose] at h; obtain ⟨c, ⟨ms, _, h, -⟩, -⟩ := h; exact ⟨ms, h⟩
  | .coll _ => rw [Loose] at h; obtain ⟨c, ts, ⟨ms, _, h, -⟩, -⟩ := h; exact ⟨ms, h⟩

theorem looses_jval : ∀ {vs : List GV} {ts : List (List Byte)}, AreLoose (Num sd) vs ts → ∀ t ∈ ts, JVal t
  | [], ts, h => by rw [AreLoose] at h; subst h; simp
  | v :: vs, ts, h => by
    rw [AreLoose] at h
    obtain ⟨t, ts', rfl, h1, h2⟩ := h
    intro t' ht
    rcases List.mem_cons.1 ht with rfl | ht
    · obtain ⟨ms, h⟩ := loose_obj h1; exact obj_jval h
    · exact looses_jval h2 t' ht

theorem loose_coords {name : String} {c t : List Byte} (h : LooseObj name "coordinates" c t) {vs : List (List Byte)} (hc : IsArr vs c) {j : Option J} {r : List Byte} (hj : Here j t r) :
    ∃ T r' x, takeBasic j "coordinates" = .ok ⟨T, { isEmpty := (first T).isNone }, x⟩ ∧ Here T c r' := by
  obtain ⟨ms, ty, ho, -, -, hm⟩ := h
  exact takeBasic_last (by decide) ascii_coordinates (by decide) ho hj hm hc

/-- What `parse_geojson` gives. -/
def Makes (sd : List Byte → F64 × Nat) (d : Nat) (j : Option J) (req : Bool) (v : GV) : Prop :=
  ∃ g, parseGeojson sd d j req = .ok g ∧ view g = some v ∧ Ordinary g ∧ (req = true → Boxed g)

theorem makes_of {d : Nat} {j : Option J} {req : Bool} {v : GV} {p : P Geom} {x : Option (List Byte)} (hp : parseGeojson sd d j req = p)
    (h : ∃ g, p = .ok g ∧ Reads g v x req ∧ isColl g = false) : Makes sd d j req v := by
  obtain ⟨g, rfl, ⟨h1, -, h3, h4⟩, -⟩ := h
  exact ⟨g, hp, h1, h3, h4⟩

theorem loose_dispatch {name field : String} {c t r : List Byte} (hs : TypeName name) (h : LooseObj name field c t) {j : Option J} (hj : Here j t r) (d : Nat) (req : Bool) :
    parseGeojson sd (d + 1) j req =
      (if txt name = txt "Point" then parsePoint sd j req
        else if txt name = txt "LineString" then parseLine sd j req
        else if txt name = txt "Polygon" then parsePolygon sd j req
        else if txt name = txt "MultiPoint" then parseMPoint sd j
        else if txt name = txt "MultiLineString" then parseMLine sd j
        else if txt name = txt "MultiPolygon" then parseMPoly sd j
        else if txt name = txt "GeometryCollection" then parseColl (fun j => parseGeojson sd d j false) j
        else if txt name = txt "Feature" then parseFeature (parseGeojson sd d) j
        else if txt name = txt "FeatureCollection" then parseFeatureColl (fun j => parseGeojson sd d j false) j
        else .err ("unknown type '" ++ showBytes (txt name) ++ "'")) := by
  obtain ⟨_, _, ho, hty, hn, _⟩ := h
  exact dispatch_first hs ho hty hn hj d req

mutual
/-- `parse_geojson` reads every such object. -/
theorem read_loose (v : GV) (t : List Byte) (ht : Loose (Num sd) v t) (hv : Wf v) (hz : ZFirst v) (d : Nat) (j : Option J) (r : List Byte) (hj : Here j t r) (hd : size j < d) (req : Bool) :
    Makes sd d j req (reread v) := by
  obtain ⟨d, rfl⟩ : ∃ e, d = e + 1 := ⟨d - 1, by omega⟩
  match v with
  | .point z m (some p) =>
    rw [Loose] at ht
    obtain ⟨c, ht, hc⟩ := ht
    have hdp := loose_dispatch (sd := sd) tn_point ht hj d req
    rw [if_pos rfl] at hdp
    obtain ⟨T, r', x, hb, hT⟩ := loose_coords ht hc.choose_spec.1 hj
    rw [reread]
    exact makes_of hdp (point_read req hb hT hz hc hv)
  | .point z m none =>
    rw [Loose] at ht
    obtain ⟨c, ht, hc⟩ := ht
    have hdp := loose_dispatch (sd := sd) tn_point ht hj d req
    rw [if_pos rfl] at hdp
    obtain ⟨T, r', x, hb, hT⟩ := loose_coords ht hc hj
    rw [reread]
    exact makes_of hdp (point_empty req hb hT hc)
  | .line z m ps =>
    rw [Loose] at ht
    obtain ⟨c, ht, hc⟩ := ht
    have hdp := loose_dispatch (sd := sd) tn_linestring ht hj d req
    rw [if_neg (by decide), if_pos rfl] at hdp
    obtain ⟨T, r', x, hb, hT⟩ := loose_coords ht hc.choose_spec.1 hj
    exact makes_of hdp (line_read req hb hT hz hc hv)
  | .poly z m rs =>
    rw [Loose] at ht
    obtain ⟨c, ht, hc⟩ := ht
    have hdp := loose_dispatch (sd := sd) tn_polygon ht hj d req
    rw [if_neg (by decide), if_neg (by decide), if_pos rfl] at hdp
    obtain ⟨T, r', x, hb, hT⟩ := loose_coords ht hc.choose_spec.1 hj
    exact makes_of hdp (poly_read req hb hT hz hc hv)
  | .mpoint z m ps =>
    rw [Loose] at ht
    obtain ⟨c, ht, hc⟩ := ht
    have hdp := loose_dispatch (sd := sd) tn_multipoint ht hj d req
    rw [if_neg (by decide), if_neg (by decide), if_neg (by decide), if_pos rfl] at hdp
    obtain ⟨T, r', x, hb, hT⟩ := loose_coords ht hc.choose_spec.1 hj
    exact makes_of hdp (mpoint_read req hb hT hz hc hv)
  | .mline z m ls =>
    rw [Loose] at ht
    obtain ⟨c, ht, hc⟩ := ht
    have hdp := loose_dispatch (sd := sd) tn_multilinestring ht hj d req
    rw [if_neg (by decide), if_neg (by decide), if_neg (by decide), if_neg (by decide), if_pos rfl] at hdp
    obtain ⟨T, r', x, hb, hT⟩ := loose_coords ht hc.choose_spec.1 hj
    exact makes_of hdp (mline_read req hb hT hz hc hv)
  | .mpoly z m ps =>
    rw [Loose] at ht
    obtain ⟨c, ht, hc⟩ := ht
    have hdp := loose_dispatch (sd := sd) tn_multipolygon ht hj d req
    rw [if_neg (by decide), if_neg (by decide), if_neg (by decide), if_neg (by decide), if_neg (by decide), if_pos rfl] at hdp
    obtain ⟨T, r', x, hb, hT⟩ := loose_coords ht hc.choose_spec.1 hj
    exact makes_of hdp (mpoly_read req hb hT hz hc hv)
  | .coll gs =>
    rw [Loose] at ht
    obtain ⟨c, ts, ht, hc, hts⟩ := ht
    have hdp := loose_dispatch (sd := sd) tn_geometrycollection ht hj d req
    rw [if_neg (by decide), if_neg (by decide), if_neg (by decide), if_neg (by decide), if_neg (by decide), if_neg (by decide), if_pos rfl] at hdp
    obtain ⟨ms, ty, ho, -, -, hm⟩ := ht
    obtain ⟨T, r', x, hb, hT⟩ := takeBasic_last (by decide) ascii_geometries (by decide) ho hj hm hc
    have hsz := (takeBasic_target hb).2
    simp only at hsz
    have hw := arr_walk hc (looses_jval hts) hT
    have hsf := size_first T
    obtain ⟨hs, e1, e2⟩ := read_looses gs ts hts hv hz d (first T) hw (by omega) (size T + 1) (by omega)
    rw [parseColl, hb] at hdp
    simp only [P.bind] at hdp
    rw [e1] at hdp
    simp only at hdp
    obtain ⟨g', h1, -, -, -, h5, h6⟩ := finish_ok (fl := { isEmpty := (first T).isNone }) (x := x) (g := .coll {} true hs [] none) (fun _ => trivial) rfl
    rw [h1] at hdp
    refine ⟨g', hdp, ?_, ?_, fun _ => h5 trivial⟩
    · rw [h6 _ _ _ _ rfl, reread]; exact looseColl_view hw e2 ((areLoose_nil hts).trans rereads_nil.symm) ⟨rfl, rfl, rfl⟩
    · rw [h6 _ _ _ _ rfl]; exact ⟨rfl, rfl, rfl, rfl⟩
/-- … and every list of them. -/
theorem read_looses (vs : List GV) (ts : List (List Byte)) (ht : AreLoose (Num sd) vs ts) (hv : Wfs vs) (hz : ZFirsts vs) (d : Nat) (j : Option J) (hw : Walk ts j) (hd : size j < d)
    (f : Nat) (hf : size j < f) :
    ∃ gs, childLoop (fun j => parseGeojson sd d j false)
      (fun g => if g.flags.isFeature || g.flags.isFeatureCol then some ("'geometries' must only contain objects with " ++ onlyGeoms) else none) f j = .ok gs ∧
      views gs = some (rereads vs) := by
  obtain ⟨f, rfl⟩ : ∃ e, f = e + 1 := ⟨f - 1, by omega⟩
  match vs with
  | [] =>
    rw [AreLoose] at ht
    subst ht
    rw [Walk] at hw
    subst hw
    exact ⟨[], rfl, rfl⟩
  | v :: vs =>
    rw [AreLoose] at ht
    obtain ⟨t, ts', rfl, h1, h2⟩ := ht
    obtain ⟨⟨r, hh⟩, hw⟩ := hw
    obtain ⟨g, e1, e2, e4, -⟩ := read_loose v t h1 hv.1 hz.1 d j r hh hd false
    obtain ⟨i, rfl, hne⟩ := here_some hh
    have hsz := size_next hne
    obtain ⟨gs, f1, f2⟩ := read_looses vs ts' h2 hv.2 hz.2 d (next (some i)) hw (by omega) f (by omega)
    refine ⟨g :: gs, ?_, by simp only [views, rereads, e2, f2]⟩
    rw [childLoop, e1]
    simp only [P.bind, e4.1, e4.2.1, Bool.or_self, Bool.false_eq_true, if_false]
    rw [f1]
end

/-- `finish` of what has room for the extra members. -/
theorem finish_some {fl : Flags} {x : Option (List Byte)} {g : Geom} (h : x.isSome → Boxed g) : ∃ g', finish fl x g = .ok g' := by
  unfold finish setX
  cases x with
  | none => exact ⟨_, rfl⟩
  | some x => have := h rfl; cases g <;> simp only [Boxed] at this <;> exact ⟨_, rfl⟩

/-- `parse_geojson` reads every such Feature … -/
theorem read_looseFeature (f : Option GV) (t : List Byte) (ht : LooseFeature (Num sd) f t) (hf : ∀ v, f = some v → Wf v ∧ ZFirst v) (d : Nat) (j : Option J) (r : List Byte) (hj : Here j t r)
    (hd : size j < d) (req : Bool) : ∃ g, parseGeojson sd d j req = .ok g ∧ view g = some (shown f) ∧ g.flags.isFeature = true ∧ g.flags.isFeatureCol = false := by
  obtain ⟨d, rfl⟩ : ∃ e, d = e + 1 := ⟨d - 1, by omega⟩
  obtain ⟨ms, ty, c, ho, hty, hn, hl, hm, hc⟩ := ht
  have hdp := dispatch_first (sd := sd) tn_feature ho hty hn hj d req
  rw [if_neg (by decide), if_neg (by decide), if_neg (by decide), if_neg (by decide), if_neg (by decide), if_neg (by decide), if_neg (by decide), if_pos rfl] at hdp
  obtain ⟨hb1, hb2⟩ := takeBasic_feature_last ho hj hm hl
  cases f with
  | none =>
    obtain ⟨T, np, x, hb⟩ := hb2 hc
    rw [parseFeature, hb] at hdp
    simp only [P.bind] at hdp
    rw [if_pos trivial] at hdp
    simp only [addFlags, xjsonOf] at hdp
    rw [if_neg (by simp [Geom.flags, emptyFlags])] at hdp
    obtain ⟨g', hg⟩ := finish_some (fl := { nullProps := np, isEmpty := true, unlocated := true }) (x := x) (g := .gpoint (orFlags emptyFlags { isFeature := true }) ⟨0#64, 0#64⟩ 0#64 0#64 none) (fun _ => trivial)
    obtain ⟨k1, k2⟩ := finish_keeps hg
    rw [hg] at hdp
    exact ⟨g', hdp, by rw [k1]; rfl, by rw [k2]; exact ⟨rfl, rfl⟩⟩
  | some v =>
    dsimp only at hc
    obtain ⟨T, r', np, x, hb, hT⟩ := hb1 (loose_obj hc)
    have hsz := (takeBasic_target hb).2
    simp only at hsz
    obtain ⟨hw, hz⟩ := hf v rfl
    obtain ⟨g, e1, e2, e4, e5⟩ := read_loose v c hc hw hz d T r' hT (by omega) x.isSome
    rw [parseFeature, hb] at hdp
    simp only [P.bind] at hdp
    rw [if_neg (by simp), e1] at hdp
    simp only [e4.1, e4.2.1] at hdp
    rw [if_neg (by simp), xjson_addFlags] at hdp
    have hne : ∀ m, g ≠ .err m := by rintro m rfl; simp [view] at e2
    have key : ∀ y : Option (List Byte), (y.isSome → Boxed g) → parseGeojson sd (d + 1) j req = finish { nullProps := np } y (addFlags g { isFeature := true }) →
        ∃ g, parseGeojson sd (d + 1) j req = .ok g ∧ view g = some (shown (some v)) ∧ g.flags.isFeature = true ∧ g.flags.isFeatureCol = false := by
      intro y hy hp
      obtain ⟨g', hg⟩ := finish_some (fl := { nullProps := np }) (x := y) (g := addFlags g { isFeature := true }) (fun h => boxed_addFlags.2 (hy h))
      obtain ⟨k1, k2⟩ := finish_keeps hg
      rw [hg] at hp
      refine ⟨g', hp, by rw [k1, addFlags_twice, view_addFlags, e2]; rfl, ?_⟩
      rw [k2, addFlags_twice, flags_addFlags hne]
      simp [orFlags, e4.2.1]
    cases hx : xjsonOf g with
    | none =>
      rw [hx] at hdp
      exact key x e5 hdp
    | some y =>
      rw [hx] at hdp
      exact key _ (fun _ => boxed_of_xjson hx) hdp

theorem looseFeature_jval {f : Option GV} {t : List Byte} (h : LooseFeature (Num sd) f t) : JVal t := by
  obtain ⟨ms, ty, c, h1, -⟩ := h
  exact obj_jval h1

/-- … every list of them … -/
theorem read_looseFeatures (d : Nat) : ∀ (fs : List (Option GV)) (ts : List (List Byte)), List.Forall₂ (LooseFeature (Num sd)) fs ts → (∀ v, some v ∈ fs → Wf v ∧ ZFirst v) →
    ∀ j, Walk ts j → size j < d → ∀ f, size j < f →
    ∃ gs, childLoop (fun j => parseGeojson sd d j false)
      (fun g => if g.flags.isFeature then none else some "'features' must only contain objects with the 'type' of Feature") f j = .ok gs ∧ views gs = some (fs.map shown)
  | [], ts, ht, _, j, hw, hd, f, hf => by
    obtain ⟨f, rfl⟩ : ∃ e, f = e + 1 := ⟨f - 1, by omega⟩
    cases ht
    rw [Walk] at hw
    subst hw
    exact ⟨[], rfl, rfl⟩
  | v :: fs, ts, ht, hv, j, hw, hd, f, hf => by
    obtain ⟨f, rfl⟩ : ∃ e, f = e + 1 := ⟨f - 1, by omega⟩
    obtain ⟨t, ts, rfl, h1, h2⟩ : ∃ t ts', ts = t :: ts' ∧ LooseFeature (Num sd) v t ∧ List.Forall₂ (LooseFeature (Num sd)) fs ts' := by
      cases ht with
      | cons h1 h2 => exact ⟨_, _, rfl, h1, h2⟩
    obtain ⟨⟨r, hh⟩, hw⟩ := hw
    obtain ⟨g, e1, e2, hfe, -⟩ := read_looseFeature v t h1 (fun u hu => hv u (by simp [hu])) d j r hh hd false
    obtain ⟨i, rfl, hne⟩ := here_some hh
    have hsz := size_next hne
    obtain ⟨gs, f1, f2⟩ := read_looseFeatures d fs ts h2 (fun u hu => hv u (by simp [hu])) (next (some i)) hw (by omega) f (by omega)
    refine ⟨g :: gs, ?_, by simp only [views, List.map_cons, e2, f2]⟩
    rw [childLoop, e1]
    simp only [P.bind, hfe, if_true]
    rw [f1]

/-- … and every FeatureCollection. -/
theorem read_looseCollection (fs : List (Option GV)) (t : List Byte) (ht : LooseFeatures (Num sd) fs t) (hv : ∀ v, some v ∈ fs → Wf v ∧ ZFirst v) (d : Nat) (j : Option J) (r : List Byte)
    (hj : Here j t r) (hd : size j < d) (req : Bool) :
    ∃ g, parseGeojson sd d j req = .ok g ∧ view g = some (.coll (fs.map shown)) ∧ g.flags.isFeature = false ∧ g.flags.isFeatureCol = true := by
  obtain ⟨d, rfl⟩ : ∃ e, d = e + 1 := ⟨d - 1, by omega⟩
  obtain ⟨c, ts, hto, hc, hts⟩ := ht
  have hdp := loose_dispatch (sd := sd) tn_featurecollection hto hj d req
  rw [if_neg (by decide), if_neg (by decide), if_neg (by decide), if_neg (by decide), if_neg (by decide), if_neg (by decide), if_neg (by decide), if_neg (by decide), if_pos rfl] at hdp
  obtain ⟨ms, ty, ho, -, -, hm⟩ := hto
  obtain ⟨T, r', x, hb, hT⟩ := takeBasic_last (by decide) ascii_features (by decide) ho hj hm hc
  have hsz := (takeBasic_target hb).2
  simp only at hsz
  have hw := arr_walk hc (forall₂_jval (fun _ _ => looseFeature_jval) hts) hT
  have hsf := size_first T
  obtain ⟨hs, e1, e2⟩ := read_looseFeatures d fs ts hts hv (first T) hw (by omega) (size T + 1) (by omega)
  rw [parseFeatureColl, hb] at hdp
  simp only [P.bind] at hdp
  rw [e1] at hdp
  simp only at hdp
  obtain ⟨g', h1, -, -, -, h5, h6⟩ := finish_ok (fl := { isEmpty := (first T).isNone }) (x := x) (g := .coll { isFeatureCol := true } true hs [] none) (fun _ => trivial) rfl
  rw [h1] at hdp
  refine ⟨g', hdp, ?_, ?_⟩
  · rw [h6 _ _ _ _ rfl]; exact looseColl_view hw e2 (by cases hts <;> simp) ⟨rfl, rfl, rfl⟩
  · rw [h6 _ _ _ _ rfl]; exact ⟨rfl, rfl⟩

end Tg.Gp
