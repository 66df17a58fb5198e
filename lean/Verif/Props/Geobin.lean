import Verif.Lemmas.GeobinTop
import Verif.Props.Wkb
/-!
Properties C02, C05 (GeoBIN halves), C08-C11. `P : Platform` is arbitrary throughout: the results do not depend on how
`fmin0`/`fmax0` treat NaN and signed zeros, nor on how rings compute their rectangle.
-/
namespace Tg
open Spec Spec.Json

/-! ### C02  The binary writer and its buffer (GeoBIN half) -/

/-- C02, GeoBIN. There is one byte string (a GeoBIN encoding of the object, if that can be stored at all) such that whatever
the buffer size: the returned length is its length, the buffer holds as much of it as fits, the rest of
the buffer is unchanged and nothing is stored outside. -/
theorem C02_geobin_writer (P : Platform) (g : Geom) (f : FV) (hg : fview g = some f) (hf : FFits f) :
    ∃ bs, (FValid f → GBin f bs) ∧ ∀ (dst : List Byte) (n : Nat), n ≤ dst.length →
      (tgGeomGeobin P g dst n).ub = false ∧ (tgGeomGeobin P g dst n).count = bs.length ∧
      (tgGeomGeobin P g dst n).dst = bs.take n ++ dst.drop (min n bs.length) := by
  obtain ⟨bs, h1, h2, -⟩ := writeGeobin_writes P g f hg
  refine ⟨bs, h2, fun dst n hn => ?_⟩
  have hok : Wr.Ok ⟨dst, n, 0, false⟩ := hn
  unfold tgGeomGeobin
  rw [h1 hf _ hok]
  refine ⟨Wr.bytes_ub hok _, by rw [Wr.bytes_count]; simp, ?_⟩
  rw [Wr.bytes_dst hok]
  simp

/-- A FeatureCollection with extra JSON, of a Feature that is a polygon with JSON, a nested FeatureCollection with a
measured point, and a plain line. -/
def geobinSample : Geom :=
  .coll { isFeatureCol := true } true
    [ .gpoly { isFeature := true } (some ⟨[⟨0, 0⟩, ⟨9, 0⟩, ⟨9, 9⟩, ⟨0, 0⟩], []⟩) [] (some [0x31]),
      .coll { isFeatureCol := true } true [.gpoint { hasM := true } ⟨1, 2⟩ 0 3 none] [] none,
      .line {} [⟨1, 2⟩, ⟨3, 4⟩] ] [] (some [0x7B, 0x7D])

/-- What is seen of `geobinSample`. -/
def geobinSampleView : FV :=
  .fcol [ .feat (.poly false false [[[0, 0], [9, 0], [9, 9], [0, 0]]]) (some [0x31]),
      .fcol [.plain (.point false true (some [1, 2, 3])) none] none,
      .plain (.line false false [[1, 2], [3, 4]]) none ] (some [0x7B, 0x7D])

theorem text_one : Text TgStr [0x31] :=
  ⟨[], [0x31], [], by simp [Ws], .num _ _ ⟨[], [0x31], [], [], rfl, .inl rfl,
    .inr ⟨0x31, [], rfl, by simp [Digit], by decide, by simp⟩, .inl rfl, .inl rfl⟩, by simp [Ws], rfl⟩

theorem text_empty_obj : Text TgStr [0x7B, 0x7D] :=
  ⟨[], [0x7B, 0x7D], [], by simp [Ws], .obj0 _ [] (by simp [Ws]), by simp [Ws], rfl⟩

theorem geobinSample_ok : fview geobinSample = some geobinSampleView ∧ FValid geobinSampleView ∧
    fheight geobinSampleView = 2 := by
  refine ⟨rfl, ?_, ?_⟩
  · simp only [geobinSampleView, FValid, FValids, XOk]
    refine ⟨by simp, ?_, ⟨?_, ?_⟩, ⟨by simp, by simp, ⟨?_, by simp⟩, trivial⟩, ⟨?_, by simp⟩, trivial⟩
    · intro b hb; cases hb; exact text_empty_obj
    · simp [Valid, polyOk, ringOk, posOk, dims, F64.feq, F64.isNaN]
    · intro b hb; cases hb; exact text_one
    · simp [Valid, pointOk, posOk, dims, F64.isNaN]
    · simp [Valid, lineOk, posOk, dims]
  · simp [geobinSampleView, fheight, fheights, height]

/-- The hypotheses of `C02_geobin_writer` hold of `geobinSample`. -/
example : ∃ f, fview geobinSample = some f ∧ FFits f :=
  ⟨_, geobinSample_ok.1, fvalid_fits _ geobinSample_ok.2.1⟩

/-! ### C08  GeoBIN round trip -/

/-- C08 (partial). Write an object with `tg_geom_geobin` into a buffer that is large enough and parse the bytes: what comes back is seen
as the same object: the same geometry bit for bit, the same Feature and FeatureCollection marks and the same
extra JSON, for the object itself and for the features of FeatureCollections of any nesting.

Not covered, because it is false (`C08_member_json_lost`): extra JSON and Feature marks on members of a plain
GeometryCollection. -/
theorem C08_geobin_roundtrip_partial (P : Platform) (g : Geom) (f : FV) (hg : fview g = some f) (hv : FValid f)
    (hh : fheight f ≤ 1024) (dst : List Byte) (n : Nat) (hn : n ≤ dst.length)
    (hbig : (tgGeomGeobin P g dst n).count ≤ n) :
    ∃ g', tgParseGeobin ((tgGeomGeobin P g dst n).dst.take (tgGeomGeobin P g dst n).count) = .geom g' ∧
      fview g' = some f := by
  obtain ⟨bs, h1, h2⟩ := C02_geobin_writer P g f hg (fvalid_fits f hv)
  obtain ⟨_, h3, h4⟩ := h2 dst n hn
  rw [h3] at hbig
  refine ⟨fbuild f, ?_, fview_fbuild f hv⟩
  rw [h3, h4, List.take_append_of_le_length (by simp; omega), List.take_take, Nat.min_eq_left hbig,
    List.take_length]
  have := tgParseGeobin_gbin (h1 hv) hv hh []
  simpa using this

/-- `tg_parse_geobin` inverts every GeoBIN encoding, not only those that `tg_geom_geobin` writes: any byte order and SRID of the
WKB objects inside, with or without MBR. -/
theorem C08_geobin_parse (f : FV) (bs : List Byte) (hb : GBin f bs) (hv : FValid f) (hh : fheight f ≤ 1024) :
    ∃ g, tgParseGeobin bs = .geom g ∧ fview g = some f := by
  have := tgParseGeobin_gbin hb hv hh []
  rw [List.append_nil] at this
  exact ⟨_, this, fview_fbuild f hv⟩

/-- Some platform, for the examples. -/
def somePlatform : Platform := ⟨fun a _ => a, fun a _ => a, fun l => (l.headD ⟨0, 0⟩).rect⟩

set_option maxRecDepth 100000 in
/-- The hypotheses of `C08_geobin_roundtrip_partial` hold of `geobinSample`. -/
example : ∃ f, fview geobinSample = some f ∧ FValid f ∧ fheight f ≤ 1024 ∧
    (tgGeomGeobin somePlatform geobinSample (List.replicate 500 0) 500).count ≤ 500 :=
  ⟨_, geobinSample_ok.1, geobinSample_ok.2.1, by rw [geobinSample_ok.2.2]; decide, by decide⟩

set_option maxRecDepth 100000 in
/-- Members of a GeometryCollection lose their extra JSON. -/
theorem C08_member_json_lost :
    let member : Geom := .gpoint {} ⟨1, 2⟩ 0 0 (some [0x7B, 0x7D])
    let w := tgGeomGeobin somePlatform (.coll {} true [member] [] none) (List.replicate 100 0) 100
    ∃ fl member', tgParseGeobin (w.dst.take w.count) = .geom (.coll fl true [member'] [] none) ∧
      extraJson member = some [0x7B, 0x7D] ∧ extraJson member' = none := by
  exact ⟨_, _, rfl, rfl, rfl⟩

/-! ### C09  Header queries agree with the geometry -/

/-- C09 (partial). The header queries on the bytes `tg_geom_geobin` has written give the rectangle of the geometry: `tg_geobin_rect` is
`tg_geom_rect`, `tg_geobin_fullrect` is `tg_geom_fullrect` (dimension, and the first `dims` elements of `min` and `max`; the others
are left as they were). Excluded: a POINT EMPTY without JSON that is no Feature (`C09_empty_point`). -/
theorem C09_geobin_header_partial (P : Platform) (g : Geom) (f : FV) (hg : fview g = some f) (hf : FFits f)
    (hne : f ≠ .plain (.point false false none) none)
    (dst : List Byte) (n : Nat) (hn : n ≤ dst.length) (hbig : (tgGeomGeobin P g dst n).count ≤ n) (old : List F64 × List F64) :
    let out := (tgGeomGeobin P g dst n).dst.take (tgGeomGeobin P g dst n).count
    let F := fullrect P g
    tgGeobinRect out = some (geomRect P g) ∧
    tgGeobinFullrect out old =
      some (F.dims, F.min.list.take F.dims ++ old.1.drop F.dims, F.max.list.take F.dims ++ old.2.drop F.dims) := by
  obtain ⟨bs, h1, -, h3⟩ := writeGeobin_writes P g f hg
  have hok : Wr.Ok ⟨dst, n, 0, false⟩ := hn
  have hc : (tgGeomGeobin P g dst n).count = bs.length := by
    unfold tgGeomGeobin; rw [h1 hf _ hok, Wr.bytes_count]; simp
  have hd : (tgGeomGeobin P g dst n).dst = bs.take n ++ dst.drop (min n bs.length) := by
    unfold tgGeomGeobin; rw [h1 hf _ hok, Wr.bytes_dst hok]; simp
  rw [hc] at hbig
  have hout : (tgGeomGeobin P g dst n).dst.take (tgGeomGeobin P g dst n).count = bs := by
    rw [hc, hd, List.take_append_of_le_length (by simp; omega), List.take_take, Nat.min_eq_left hbig,
      List.take_length]
  dsimp only
  rw [hout]
  rcases h3 with ⟨v, ht, hv, rfl, rfl⟩ | h3
  · obtain ⟨z, m, p, rfl⟩ := view_point_type ht hv
    cases p with
    | none =>
      exfalso
      apply hne
      cases g <;> simp [Geom.type] at ht
      · simp only [view] at hv; split at hv <;> cases hv
      · simp only [view] at hv; split at hv
        · split at hv
          · cases hv
          · cases hv; rfl
        · cases hv
      · simp [view] at hv
    | some p =>
      obtain ⟨e1, e2, e3, e4, e5⟩ := fullrect_point (P := P) ht hv
      obtain ⟨q1, q2, -⟩ := point_header e1 old (fun r => r.min)
      rw [q1, q2, e5, e2, e3, e4, e1]
      exact ⟨rfl, rfl⟩
  · exact ⟨(rect_header (fullrect_dims P g) (fullrect_ext P g) h3 (fun r => r.min)).1,
      fullrect_header (fullrect_dims P g) h3 old⟩

set_option maxRecDepth 100000 in
/-- The hypotheses of `C09_geobin_header_partial` hold of `geobinSample`. -/
example : ∃ f, fview geobinSample = some f ∧ FFits f ∧ f ≠ .plain (.point false false none) none ∧
    (tgGeomGeobin somePlatform geobinSample (List.replicate 500 0) 500).count ≤ 500 :=
  ⟨_, geobinSample_ok.1, fvalid_fits _ geobinSample_ok.2.1, by simp [geobinSampleView], by decide⟩

/-- An empty point is written as a point of NaNs, so the header query differs from `tg_geom_rect`. -/
theorem C09_empty_point :
    let g : Geom := .gpoint { isEmpty := true } ⟨0, 0⟩ 0 0 none
    let w := tgGeomGeobin somePlatform g (List.replicate 21 0) 21
    tgGeobinRect (w.dst.take w.count) = some ⟨⟨F64.nan, F64.nan⟩, ⟨F64.nan, F64.nan⟩⟩ ∧ geomRect somePlatform g = .zero := by
  exact ⟨rfl, rfl⟩

/-! ### C10  Header queries stay inside their buffers -/

theorem copyDoubles_some (data : List Byte) (i k : Nat) (old : List F64) (hk : k ≤ 4) (h : i + 8 * k ≤ data.length) :
    ∃ l, copyDoubles data i k old = some l := by
  obtain ⟨p, hp⟩ := readDoubles_some (data := data) false k h
  exact ⟨_, by unfold copyDoubles; rw [if_neg (by omega), hp]; rfl⟩

/-- C10 (partial). `tg_geobin_fullrect` reads only its input and stores only into the four elements of `min` and `max`, provided the
dimension byte (the second byte, of data that does not start with 1) is at most 4.

The full statement, for all bytes, is false: see `C10_fullrect_overflow`. -/
theorem C10_geobin_fullrect_safe_partial (data : List Byte) (old : List F64 × List F64)
    (hd : ∀ h d rest, data = h :: d :: rest → h ≠ 1#8 → d.toNat ≤ 4) : tgGeobinFullrect data old ≠ none := by
  unfold tgGeobinFullrect
  split
  · rename_i h d c t
    generalize hdata : h :: d :: c :: t = data at *
    split
    · split
      · rename_i hl
        obtain ⟨x, hx⟩ := rdU32_some (data := data) (i := 1) false (by omega)
        rw [hx]
        dsimp only
        split
        · rename_i h2
          have hp : pointDims x ≤ 4 := by
            unfold pointDims; (repeat' split) <;> omega
          obtain ⟨l, hl⟩ := copyDoubles_some data 5 (pointDims x) old.1 hp (by omega)
          obtain ⟨l', hl'⟩ := copyDoubles_some data 5 (pointDims x) old.2 hp (by omega)
          rw [hl, hl']; simp
        · simp
      · split
        · rename_i h2
          have h4 := hd h d (c :: t) hdata.symm h2.1
          obtain ⟨l, hl⟩ := copyDoubles_some data 2 d.toNat old.1 h4 (by omega)
          obtain ⟨l', hl'⟩ := copyDoubles_some data (2 + 8 * d.toNat) d.toNat old.2 h4 (by omega)
          dsimp only
          rw [hl, hl']; simp
        · simp
    · simp
  · simp

/-- The hypothesis holds for instance of everything `tg_geom_geobin` writes, and of data cut short. -/
example : let data : List Byte := [2, 3, 1, 2, 3, 4]
    (∀ h d rest, data = h :: d :: rest → h ≠ 1#8 → d.toNat ≤ 4) := by
  intro data h d rest he _
  simp [data] at he
  rw [← he.2.1]; decide

/-- The full property fails: with a dimension byte of 5 and 80 more bytes, five doubles are stored into an array of four. -/
theorem C10_fullrect_overflow (old : List F64 × List F64) :
    tgGeobinFullrect (2 :: 5 :: List.replicate 80 0) old = none := by rfl

/-- C10 for the other two queries, on all bytes: `tg_geobin_rect` and `tg_geobin_point` read only their input. -/
theorem C10_geobin_rect_safe (data : List Byte) (center : Rect → Pt) :
    tgGeobinRect data ≠ none ∧ tgGeobinPoint center data ≠ none := by
  unfold tgGeobinRect tgGeobinPoint
  split
  · rename_i h d c t
    generalize hdata : h :: d :: c :: t = data at *
    dsimp only
    split
    · split
      · rename_i hl
        obtain ⟨x, hx⟩ := rdU32_some (data := data) (i := 1) false (by omega)
        obtain ⟨a, ha⟩ := rdF64_some (data := data) (i := 5) false (by omega)
        obtain ⟨b, hb⟩ := rdF64_some (data := data) (i := 13) false (by omega)
        rw [hx]
        dsimp only
        split
        · rw [ha, hb]; simp
        · simp
      · split
        · split
          · obtain ⟨a, ha⟩ := rdF64_some (data := data) (i := 2) false (by omega)
            obtain ⟨b, hb⟩ := rdF64_some (data := data) (i := 10) false (by omega)
            obtain ⟨e, he⟩ := rdF64_some (data := data) (i := 2 + 8 * d.toNat) false (by omega)
            obtain ⟨f, hf⟩ := rdF64_some (data := data) (i := 2 + 8 * d.toNat + 8) false (by omega)
            rw [ha, hb, he, hf]; simp
          · simp
        · simp
    · simp
  · simp

/-! ### C11  Arbitrary bytes -/

/-- C11 (partial), memory safety. On arbitrary bytes (below 4 GiB) `tg_parse_geobin` reads only inside its input, except when the input
has a little-endian 2D line or polygon header followed by a 32-bit word of 2^28 or more (the error of the WKB
parser, C03). -/
theorem C11_geobin_safe_partial (data : List Byte) (hl : data.length < 2^32) (h : ¬ HugeCount data) :
    tgParseGeobin data ≠ .ub := by
  unfold tgParseGeobin
  have := parseGeobin_safe data hl (MAXDEPTH + 1) (i := 0) (Nat.zero_le _)
  cases hr : parseGeobin (MAXDEPTH + 1) data 0 with
  | ub => rw [hr] at this; exact absurd this h
  | fail j e => simp
  | ok j g => simp

/-- C11 (partial), no error values inside. When the data does not start with a FeatureCollection, a geometry that comes back contains
no error value.

For FeatureCollections this is false: see `C11_error_as_feature`. -/
theorem C11_geobin_no_error_partial (data : List Byte) (g : Geom) (h : tgParseGeobin data = .geom g)
    (h4 : data.head? ≠ some 4#8) : noErr g := by
  unfold tgParseGeobin at h
  split at h
  · cases h
  · cases h
  · rename_i hr
    cases h
    exact parseGeobin_noErr hr (by simpa using h4)

/-- The hypotheses of both hold: a Feature with a collection of a point. -/
example : let data : List Byte := [3, 0, 0, 1, 7, 0, 0, 0, 1, 0, 0, 0, 1, 1, 0, 0, 0, 0, 0, 0, 0, 0, 0, 0, 0, 0, 0, 0, 0, 0, 0, 0, 0]
    (∀ b ∈ data, b < 16#8) ∧ (∃ g, tgParseGeobin data = .geom g) ∧ data.head? ≠ some 4#8 :=
  ⟨by decide, ⟨_, rfl⟩, by decide⟩

/-- A FeatureCollection of one MultiPoint that is cut short parses successfully, and the feature is an error value. -/
theorem C11_error_as_feature :
    tgParseGeobin [4, 0, 0, 1, 0, 0, 0, 2, 0, 0, 1, 4, 0, 0, 0] =
      .geom (.coll { isFeatureCol := true } true [.err "invalid binary"] [] none) := by rfl

/-- The read outside the input is reached through GeoBIN too. -/
theorem C11_geobin_overread : tgParseGeobin [2, 0, 0, 1, 2, 0, 0, 0, 0, 0, 0, 0x10] = .ub := by rfl

/-! ### C05  Nesting limit (GeoBIN half) -/

/-- C05, GeoBIN. Whatever the bytes, what comes back is at most 1024 collections deep. -/
theorem C05_geobin_nesting (data : List Byte) (g : Geom) (h : tgParseGeobin data = .geom g) : nest g ≤ 1024 := by
  unfold tgParseGeobin at h
  split at h
  · cases h
  · cases h
  · rename_i hr
    cases h
    have := parseGeobin_nest data _ _ _ _ hr
    unfold MAXDEPTH at this
    omega

/-- C05, GeoBIN. An encoding that is nested deeper than 1024 levels, whether by FeatureCollections or by collections inside them, is
rejected with an error. -/
theorem C05_geobin_too_deep (f : FV) (hv : FValid f) (bs : List Byte) (he : GBin f bs) (hh : 1024 < fheight f) :
    ∃ e, tgParseGeobin bs = .error e := by
  simpa using tgParseGeobin_deep he hv hh []

/-- `k` FeatureCollections around `j` collections around a point. -/
def nestedFc (j : Nat) : Nat → FV
  | 0 => .plain (nestedColl j) none
  | k + 1 => .fcol [nestedFc j k] none

/-- Both sides of the limit are met, with any mix of FeatureCollections and GeometryCollections. -/
theorem C05_geobin_nonvacuous (j k : Nat) : FValid (nestedFc j k) ∧ fheight (nestedFc j k) = j + k ∧
    ∃ bs, GBin (nestedFc j k) bs := by
  have mbr0 : Mbr [0#8] := ⟨[], [], rfl, by simp, rfl⟩
  induction k with
  | zero =>
    obtain ⟨h1, h2, h3⟩ := C05_wkb_nonvacuous j
    exact ⟨by simp [nestedFc, FValid, XOk, h1], by simp [nestedFc, fheight, h2], _, .geom _ _ _ _ mbr0 h3⟩
  | succ k ih =>
    obtain ⟨h1, h2, bs, h3⟩ := ih
    refine ⟨by simp [nestedFc, FValid, FValids, XOk, h1], by simp [nestedFc, fheight, fheights, h2]; omega, _, .fcol _ _ _ _ mbr0 (.cons _ _ _ _ h3 .nil)⟩

end Tg
