import Verif.Lemmas.WkbTop
/-!
Properties C01-C05: Well-Known Binary.
-/
namespace Tg
open Spec

/-! ### C01  WKB round trip -/

/-- C01. Write a geometry with `tg_geom_wkb` into a buffer that is large enough and parse the bytes
with `tg_parse_wkb`: the result is the same geometry (type, Z/M, every coordinate bit for bit).
`Valid` are the rules the parser enforces (positions per line and ring, closed rings,
no empty members of multi geometries), `height` the nesting. -/
theorem C01_wkb_roundtrip (g : Geom) (v : GV) (hg : view g = some v) (hv : Valid v) (hh : height v ≤ 1024)
    (dst : List Byte) (n : Nat) (hn : n ≤ dst.length) (hbig : (tgGeomWkb g dst n).count ≤ n) :
    ∃ g', tgParseWkb ((tgGeomWkb g dst n).dst.take (tgGeomWkb g dst n).count) = .geom g' ∧ view g' = some v := by
  obtain ⟨_, h2, h3⟩ := tgGeomWkb_eq hg (valid_fits v hv) dst n hn
  rw [h2] at hbig
  refine ⟨build v, ?_, view_build v hv⟩
  rw [h2, h3, List.take_append_of_le_length (by simp; omega), List.take_take, Nat.min_eq_left hbig,
    List.take_length]
  have := tgParseWkb_enc (enc_encode v hv) hv hh []
  simpa using this

/-- A collection with a polygon with a hole (with Z), a measured multipoint and an empty line. -/
def wkbSample : Geom :=
  .coll {} true
    [ .gpoly { hasZ := true }
        (some ⟨[⟨0, 0⟩, ⟨9, 0⟩, ⟨9, 9⟩, ⟨0, 0⟩], [[⟨1, 1⟩, ⟨2, 1⟩, ⟨2, 2⟩, ⟨1, 1⟩]]⟩)
        [1, 2, 3, 4, 5, 6, 7, 8] none,
      .mpoint { hasM := true } (some [⟨1, 2⟩, ⟨3, 4⟩]) [7, 8] none,
      .gline { isEmpty := true } none [] none,
      .coll {} true [.line {} [⟨1, 2⟩, ⟨3, 4⟩]] [] none ] [] none

set_option maxRecDepth 100000 in
/-- The hypotheses of `C01_wkb_roundtrip` hold of `wkbSample`. -/
example : ∃ v, view wkbSample = some v ∧ Valid v ∧ height v ≤ 1024 ∧
    (tgGeomWkb wkbSample (List.replicate 400 0) 400).count ≤ 400 := by
  refine ⟨_, rfl, ?_, ?_, by decide⟩
  · simp [posnss, posns, takePad, rings, Valid, Valids, polyOk, ringOk, posOk, dims, pointOk, lineOk, F64.isNaN, F64.feq]
  · simp [height, heights, posns]

/-- Without the validity rules the round trip fails: a point whose coordinates are all NaN
is what WKB uses for POINT EMPTY. -/
theorem C01_nan_point_not_roundtrip :
    let g : Geom := .point {} ⟨F64.nan, F64.nan⟩
    let w := tgGeomWkb g (List.replicate 21 0) 21
    ∃ g', tgParseWkb (w.dst.take w.count) = .geom g' ∧ view g' ≠ view g := by
  refine ⟨_, rfl, ?_⟩
  simp [view, emptyFlags]

/-! ### C02  The binary writer and its buffer (WKB half) -/

/-- C02, WKB. Whatever the buffer size: the returned length is the length of the complete encoding (that
of the specification), the buffer holds as much of it as fits, the rest of the buffer is unchanged,
and nothing is stored outside the object. -/
theorem C02_wkb_writer (g : Geom) (v : GV) (hg : view g = some v) (hf : Fits v)
    (dst : List Byte) (n : Nat) (hn : n ≤ dst.length) :
    (tgGeomWkb g dst n).ub = false ∧ (tgGeomWkb g dst n).count = (encode v).length ∧
    (tgGeomWkb g dst n).dst = (encode v).take n ++ dst.drop (min n (encode v).length) :=
  tgGeomWkb_eq hg hf dst n hn

set_option maxRecDepth 100000 in
/-- The hypotheses of `C02_wkb_writer` hold, with a buffer that is cut inside the third number. -/
example : ∃ v, view wkbSample = some v ∧ Fits v ∧ 40 ≤ (List.replicate 50 (0xAA : Byte)).length ∧
    40 < (encode v).length := by
  refine ⟨_, rfl, ?_, by decide, by decide⟩
  simp [Fits, Fitss, posnss, posns, takePad, rings, dims]

/-- The specification of the encoding is what OGC says, for geometries without empty Z/M points. -/
theorem C02_wkb_is_wkb (v : GV) (hv : Valid v) : Enc v (encode v) := enc_encode v hv

/-! ### C03  WKB parser: memory safety -/

/-- C03 (partial). On arbitrary bytes (of a length below 4 GiB) `tg_parse_wkb` reads only inside its input, and ends with
a geometry or an error: except when the input has a little-endian 2D line or polygon header followed by
a 32-bit word of 2^28 or more.

The full statement, `∀ data, tgParseWkb data ≠ .ub`, is false: see
`C03_wkb_overread`. What is missing is exactly the inputs with a position count of 2^28 or more, where the 32-bit
product `count*2*8` of tg.c:13336 wraps round. -/
theorem C03_wkb_parser_safe_partial (data : List Byte) (hl : data.length < 2^32) (h : ¬ HugeCount data) :
    tgParseWkb data ≠ .ub := by
  unfold tgParseWkb
  have := parseWkb_safe data hl (MAXDEPTH + 1) (i := 0) (Nat.zero_le _)
  cases hr : parseWkb (MAXDEPTH + 1) data 0 with
  | ub => rw [hr] at this; exact absurd this h
  | fail j e => simp
  | ok j g => simp

/-- No short input is affected: `HugeCount` needs a word whose value is at least 2^28. For instance an
input all of whose bytes are below 16 is always safe. -/
theorem C03_small_bytes_safe (data : List Byte) (hl : data.length < 2^32) (h : ∀ b ∈ data, b < 16#8) :
    tgParseWkb data ≠ .ub := by
  refine C03_wkb_parser_safe_partial data hl ?_
  rintro ⟨j, tw, k, n, -, -, -, ⟨rest, hk⟩, hn⟩
  have hm : n.extractLsb' 24 8 ∈ data := by
    refine List.mem_of_mem_drop (i := k) ?_
    rw [hk]; simp [u32]
  have h1 := h _ hm
  have h2 : (n.extractLsb' 24 8).toNat = n.toNat / 2^24 % 2^8 := by
    simp [BitVec.extractLsb'_toNat, Nat.shiftRight_eq_div_pow]
  rw [BitVec.lt_def, h2] at h1
  have := n.isLt
  simp at h1
  omega

/-- The hypotheses of the two theorems hold of a line string cut short. -/
example : let data : List Byte := [1, 2, 0, 0, 0, 2, 0, 0, 0, 7, 7]
    data.length < 2^32 ∧ (∀ b ∈ data, b < 16#8) := by decide

/-- The full property fails: nine bytes make the parser read far outside its input. A LineString header and
the count 0x10000000. -/
theorem C03_wkb_overread : tgParseWkb [1, 2, 0, 0, 0, 0, 0, 0, 0x10] = .ub := by rfl

/-! ### C04  Byte order independence -/

/-- C04. Two encodings of the same geometry, that may differ in the byte order (and SRID) of every single object, parse to
the same result. -/
theorem C04_wkb_byte_order (v : GV) (hv : Valid v) (b1 b2 : List Byte) (h1 : Enc v b1) (h2 : Enc v b2)
    (hh : height v ≤ 1024) : tgParseWkb b1 = tgParseWkb b2 ∧ ∃ g, tgParseWkb b1 = .geom g ∧ view g = some v := by
  have e1 := tgParseWkb_enc h1 hv hh []
  have e2 := tgParseWkb_enc h2 hv hh []
  rw [List.append_nil] at e1 e2
  rw [e1, e2]
  exact ⟨rfl, _, rfl, view_build v hv⟩

/-- A collection that is big endian, around a point that is little endian and one that is big endian
with an SRID; and the same all little endian. -/
example : ∃ v b1 b2, Valid v ∧ Enc v b1 ∧ Enc v b2 ∧ b1 ≠ b2 ∧ height v ≤ 1024 := by
  refine ⟨.coll [.point false false (some [1, 2]), .point true false (some [1, 2, 3])], _, _, ?_,
    .coll true none false false _ _ (.cons _ _ _ _ (.point false none _ _ _) (.cons _ _ _ _ (.point true (some 7) _ _ _) .nil)),
    .coll false none false false _ _ (.cons _ _ _ _ (.point false none _ _ _) (.cons _ _ _ _ (.point false none _ _ _) .nil)),
    by decide, ?_⟩
  · simp [Valid, Valids, pointOk, posOk, dims, F64.isNaN]
  · simp [height, heights]

/-! ### C05  Nesting limit (WKB half) -/

/-- C05, WKB. Whatever the bytes, the geometry that comes back is at most 1024 collections deep. -/
theorem C05_wkb_nesting (data : List Byte) (g : Geom) (h : tgParseWkb data = .geom g) : nest g ≤ 1024 := by
  unfold tgParseWkb at h
  split at h
  · cases h
  · cases h
  · rename_i hr
    cases h
    have := parseWkb_nest data _ _ _ _ hr
    unfold MAXDEPTH at this
    omega

/-- C05, WKB. An encoding that is nested deeper than 1024 levels is rejected with an error. -/
theorem C05_wkb_too_deep (v : GV) (hv : Valid v) (bs : List Byte) (he : Enc v bs) (hh : 1024 < height v) :
    ∃ e, tgParseWkb bs = .error e := by
  simpa using tgParseWkb_deep he hv hh []

/-- `k` collections around a point. -/
def nestedColl : Nat → GV
  | 0 => .point false false (some [1, 2])
  | k + 1 => .coll [nestedColl k]

/-- Both sides of the limit are met: valid geometries of every height. -/
theorem C05_wkb_nonvacuous (k : Nat) : Valid (nestedColl k) ∧ height (nestedColl k) = k ∧ Enc (nestedColl k) (encode (nestedColl k)) := by
  have hv : Valid (nestedColl k) := by
    induction k with
    | zero => simp [nestedColl, Valid, pointOk, posOk, dims, F64.isNaN]
    | succ k ih => simp [nestedColl, Valid, Valids, ih]
  refine ⟨hv, ?_, enc_encode _ hv⟩
  clear hv
  induction k with
  | zero => simp [nestedColl, height]
  | succ k ih => simp [nestedColl, height, heights, ih]

end Tg
