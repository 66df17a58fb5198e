import Verif.Model.WkbParse
import Verif.Spec.Wkb
import Verif.Lemmas.Bytes
import Verif.Lemmas.WkbWrite
/-!
`parseWkb` inverts every encoding of a valid geometry.
-/
namespace Tg
open Spec

theorem drop_adv {data : List Byte} {i : Nat} {a rest : List Byte} (h : data.drop i = a ++ rest) :
    data.drop (i + a.length) = rest := by
  rw [← List.drop_drop, h]; simp

theorem drop_len {data : List Byte} {i : Nat} {a rest : List Byte} (h : data.drop i = a ++ rest)
    (ha : 0 < a.length) : i + a.length ≤ data.length ∧
      data.length = i + a.length + rest.length := by
  have := congrArg List.length h
  simp at this
  omega

theorem rdU32_at {data : List Byte} {i : Nat} {be x rest}
    (h : data.drop i = Spec.u32 be x ++ rest) : rdU32 data i be = some x := by
  unfold rdU32
  rw [h]
  cases be
  · rw [← le32_eq]
    exact congrArg some (rd32_le32 x)
  · have : Spec.u32 true x = (le32 x).reverse := by rw [le32_eq]; rfl
    rw [this]
    show some (rd32 true _ _ _ _) = _
    rw [rd32_swap]
    exact congrArg some (rd32_le32 x)

theorem rdF64_at {data : List Byte} {i : Nat} {be x rest}
    (h : data.drop i = Spec.f64 be x ++ rest) : rdF64 data i be = some x := by
  unfold rdF64
  rw [h]
  cases be
  · rw [← le64_eq]
    exact congrArg some (rd64_le64 x)
  · have : Spec.f64 true x = (le64 x).reverse := by rw [le64_eq]; rfl
    rw [this]
    show some (rd64 true _ _ _ _ _ _ _ _) = _
    rw [rd64_swap]
    exact congrArg some (rd64_le64 x)

theorem readU32_at {α} {data : List Byte} {i : Nat} {be x rest} {inv : R α} {k}
    (h : data.drop i = Spec.u32 be x ++ rest) : readU32 data i be inv k = k x (i + 4) := by
  have := drop_len h (by rw [u32_length]; omega)
  rw [u32_length] at this
  unfold readU32
  rw [if_neg (by omega), rdU32_at h]

theorem readDoubles_at {data : List Byte} {i : Nat} {be} {p : List F64} {rest}
    (h : data.drop i = Spec.posn be p ++ rest) : readDoubles data be p.length i = some p := by
  induction p generalizing i with
  | nil => rfl
  | cons x p ih =>
    simp only [Spec.posn, List.flatMap_cons, List.append_assoc] at h
    simp only [List.length_cons, readDoubles]
    rw [rdF64_at h]
    have h2 := drop_adv h
    rw [f64_length] at h2
    simp only []
    rw [ih h2]
    rfl

theorem posns_bytes_len {be} {d : Nat} {ps : List (List F64)} (hp : ∀ p ∈ ps, p.length = d) :
    (ps.flatMap (Spec.posn be)).length = ps.length * (8 * d) := by
  induction ps with
  | nil => simp
  | cons p ps ih =>
    rw [List.flatMap_cons, List.length_append, ih (fun q hq => hp q (by simp [hq])), posn_length,
      hp p (by simp), List.length_cons, Nat.add_mul]
    omega

theorem posnLoop_at {data : List Byte} {be} {d : Nat} (hd : 0 < d) {ps : List (List F64)} {i : Nat} {rest}
    (hp : ∀ p ∈ ps, p.length = d)
    (h : data.drop i = ps.flatMap (Spec.posn be) ++ rest) :
    posnLoop data be d ps.length i = .ok (i + ps.length * (8 * d)) ps := by
  induction ps generalizing i with
  | nil => simp [posnLoop]
  | cons p ps ih =>
    rw [List.flatMap_cons, List.append_assoc] at h
    have hl : p.length = d := hp p (by simp)
    have hb : (Spec.posn be p).length = 8 * d := by rw [posn_length, hl]
    have h1 := drop_len h (by omega)
    have h2 := drop_adv h
    rw [hb] at h1 h2
    simp only [List.length_cons, posnLoop]
    rw [if_neg (by omega)]
    have h3 := readDoubles_at h
    rw [hl] at h3
    rw [h3, ih (fun q hq => hp q (by simp [hq])) h2]
    simp only [Nat.add_mul]
    congr 1
    omega

theorem rawPoints_at {data : List Byte} {ps : List (List F64)} {i : Nat} {rest}
    (hp : ∀ p ∈ ps, p.length = 2)
    (h : data.drop i = ps.flatMap (Spec.posn false) ++ rest) :
    rawPoints data ps.length i = some ps := by
  induction ps generalizing i with
  | nil => simp [rawPoints]
  | cons p ps ih =>
    rw [List.flatMap_cons, List.append_assoc] at h
    have hl : p.length = 2 := hp p (by simp)
    have h2 := drop_adv h
    rw [posn_length, hl] at h2
    have h3 := readDoubles_at h
    rw [hl] at h3
    simp only [List.length_cons, rawPoints]
    rw [h3]
    simp only []
    rw [ih (fun q hq => hp q (by simp [hq])) h2]
    rfl

theorem series_length {be} {d : Nat} {ps : List (List F64)} (hp : ∀ p ∈ ps, p.length = d) :
    (Spec.series be ps).length = 4 + ps.length * (8 * d) := by
  unfold Spec.series
  rw [List.length_append, u32_length, posns_bytes_len hp]

/-- Positions are read back, provided the check on their number and closure passes. -/
theorem parsePosns_at {data : List Byte} {ring be} {d : Nat} (hd : 2 ≤ d)
    {ps : List (List F64)} {i : Nat} {rest}
    (hp : ∀ p ∈ ps, p.length = d) (hs : ps.length * (8 * d) < 2^31)
    (hc : ps = [] ∨ checkPosns ring (ps.map ptOf) = none)
    (h : data.drop i = Spec.series be ps ++ rest) :
    parsePosns ring d data i be = .ok (i + (Spec.series be ps).length) ps := by
  have hlen : ps.length < 2^28 := by
    have : ps.length * 16 ≤ ps.length * (8 * d) := Nat.mul_le_mul_left _ (by omega)
    omega
  rw [series_length hp]
  unfold Spec.series at h
  rw [List.append_assoc] at h
  unfold parsePosns
  rw [readU32_at h]
  have h2 := drop_adv h
  rw [u32_length] at h2
  have hn : (BitVec.ofNat 32 ps.length).toNat = ps.length := by
    rw [BitVec.toNat_ofNat]; exact Nat.mod_eq_of_lt (by omega)
  rw [hn]
  by_cases h0 : ps.length = 0
  · rw [if_pos h0]
    have : ps = [] := List.eq_nil_of_length_eq_zero h0
    subst this
    simp
  · rw [if_neg h0]
    have hc : checkPosns ring (ps.map ptOf) = none := by
      rcases hc with rfl | hc
      · simp at h0
      · exact hc
    have hmod : (ps.length * 16) % 2^32 = ps.length * 16 := Nat.mod_eq_of_lt (by omega)
    have hnp : ∀ {α} (k : R α), npointsCheck ring ps.length k = k := by
      intro α k
      unfold npointsCheck
      rw [if_neg (by omega), if_neg (by omega)]
    rw [hmod]
    split
    · rename_i hg
      obtain ⟨rfl, rfl, hg⟩ := hg
      rw [hnp, rawPoints_at hp h2]
      simp only [hc]
      congr 1
      omega
    · rw [posnLoop_at (by omega) hp h2]
      simp only [hnp, hc]
      congr 1
      omega

theorem ringLoop_at {data : List Byte} {be} {d : Nat} (hd : 2 ≤ d)
    {rs : List (List (List F64))} {i : Nat} {rest}
    (hp : ∀ r ∈ rs, (∀ p ∈ r, p.length = d) ∧ r.length * (8 * d) < 2^31 ∧
      checkPosns true (r.map ptOf) = none)
    (h : data.drop i = rs.flatMap (Spec.series be) ++ rest) :
    ringLoop d data be rs.length i = .ok (i + (rs.flatMap (Spec.series be)).length) rs := by
  induction rs generalizing i with
  | nil => simp [ringLoop]
  | cons r rs ih =>
    rw [List.flatMap_cons, List.append_assoc] at h
    obtain ⟨a, b, c⟩ := hp r (by simp)
    simp only [List.length_cons, ringLoop]
    rw [parsePosns_at hd a b (.inr c) h]
    simp only []
    rw [ih (fun q hq => hp q (by simp [hq])) (drop_adv h)]
    simp only [List.flatMap_cons, List.length_append]
    congr 1
    omega

/-! ### The geometry the parser builds for a valid view -/

/-- Object built for a point. -/
def buildPoint (z m : Bool) (p : List F64) : Geom :=
  if z then (if m then .gpoint (zmFlags z m) (ptOf p) (p.getD 2 0#64) (p.getD 3 0#64) none
    else .gpoint (zmFlags z m) (ptOf p) (p.getD 2 0#64) 0#64 none)
  else if m then .gpoint (zmFlags z m) (ptOf p) 0#64 (p.getD 2 0#64) none
  else .point {} (ptOf p)

/-- Object built for a linestring. -/
def buildLine (z m : Bool) (ps : List (List F64)) : Geom :=
  if ps.length = 0 then .gline emptyFlags none [] none
  else if z || m then .gline (zmFlags z m) (some (ps.map ptOf)) (ps.flatMap extraOf) none
  else .line {} (ps.map ptOf)

/-- Object built for a polygon. -/
def buildPoly (z m : Bool) (rs : List (List (List F64))) : Geom :=
  match polyOfRings (rs.map (·.map ptOf)) with
  | none => .gpoly emptyFlags none [] none
  | some pl =>
    if z || m then .gpoly (zmFlags z m) (some pl) (rs.flatMap (·.flatMap extraOf)) none
    else .poly {} pl

mutual
/-- The object built by the parser for `v`. -/
def build : GV → Geom
  | .point _ _ none => .gpoint emptyFlags ⟨0#64, 0#64⟩ 0#64 0#64 none
  | .point z m (some p) => buildPoint z m p
  | .line z m ps => buildLine z m ps
  | .poly z m rs => buildPoly z m rs
  | .mpoint z m ps => buildMulti .multipoint z m (ps.map (buildPoint z m))
  | .mline z m ls => buildMulti .multilinestring z m (ls.map (buildLine z m))
  | .mpoly z m ps => buildMulti .multipolygon z m (ps.map (buildPoly z m))
  | .coll gs => buildMulti .collection false false (builds gs)
/-- The objects built for a list of members. -/
def builds : List GV → List Geom
  | [] => []
  | v :: vs => build v :: builds vs
end

/-! ### Leaves -/

theorem dimsOf_eq (z m) : dimsOf z m = dims z m := by cases z <;> cases m <;> rfl
theorem dims_ge (z m) : 2 ≤ dims z m := by cases z <;> cases m <;> simp [dims]
theorem dims_le (z m) : dims z m ≤ 4 := by cases z <;> cases m <;> simp [dims]

theorem parsePoint_at {data : List Byte} {be z m} {p : List F64} {i : Nat} {rest}
    (hp : p.length = dims z m) (hn : ∃ x ∈ p, F64.isNaN x = false)
    (h : data.drop i = Spec.posn be p ++ rest) :
    parsePoint z m data i be = .ok (i + (Spec.posn be p).length) (build (.point z m (some p))) := by
  have hl := dims_ge z m
  have h1 := drop_len h (by rw [posn_length]; omega)
  rw [posn_length, hp] at h1
  unfold parsePoint
  rw [dimsOf_eq, posn_length, hp]
  dsimp only
  rw [if_neg (by omega)]
  have h3 := readDoubles_at h
  rw [hp] at h3
  rw [h3]
  have : p.all F64.isNaN = false := by
    rw [List.all_eq_false]
    obtain ⟨x, hx, h⟩ := hn
    exact ⟨x, hx, by simp [h]⟩
  simp only [this, Bool.false_eq_true, if_false]
  rw [build, buildPoint]

theorem parsePoint_empty_at {data : List Byte} {be z m} {p : List F64} {i : Nat} {rest}
    (hp : p.length = dims z m) (hn : ∀ x ∈ p, F64.isNaN x = true)
    (h : data.drop i = Spec.posn be p ++ rest) :
    parsePoint z m data i be = .ok (i + (Spec.posn be p).length) (build (.point false false none)) := by
  have hl := dims_ge z m
  have h1 := drop_len h (by rw [posn_length]; omega)
  rw [posn_length, hp] at h1
  unfold parsePoint
  rw [dimsOf_eq, posn_length, hp]
  dsimp only
  rw [if_neg (by omega)]
  have h3 := readDoubles_at h
  rw [hp] at h3
  rw [h3]
  have : p.all F64.isNaN = true := by
    rw [List.all_eq_true]; exact hn
  simp only [this, if_true]
  rw [build]

theorem checkPosns_line {ps : List (List F64)} (h : 2 ≤ ps.length) :
    checkPosns false (ps.map ptOf) = none := by
  unfold checkPosns
  simp
  omega

theorem ptOf_getD {p : List F64} (h : 2 ≤ p.length) : (ptOf p).x = p.getD 0 0 ∧ (ptOf p).y = p.getD 1 0 := by
  match p, h with
  | x :: y :: _, _ => exact ⟨rfl, rfl⟩

theorem checkPosns_ring {z m} {ps : List (List F64)} (h : ringOk z m ps) :
    checkPosns true (ps.map ptOf) = none := by
  obtain ⟨h3, _, hp, hc⟩ := h
  unfold checkPosns
  simp only [if_true, List.length_map]
  rw [if_neg (by omega)]
  rw [List.head?_map, List.getLast?_map]
  have hne : ps ≠ [] := by intro h; subst h; simp at h3
  obtain ⟨p0, h0⟩ : ∃ p0, ps.head? = some p0 := ⟨_, List.head?_eq_some_head hne⟩
  obtain ⟨p1, h1⟩ : ∃ p1, ps.getLast? = some p1 := ⟨_, List.getLast?_eq_some_getLast hne⟩
  rw [h0, h1]
  simp only [Option.map_some]
  have hl := dims_ge z m
  have e0 : p0.length = dims z m := hp _ (List.mem_of_head? h0)
  have e1 : p1.length = dims z m := hp _ (List.mem_of_getLast? h1)
  obtain ⟨a, b⟩ := hc p0 p1 h0 h1
  rw [(ptOf_getD (p := p0) (by omega)).1, (ptOf_getD (p := p0) (by omega)).2,
    (ptOf_getD (p := p1) (by omega)).1, (ptOf_getD (p := p1) (by omega)).2, a, b]
  rfl

theorem parseLine_at {data : List Byte} {be z m} {ps : List (List F64)} {i : Nat} {rest}
    (hv : Valid (.line z m ps))
    (h : data.drop i = Spec.series be ps ++ rest) :
    parseLine z m data i be = .ok (i + (Spec.series be ps).length) (build (.line z m ps)) := by
  unfold parseLine
  rw [dimsOf_eq]
  have hl := dims_ge z m
  have : parsePosns false (dims z m) data i be = .ok (i + (Spec.series be ps).length) ps := by
    rcases hv with ⟨rfl, _, _⟩ | ⟨h2, hs, hp⟩
    · exact parsePosns_at hl (by simp) (by simp) (.inl rfl) h
    · exact parsePosns_at hl hp hs (.inr (checkPosns_line h2)) h
  rw [this, build, buildLine]

theorem parsePoly_at {data : List Byte} {be z m} {rs : List (List (List F64))} {i : Nat} {rest}
    (hv : Valid (.poly z m rs))
    (h : data.drop i = Spec.u32 be (BitVec.ofNat 32 rs.length) ++ (rs.flatMap (Spec.series be) ++ rest)) :
    parsePoly z m data i be = .ok (i + 4 + (rs.flatMap (Spec.series be)).length)
      (build (.poly z m rs)) := by
  have hr : rs.length < 2^32 ∧ ∀ r ∈ rs, ringOk z m r := by
    rcases hv with ⟨rfl, _⟩ | ⟨_, h1, h2⟩
    · simp
    · exact ⟨by omega, h2⟩
  unfold parsePoly
  rw [readU32_at h, dimsOf_eq]
  have hn : (BitVec.ofNat 32 rs.length).toNat = rs.length := by
    rw [BitVec.toNat_ofNat]; exact Nat.mod_eq_of_lt (by omega)
  have h2 := drop_adv h
  rw [u32_length] at h2
  rw [hn, ringLoop_at (dims_ge z m) (fun r hr' => by
    have := hr.2 r hr'
    exact ⟨this.2.2.1, this.2.1, checkPosns_ring this⟩) h2, build, buildPoly]
  rfl

/-! ### Header -/

theorem decodeType_code (t z m) : decodeType (typeCode t z m) = some (t, z, m) := by
  cases t <;> cases z <;> cases m <;> decide

theorem mask_code (t z m) : (BitVec.ofNat 32 (typeCode t z m) &&& 0xFFFF#32).toNat = typeCode t z m ∧
    BitVec.ofNat 32 (typeCode t z m) &&& 0x20000000#32 = 0#32 ∧
    (BitVec.ofNat 32 (typeCode t z m + 0x20000000) &&& 0xFFFF#32).toNat = typeCode t z m ∧
    BitVec.ofNat 32 (typeCode t z m + 0x20000000) &&& 0x20000000#32 ≠ 0#32 := by
  cases t <;> cases z <;> cases m <;> decide

theorem header_length_pos (be srid t z m) : 0 < (header be srid t z m).length := by
  simp [header]

/-- After a well formed header the parser dispatches on the type. -/
theorem parseWkb_header {data : List Byte} {i r : Nat} {be srid t z m rest}
    (h : data.drop i = header be srid t z m ++ rest) :
    parseWkb (r + 1) data i =
      wkbDispatch (parseWkb r data) (typeCode t z m) data (i + (header be srid t z m).length) be := by
  have hl := drop_len h (header_length_pos ..)
  have hp := header_length_pos be srid t z m
  rw [parseWkb, if_neg (by omega)]
  unfold header at h ⊢
  rw [List.cons_append] at h
  rw [h]
  dsimp only
  have hb : ¬ ((if be then 0#8 else 1#8) >>> 1 ≠ 0#8) := by cases be <;> decide
  have hbe : ((if be then 0#8 else 1#8) == 0#8) = be := by cases be <;> decide
  rw [if_neg hb, hbe]
  have h1 : data.drop (i + 1) = _ := drop_adv (a := [if be then 0#8 else 1#8]) (by simpa using h)
  unfold parseBody
  obtain ⟨m1, m2, m3, m4⟩ := mask_code t z m
  cases srid with
  | none =>
    dsimp only at h1 ⊢
    rw [readU32_at h1, m1, m2, if_neg (by simp)]
    simp [u32_length]
  | some s =>
    dsimp only at h1 ⊢
    rw [List.append_assoc] at h1
    have h2 := drop_adv h1
    rw [u32_length] at h2
    rw [readU32_at h1, m3, if_pos m4, readU32_at h2]
    simp [u32_length]

/-! ### Children -/

/-- The type/flags a built object reports. -/
theorem typeMatch_point {z m p} : typeMatch (build (.point z m (some p))) .point z m = true := by
  cases z <;> cases m <;> simp [build, buildPoint, typeMatch, Geom.type, Geom.flags, zmFlags]

theorem typeMatch_line {z m ps} (h : ps ≠ []) : typeMatch (build (.line z m ps)) .linestring z m = true := by
  have : ¬ ps.length = 0 := by simpa using h
  cases z <;> cases m <;> simp [build, buildLine, h, typeMatch, Geom.type, Geom.flags, zmFlags]

theorem typeMatch_poly {z m ps} (h : ps ≠ []) : typeMatch (build (.poly z m ps)) .polygon z m = true := by
  obtain ⟨r, rs, rfl⟩ := List.exists_cons_of_ne_nil h
  cases z <;> cases m <;> simp [build, buildPoly, polyOfRings, typeMatch, Geom.type, Geom.flags, zmFlags]

/-- `want` accepts the object built for `v`. -/
def accepts (want : Option GType) (z m : Bool) (v : GV) : Prop :=
  match want with
  | some t => typeMatch (build v) t z m = true
  | none => True

theorem builds_map {α} (f : α → GV) (l : List α) : builds (l.map f) = l.map fun a => build (f a) := by
  induction l with
  | nil => rfl
  | cons a l ih => simp [builds, ih]

theorem valids_iff (vs : List GV) : Valids vs ↔ ∀ v ∈ vs, Valid v := by
  induction vs with
  | nil => simp [Valids]
  | cons v vs ih => simp [Valids, ih]

theorem heights_le (vs : List GV) (r : Nat) : heights vs ≤ r ↔ ∀ v ∈ vs, height v < r := by
  induction vs with
  | nil => simp [heights]
  | cons v vs ih => simp [heights, ih]; omega

theorem enc_pos {v bs} (h : Enc v bs) : 0 < bs.length := by
  cases h <;> simp [List.length_append, header]

/-- What is proved of a single encoded object. -/
def ParsesAt (v : GV) (bs : List Byte) : Prop :=
  Valid v → ∀ r data i rest, data.drop i = bs ++ rest →
    (height v < r → parseWkb r data i = .ok (i + bs.length) (build v)) ∧
    (r ≤ height v → ∃ e, parseWkb r data i = .fail none e)

/-- The same for consecutive objects. -/
def ParsesAllAt (vs : List GV) (bs : List Byte) : Prop :=
  Valids vs → ∀ want z m, (∀ v ∈ vs, accepts want z m v) →
    ∀ r data i rest, data.drop i = bs ++ rest →
    (heights vs ≤ r → childLoop (parseWkb r data) want z m vs.length i
        = .ok (i + bs.length) (builds vs)) ∧
    (r < heights vs → ∃ e, childLoop (parseWkb r data) want z m vs.length i = .fail none e)

theorem parsesAll_cons {v vs b bs} (h1 : ParsesAt v b) (h2 : ParsesAllAt vs bs) :
    ParsesAllAt (v :: vs) (b ++ bs) := by
  intro hv want z m ha r data i rest hd
  rw [List.append_assoc] at hd
  obtain ⟨a1, a2⟩ := h1 hv.1 r data i _ hd
  obtain ⟨b1, b2⟩ := h2 hv.2 want z m (fun v hv => ha v (by simp [hv])) r data _ _ (drop_adv hd)
  have hg : childGood want z m (build v) = true := by
    have := ha v (by simp)
    unfold accepts at this
    unfold childGood
    cases want <;> simp_all
  simp only [List.length_cons, childLoop, heights]
  by_cases hh : height v < r
  · rw [a1 hh]
    dsimp only
    rw [hg, if_neg (by simp)]
    constructor
    · intro hle
      rw [b1 (by omega)]
      simp [builds, List.length_append, Nat.add_assoc]
    · intro hlt
      obtain ⟨e, hf⟩ := b2 (by omega)
      rw [hf]
      exact ⟨e, rfl⟩
  · constructor
    · intro hle; omega
    · intro _
      obtain ⟨e, hf⟩ := a2 (by omega)
      rw [hf]
      exact ⟨e, rfl⟩

theorem parseWkb_zero {data : List Byte} {i : Nat} {bs rest : List Byte} (hp : 0 < bs.length)
    (h : data.drop i = bs ++ rest) : ∃ e, parseWkb 0 data i = .fail none e := by
  have := drop_len h hp
  rw [parseWkb, if_neg (by omega), h]
  match bs, hp with
  | b :: bs, _ => exact ⟨_, rfl⟩

/-- A leaf object parses at every allowed depth. -/
theorem parsesAt_leaf {v bs} (hpos : 0 < bs.length) (h0 : height v = 0)
    (h : Valid v → ∀ r data i rest, data.drop i = bs ++ rest →
      parseWkb (r + 1) data i = .ok (i + bs.length) (build v)) : ParsesAt v bs := by
  intro hv r data i rest hd
  cases r with
  | zero => exact ⟨fun h => absurd h (by omega), fun _ => parseWkb_zero hpos hd⟩
  | succ r => exact ⟨fun _ => h hv r data i rest hd, fun h => absurd h (by omega)⟩

/-- A container parses when its members do. -/
theorem parsesAt_multi {v : GV} {be srid t z m bs} {want : Option GType} {vs : List GV} {zz mm}
    (hdisp : ∀ child data i, wkbDispatch child (typeCode t z m) data i be =
      parseMulti child t want zz mm data i be)
    (hbuild : buildMulti t zz mm (builds vs) = build v)
    (hh : height v = heights vs)
    (hv : Valid v → Valids vs ∧ vs.length < 2^32 ∧ ∀ c ∈ vs, accepts want zz mm c)
    (hall : ParsesAllAt vs bs) :
    ParsesAt v (header be srid t z m ++ (Spec.u32 be (BitVec.ofNat 32 vs.length) ++ bs)) := by
  intro hval r data i rest hd
  obtain ⟨hvs, hlen, hacc⟩ := hv hval
  cases r with
  | zero => exact ⟨fun h => absurd h (by omega), fun _ => parseWkb_zero (by simp [header]) hd⟩
  | succ r =>
    rw [List.append_assoc] at hd
    rw [parseWkb_header hd, hdisp]
    have h1 := drop_adv hd
    rw [List.append_assoc] at h1
    have h2 := drop_adv h1
    rw [u32_length] at h2
    have hn : (BitVec.ofNat 32 vs.length).toNat = vs.length := by
      rw [BitVec.toNat_ofNat]; exact Nat.mod_eq_of_lt hlen
    unfold parseMulti
    rw [readU32_at h1, hn]
    obtain ⟨a, b⟩ := hall hvs want zz mm hacc r data _ _ h2
    constructor
    · intro h
      rw [a (by omega)]
      simp only [hbuild, List.length_append, u32_length]
      congr 1
      omega
    · intro h
      obtain ⟨e, hf⟩ := b (by omega)
      rw [hf]
      exact ⟨e, rfl⟩

theorem heights_leaf {α} (f : α → GV) (hf : ∀ a, height (f a) = 0) (l : List α) :
    heights (l.map f) = if l.isEmpty then 0 else 1 := by
  induction l with
  | nil => rfl
  | cons a l ih =>
    simp only [List.map_cons, heights, ih, hf]
    cases l <;> simp

mutual
/-- Every encoding of a valid view parses to the canonical object. -/
theorem parse_enc {v bs} (h : Enc v bs) : ParsesAt v bs := by
  match h with
  | .point be srid z m p =>
    refine parsesAt_leaf (by simp [header]) rfl ?_
    intro hv r data i rest hd
    rw [List.append_assoc] at hd
    rw [parseWkb_header hd, wkbDispatch, decodeType_code]
    dsimp only
    rw [parsePoint_at hv.1 hv.2 (drop_adv hd)]
    simp [Nat.add_assoc]
  | .pointEmpty be srid z m p hp hn =>
    refine parsesAt_leaf (by simp [header]) rfl ?_
    intro hv r data i rest hd
    rw [List.append_assoc] at hd
    rw [parseWkb_header hd, wkbDispatch, decodeType_code]
    dsimp only
    rw [parsePoint_empty_at hp hn (drop_adv hd)]
    simp [Nat.add_assoc]
  | .line be srid z m ps =>
    refine parsesAt_leaf (by simp [header]) rfl ?_
    intro hv r data i rest hd
    rw [List.append_assoc] at hd
    rw [parseWkb_header hd, wkbDispatch, decodeType_code]
    dsimp only
    rw [parseLine_at hv (drop_adv hd)]
    simp [Nat.add_assoc]
  | .poly be srid z m rs =>
    refine parsesAt_leaf (by simp [header]) rfl ?_
    intro hv r data i rest hd
    rw [List.append_assoc, List.append_assoc] at hd
    rw [parseWkb_header hd, wkbDispatch, decodeType_code]
    dsimp only
    rw [parsePoly_at hv (drop_adv hd)]
    simp [Nat.add_assoc, u32_length]
  | .mpoint be srid z m ps bs hall =>
    have := parsesAt_multi (v := .mpoint z m ps) (be := be) (srid := srid) (t := .multipoint) (z := z) (m := m)
      (want := some .point) (vs := ps.map fun p => .point z m (some p)) (zz := z) (mm := m)
      (fun child data i => by rw [wkbDispatch, decodeType_code])
      (by rw [builds_map, build]; rfl) (by rw [heights_leaf _ (fun _ => rfl), height])
      (fun hv => by
        refine ⟨?_, by have := hv.1; simp; omega, ?_⟩
        · rw [valids_iff]; intro v hv'
          obtain ⟨p, hp, rfl⟩ := List.mem_map.1 hv'
          exact hv.2 p hp
        · intro v hv'
          obtain ⟨p, hp, rfl⟩ := List.mem_map.1 hv'
          exact typeMatch_point)
      (parse_encAll hall)
    simpa using this
  | .mline be srid z m ps bs hall =>
    have := parsesAt_multi (v := .mline z m ps) (be := be) (srid := srid) (t := .multilinestring) (z := z) (m := m)
      (want := some .linestring) (vs := ps.map fun p => .line z m p) (zz := z) (mm := m)
      (fun child data i => by rw [wkbDispatch, decodeType_code])
      (by rw [builds_map, build]; rfl) (by rw [heights_leaf _ (fun _ => rfl), height])
      (fun hv => by
        refine ⟨?_, by have := hv.1; simp; omega, ?_⟩
        · rw [valids_iff]; intro v hv'
          obtain ⟨p, hp, rfl⟩ := List.mem_map.1 hv'
          exact .inr (hv.2 p hp)
        · intro v hv'
          obtain ⟨p, hp, rfl⟩ := List.mem_map.1 hv'
          exact typeMatch_line (by intro h; subst h; exact absurd (hv.2 _ hp).1 (by simp)))
      (parse_encAll hall)
    simpa using this
  | .mpoly be srid z m ps bs hall =>
    have := parsesAt_multi (v := .mpoly z m ps) (be := be) (srid := srid) (t := .multipolygon) (z := z) (m := m)
      (want := some .polygon) (vs := ps.map fun p => .poly z m p) (zz := z) (mm := m)
      (fun child data i => by rw [wkbDispatch, decodeType_code])
      (by rw [builds_map, build]; rfl) (by rw [heights_leaf _ (fun _ => rfl), height])
      (fun hv => by
        refine ⟨?_, by have := hv.1; simp; omega, ?_⟩
        · rw [valids_iff]; intro v hv'
          obtain ⟨p, hp, rfl⟩ := List.mem_map.1 hv'
          exact .inr (hv.2 p hp)
        · intro v hv'
          obtain ⟨p, hp, rfl⟩ := List.mem_map.1 hv'
          exact typeMatch_poly (hv.2 _ hp).1)
      (parse_encAll hall)
    simpa using this
  | .coll be srid z m gs bs hall =>
    exact parsesAt_multi (v := .coll gs) (be := be) (srid := srid) (t := .collection) (z := z) (m := m)
      (want := none) (vs := gs) (zz := false) (mm := false)
      (fun child data i => by rw [wkbDispatch, decodeType_code])
      (by rw [build]) (by rw [height])
      (fun hv => ⟨hv.2, by have := hv.1; omega, fun _ _ => trivial⟩)
      (parse_encAll hall)
theorem parse_encAll {vs bs} (h : EncAll vs bs) : ParsesAllAt vs bs := by
  match h with
  | .nil =>
    intro _ want z m _ r data i rest _
    exact ⟨fun _ => by simp [childLoop, builds], fun h => by simp [heights] at h⟩
  | .cons v vs b bs h1 h2 => exact parsesAll_cons (parse_enc h1) (parse_encAll h2)
end

/-! ### The canonical object shows the same view -/

theorem takePad_exact {k} {a b : List F64} (h : a.length = k) : takePad k (a ++ b) = a := by
  unfold takePad
  rw [List.take_append_of_le_length (by omega), List.take_of_length_le (by omega)]
  simp [show k - (a.length + b.length) = 0 by omega]

theorem posn_split {k} {p : List F64} (h : p.length = k + 2) :
    [(ptOf p).x, (ptOf p).y] ++ extraOf p = p ∧ (extraOf p).length = k := by
  match p, h with
  | x :: y :: q, h => simp [ptOf, extraOf] at *; exact h

theorem posns_map {k} {ps : List (List F64)} (h : ∀ p ∈ ps, p.length = k + 2) (cs : List F64) :
    posns k (ps.map ptOf) (ps.flatMap extraOf ++ cs) = ps ∧
      (ps.flatMap extraOf).length = k * ps.length := by
  induction ps with
  | nil => simp [posns]
  | cons p ps ih =>
    obtain ⟨h1, h2⟩ := posn_split (h p (by simp))
    obtain ⟨i1, i2⟩ := ih (fun q hq => h q (by simp [hq]))
    simp only [List.map_cons, List.flatMap_cons, posns, List.append_assoc]
    rw [takePad_exact h2, h1, List.drop_left' h2, i1]
    refine ⟨rfl, ?_⟩
    rw [List.length_append, h2, i2, List.length_cons, Nat.mul_add]
    omega

theorem posnss_map {k} {rs : List (List (List F64))} (h : ∀ r ∈ rs, ∀ p ∈ r, p.length = k + 2)
    (cs : List F64) :
    posnss k (rs.map (·.map ptOf)) (rs.flatMap (·.flatMap extraOf) ++ cs) = rs ∧
      (rs.flatMap (·.flatMap extraOf)).length = k * ((rs.map (·.map ptOf)).map List.length).sum := by
  induction rs with
  | nil => simp [posnss]
  | cons p ps ih =>
    have h1 := fun cs => posns_map (h p (by simp)) cs
    obtain ⟨i1, i2⟩ := ih (fun q hq => h q (by simp [hq]))
    simp only [List.map_cons, List.flatMap_cons, posnss, List.append_assoc]
    rw [(h1 _).1, List.length_map, List.drop_left' (h1 []).2, i1]
    refine ⟨rfl, ?_⟩
    rw [List.length_append, (h1 []).2, i2, List.sum_cons, Nat.mul_add]

theorem posnsss_map {k} {ps : List (List (List (List F64)))}
    (h : ∀ rs ∈ ps, ∀ r ∈ rs, ∀ p ∈ r, p.length = k + 2) (cs : List F64) :
    posnsss k (ps.map (·.map (·.map ptOf))) (ps.flatMap (·.flatMap (·.flatMap extraOf)) ++ cs) = ps := by
  induction ps with
  | nil => simp [posnsss]
  | cons p ps ih =>
    have h1 := fun cs => posnss_map (h p (by simp)) cs
    have i1 := ih (fun q hq => h q (by simp [hq]))
    simp only [List.map_cons, List.flatMap_cons, posnsss, List.append_assoc]
    rw [(h1 _).1, List.drop_left' (h1 []).2, i1]

theorem posns_zero_map {ps : List (List F64)} (h : ∀ p ∈ ps, p.length = 2) (cs) :
    posns 0 (ps.map ptOf) cs = ps := by
  rw [posns_zero_cs _ cs (ps.flatMap extraOf ++ [])]; exact (posns_map (k := 0) h []).1

theorem posnss_zero_cs (rs : List (List Pt)) (cs cs') : posnss 0 rs cs = posnss 0 rs cs' := by
  induction rs generalizing cs cs' with
  | nil => rfl
  | cons p ps ih => simp only [posnss]; rw [posns_zero_cs p cs cs', ih]

theorem posnsss_zero_cs (rs : List (List (List Pt))) (cs cs') : posnsss 0 rs cs = posnsss 0 rs cs' := by
  induction rs generalizing cs cs' with
  | nil => rfl
  | cons p ps ih => simp only [posnsss]; rw [posnss_zero_cs p cs cs', ih]

theorem posnss_zero_map {rs : List (List (List F64))} (h : ∀ r ∈ rs, ∀ p ∈ r, p.length = 2) (cs) :
    posnss 0 (rs.map (·.map ptOf)) cs = rs := by
  rw [posnss_zero_cs _ cs (rs.flatMap (·.flatMap extraOf) ++ [])]; exact (posnss_map (k := 0) h []).1

theorem posnsss_zero_map {rs : List (List (List (List F64)))}
    (h : ∀ ps ∈ rs, ∀ r ∈ ps, ∀ p ∈ r, p.length = 2) (cs) :
    posnsss 0 (rs.map (·.map (·.map ptOf))) cs = rs := by
  rw [posnsss_zero_cs _ cs (rs.flatMap (·.flatMap (·.flatMap extraOf)) ++ [])]
  exact posnsss_map (k := 0) h []

theorem view_buildPoint {z m p} (h : pointOk z m p) :
    view (buildPoint z m p) = some (.point z m (some p)) := by
  have hl := h.1
  unfold posOk at hl
  cases z <;> cases m <;> simp [dims] at hl
  · match p, hl with
    | [x, y], _ => rfl
  · match p, hl with
    | [x, y, a], _ => rfl
  · match p, hl with
    | [x, y, a], _ => rfl
  · match p, hl with
    | [x, y, a, b], _ => rfl

theorem view_buildLine {z m ps} (h : lineOk z m ps) :
    view (buildLine z m ps) = some (.line z m ps) := by
  obtain ⟨h2, _, hp⟩ := h
  have hl := dims_ge z m
  unfold buildLine
  rw [if_neg (by omega)]
  split
  · simp only [view, zmFlags, Bool.false_eq_true, if_false]
    have := (posns_map (k := dims z m - 2) (ps := ps) (fun p hq => by rw [hp p hq]; omega) []).1
    rw [List.append_nil] at this
    rw [this]
  · rename_i hz
    simp at hz
    obtain ⟨rfl, rfl⟩ := hz
    simp only [view, Bool.or_self, Bool.false_eq_true, if_false]
    rw [posns_zero_map hp]

theorem rings_polyOfRings {r : List (List Pt)} {pl} (h : polyOfRings r = some pl) : rings pl = r := by
  cases r with
  | nil => cases h
  | cons a r => cases h; rfl

theorem polyOfRings_some {r : List (List Pt)} (h : r ≠ []) : ∃ pl, polyOfRings r = some pl := by
  cases r with
  | nil => exact absurd rfl h
  | cons a r => exact ⟨_, rfl⟩

theorem view_buildPoly {z m rs} (h : polyOk z m rs) :
    view (buildPoly z m rs) = some (.poly z m rs) := by
  obtain ⟨hne, _, hr⟩ := h
  have hl := dims_ge z m
  obtain ⟨pl, hpl⟩ := polyOfRings_some (r := rs.map (·.map ptOf)) (by simpa using hne)
  unfold buildPoly
  rw [hpl]
  dsimp only
  have hrings := rings_polyOfRings hpl
  split
  · simp only [view, zmFlags, Bool.false_eq_true, if_false]
    have := (posnss_map (k := dims z m - 2) (rs := rs)
      (fun r hr' p hq => by rw [(hr r hr').2.2.1 p hq]; omega) []).1
    rw [List.append_nil] at this
    rw [hrings, this]
  · rename_i hz
    simp at hz
    obtain ⟨rfl, rfl⟩ := hz
    simp only [view, Bool.or_self, Bool.false_eq_true, if_false]
    rw [hrings, posnss_zero_map (fun r hr' => (hr r hr').2.2.1)]

theorem buildPoint_parts {z m p} (h : pointOk z m p) :
    (buildPoint z m p).pt = ptOf p ∧ pointExtra z m (buildPoint z m p) = extraOf p := by
  have hl := h.1
  unfold posOk at hl
  cases z <;> cases m <;> simp [dims] at hl
  · match p, hl with
    | [x, y], _ => exact ⟨rfl, rfl⟩
  · match p, hl with
    | [x, y, a], _ => exact ⟨rfl, rfl⟩
  · match p, hl with
    | [x, y, a], _ => exact ⟨rfl, rfl⟩
  · match p, hl with
    | [x, y, a, b], _ => exact ⟨rfl, rfl⟩

theorem buildLine_parts {z m ps} (h : lineOk z m ps) :
    (buildLine z m ps).lineOf = some (ps.map ptOf) ∧
      ((z || m) = true → (buildLine z m ps).extraCoords = ps.flatMap extraOf) := by
  obtain ⟨h2, _, hp⟩ := h
  unfold buildLine
  rw [if_neg (by omega)]
  split
  · exact ⟨rfl, fun _ => rfl⟩
  · exact ⟨rfl, fun h => absurd h (by assumption)⟩

theorem buildPoly_parts {z m rs} (h : polyOk z m rs) :
    (∃ pl, (buildPoly z m rs).polyOf = some pl ∧ rings pl = rs.map (·.map ptOf)) ∧
      ((z || m) = true → (buildPoly z m rs).extraCoords = rs.flatMap (·.flatMap extraOf)) := by
  obtain ⟨hne, _, hr⟩ := h
  obtain ⟨pl, hpl⟩ := polyOfRings_some (r := rs.map (·.map ptOf)) (by simpa using hne)
  have hrings := rings_polyOfRings hpl
  unfold buildPoly
  rw [hpl]
  dsimp only
  split
  · exact ⟨⟨pl, rfl, hrings⟩, fun _ => rfl⟩
  · exact ⟨⟨pl, rfl, hrings⟩, fun h => absurd h (by assumption)⟩

theorem mapM_id_map_some {α : Type} (l : List α) : (l.map some).mapM id = some l := by
  induction l with
  | nil => rfl
  | cons a l ih => simp only [List.map_cons, List.mapM_cons, id, ih]; rfl

theorem map_congr_mem {α β} {f g : α → β} {l : List α} (h : ∀ a ∈ l, f a = g a) : l.map f = l.map g :=
  List.map_congr_left h

theorem flatMap_congr_mem {α β} {f g : α → List β} {l : List α} (h : ∀ a ∈ l, f a = g a) :
    l.flatMap f = l.flatMap g := by
  induction l with
  | nil => rfl
  | cons a l ih => simp [h a (by simp), ih (fun b hb => h b (by simp [hb]))]

theorem zm_false {z m : Bool} (h : ¬ (z || m) = true) : z = false ∧ m = false := by
  cases z <;> cases m <;> simp at h ⊢

mutual
/-- The object the parser builds shows the view it was built for. -/
theorem view_build (v : GV) (h : Valid v) : view (build v) = some v := by
  match v with
  | .point z m none =>
    obtain ⟨rfl, rfl⟩ := h
    rfl
  | .point z m (some p) => exact view_buildPoint h
  | .line z m ps =>
    rcases h with ⟨rfl, rfl, rfl⟩ | h
    · rfl
    · exact view_buildLine h
  | .poly z m rs =>
    rcases h with ⟨rfl, rfl, rfl⟩ | h
    · rfl
    · exact view_buildPoly h
  | .mpoint z m ps =>
    obtain ⟨_, h⟩ := h
    have hl := dims_ge z m
    simp only [build, buildMulti, view, zmFlags, Bool.false_eq_true, if_false, Option.getD_some,
      List.map_map, List.flatMap_map]
    rw [map_congr_mem (f := Geom.pt ∘ buildPoint z m) (g := ptOf) (fun p hp => (buildPoint_parts (h p hp)).1),
      flatMap_congr_mem (g := extraOf) (fun p hp => (buildPoint_parts (h p hp)).2)]
    have := (posns_map (k := dims z m - 2) (ps := ps) (fun p hq => by rw [(h p hq).1]; omega) []).1
    rw [List.append_nil] at this
    rw [this]
  | .mline z m ls =>
    obtain ⟨_, h⟩ := h
    have hl := dims_ge z m
    simp only [build, buildMulti, view, zmFlags, Bool.false_eq_true, if_false, Option.getD_some,
      List.map_map, List.flatMap_map]
    rw [map_congr_mem (f := Geom.lineOf ∘ buildLine z m) (g := some ∘ (·.map ptOf)) (fun p hp => (buildLine_parts (h p hp)).1),
      ← List.map_map, mapM_id_map_some]
    dsimp only
    split
    · rename_i hz
      rw [flatMap_congr_mem (g := (·.flatMap extraOf)) (fun p hp => (buildLine_parts (h p hp)).2 hz)]
      have := (posnss_map (k := dims z m - 2) (rs := ls)
        (fun r hr' p hq => by rw [(h r hr').2.2 p hq]; omega) []).1
      rw [List.append_nil] at this
      rw [this]
    · rename_i hz
      obtain ⟨rfl, rfl⟩ := zm_false hz
      rw [show dims false false - 2 = 0 from rfl, posnss_zero_map (fun r hr' => (h r hr').2.2)]
  | .mpoly z m ps =>
    obtain ⟨_, h⟩ := h
    have hl := dims_ge z m
    have hex : ∃ pls : List Poly, ps.map (fun x => (buildPoly z m x).polyOf) = pls.map some ∧
        pls.map rings = ps.map (·.map (·.map ptOf)) := by
      clear hl
      induction ps with
      | nil => exact ⟨[], rfl, rfl⟩
      | cons p ps ih =>
        obtain ⟨pls, a, b⟩ := ih (by rename_i hlt; simp at hlt; omega) (fun q hq => h q (by simp [hq]))
        obtain ⟨⟨pl, c, d⟩, _⟩ := buildPoly_parts (h p (by simp))
        exact ⟨pl :: pls, by simp [a, c], by simp [b, d]⟩
    obtain ⟨pls, e1, e2⟩ := hex
    simp only [build, buildMulti, view, zmFlags, Bool.false_eq_true, if_false, Option.getD_some,
      List.map_map, List.flatMap_map]
    rw [show (Geom.polyOf ∘ buildPoly z m) = (fun x => (buildPoly z m x).polyOf) from rfl, e1,
      mapM_id_map_some]
    dsimp only
    rw [e2]
    split
    · rename_i hz
      rw [flatMap_congr_mem (g := (·.flatMap (·.flatMap extraOf)))
        (fun p hp => (buildPoly_parts (h p hp)).2 hz)]
      have := (posnsss_map (k := dims z m - 2) (ps := ps)
        (fun r hr' q hq' p hq => by rw [((h r hr').2.2 q hq').2.2.1 p hq]; omega) [])
      rw [List.append_nil] at this
      rw [this]
    · rename_i hz
      obtain ⟨rfl, rfl⟩ := zm_false hz
      rw [show dims false false - 2 = 0 from rfl,
        posnsss_zero_map (fun r hr' q hq' => ((h r hr').2.2 q hq').2.2.1)]
  | .coll gs =>
    simp only [build, buildMulti, view, Bool.or_self, Bool.false_eq_true, if_false, Bool.not_true]
    rw [views_builds gs h.2]
/-- Members likewise. -/
theorem views_builds (vs : List GV) (h : Valids vs) : views (builds vs) = some vs := by
  match vs with
  | [] => rfl
  | v :: vs =>
    simp only [builds, views]
    rw [view_build v h.1, views_builds vs h.2]
end

end Tg
