import Verif.Model.WkbWrite
import Verif.Spec.Wkb
import Verif.Lemmas.Writer
/-!
`writeWkb g` emits exactly the bytes `Spec.encode v` of the view `v` of `g`.
-/
namespace Tg
open Spec

theorem extract8 {w : Nat} (x : BitVec w) (k : Nat) :
    (x >>> k).setWidth 8 = x.extractLsb' k 8 := by
  apply BitVec.eq_of_getLsbD_eq
  intro i hi
  simp [BitVec.getLsbD_setWidth, BitVec.getLsbD_extractLsb']

theorem le32_eq (x : BitVec 32) : le32 x = Spec.u32 false x := by
  simp only [le32, Spec.u32]
  simp only [extract8, Bool.false_eq_true, if_false]

theorem le64_eq (x : BitVec 64) : le64 x = Spec.f64 false x := by
  simp only [le64, Spec.f64]
  simp only [extract8, Bool.false_eq_true, if_false]

theorem f64_length (be x) : (Spec.f64 be x).length = 8 := by unfold Spec.f64; cases be <;> rfl
theorem u32_length (be x) : (Spec.u32 be x).length = 4 := by unfold Spec.u32; cases be <;> rfl

theorem wr_u32 (w : Wr) (n : Nat) : w.u32 n = w.bytes (Spec.u32 false (BitVec.ofNat 32 n)) := by
  rw [Wr.u32, le32_eq]

theorem wr_f64 (w : Wr) (x : F64) : w.f64 x = w.bytes (Spec.f64 false x) := by
  rw [Wr.f64, le64_eq]

theorem ptBytes_eq (p : Pt) : ptBytes p = Spec.posn false [p.x, p.y] := by
  simp [ptBytes, Spec.posn, le64_eq]

theorem posn_length (be) (p : List F64) : (Spec.posn be p).length = 8 * p.length := by
  induction p with
  | nil => rfl
  | cons x p ih => simp only [Spec.posn, List.flatMap_cons, List.length_append, f64_length,
      List.length_cons] at *; omega

theorem dims_eq (fl : Flags) : fl.dims = Spec.dims fl.hasZ fl.hasM := by
  unfold Flags.dims Spec.dims; cases fl.hasZ <;> cases fl.hasM <;> rfl

theorem typeCode_eq (t z m) : wkbTypeNum t z m = Spec.typeCode t z m := by
  unfold wkbTypeNum Spec.typeCode GType.num
  cases z <;> cases m <;> simp [Nat.add_assoc] <;> cases t <;> rfl

theorem writeWkbType_eq (t z m) (w : Wr) :
    writeWkbType t z m w = w.bytes (Spec.header false none t z m) := by
  unfold writeWkbType Spec.header
  rw [wr_u32, typeCode_eq, Wr.bytes_cons]
  rfl

theorem writePosn_eq (p : Pt) {w : Wr} (h : w.Ok) :
    writePosn p w = w.bytes (Spec.posn false [p.x, p.y]) := by
  unfold writePosn
  split
  · rw [ptBytes_eq, Wr.memcpy_eq h]
    rw [posn_length]; simp; omega
  · rw [wr_f64, wr_f64, ← Wr.bytes_append]; simp [Spec.posn]

theorem writePosn3_eq (p : Pt) (z) {w : Wr} (h : w.Ok) :
    writePosn3 p z w = w.bytes (Spec.posn false [p.x, p.y, z]) := by
  unfold writePosn3
  have e : ptBytes p ++ le64 z = Spec.posn false [p.x, p.y, z] := by
    simp [ptBytes, Spec.posn, le64_eq]
  split
  · rw [e, Wr.memcpy_eq h]
    rw [posn_length]; simp; omega
  · rw [wr_f64, wr_f64, wr_f64, ← Wr.bytes_append, ← Wr.bytes_append]; simp [Spec.posn]

theorem writePosn4_eq (p : Pt) (z m) {w : Wr} (h : w.Ok) :
    writePosn4 p z m w = w.bytes (Spec.posn false [p.x, p.y, z, m]) := by
  unfold writePosn4
  have e : ptBytes p ++ le64 z ++ le64 m = Spec.posn false [p.x, p.y, z, m] := by
    simp [ptBytes, Spec.posn, le64_eq]
  split
  · rw [e, Wr.memcpy_eq h]
    rw [posn_length]; simp; omega
  · rw [wr_f64, wr_f64, wr_f64, wr_f64, ← Wr.bytes_append, ← Wr.bytes_append, ← Wr.bytes_append]
    simp [Spec.posn]

theorem posns_length (k) (pts : List Pt) (cs) : (posns k pts cs).length = pts.length := by
  induction pts generalizing cs with
  | nil => rfl
  | cons p ps ih => simp [posns, ih]

theorem takePad_length (k cs) : (takePad k cs).length = k := by
  simp [takePad]; omega

theorem posns_bytes_length (k) (pts : List Pt) (cs) :
    ((posns k pts cs).flatMap (Spec.posn false)).length = pts.length * (8 * (k + 2)) := by
  induction pts generalizing cs with
  | nil => simp [posns]
  | cons p ps ih =>
    simp only [posns, List.flatMap_cons, List.length_append, ih, posn_length, takePad_length,
      List.length_cons, List.length_nil, Nat.add_mul]
    omega

theorem posns_zero_bytes (pts : List Pt) (cs) :
    (posns 0 pts cs).flatMap (Spec.posn false) = pts.flatMap ptBytes := by
  induction pts generalizing cs with
  | nil => rfl
  | cons p ps ih =>
    simp only [posns, List.flatMap_cons, ih, ptBytes_eq]
    simp [takePad]

theorem foldl_writePosn (pts : List Pt) {w : Wr} (h : w.Ok) :
    pts.foldl (fun w p => writePosn p w) w = w.bytes (pts.flatMap ptBytes) := by
  induction pts generalizing w with
  | nil => rfl
  | cons p ps ih =>
    rw [List.foldl_cons, writePosn_eq p h, ih (Wr.bytes_ok h _), ← ptBytes_eq, List.flatMap_cons,
      Wr.bytes_append]

theorem intOverflows_false {x : Nat} (h : x < 2^31) : intOverflows x = false := by
  unfold intOverflows; simp; omega

theorem writeRing_eq (pts : List Pt) {w : Wr} (h : w.Ok) (hs : pts.length * 16 < 2^31) :
    writeRing pts w = w.bytes (Spec.series false (posns 0 pts [])) := by
  unfold writeRing Spec.series
  simp only [intOverflows_false hs, Bool.false_eq_true, if_false]
  rw [wr_u32, posns_length, posns_zero_bytes, Wr.bytes_append]
  have hok := Wr.bytes_ok h (Spec.u32 false (BitVec.ofNat 32 pts.length))
  generalize w.bytes (Spec.u32 false (BitVec.ofNat 32 pts.length)) = w' at *
  have hl : (pts.flatMap ptBytes).length = pts.length * 16 := by
    rw [← posns_zero_bytes pts [], posns_bytes_length]
  split
  · rw [Wr.memcpy_eq hok]; rw [hl]; assumption
  · split
    · rw [← hl, Wr.skip_eq]; assumption
    · exact foldl_writePosn pts hok

theorem writeRing3Loop_eq (pts : List Pt) (cs) {w : Wr} (h : w.Ok) :
    writeRing3Loop pts cs w = w.bytes ((posns 1 pts cs).flatMap (Spec.posn false)) := by
  induction pts generalizing w cs with
  | nil => cases cs <;> rfl
  | cons p ps ih =>
    cases cs with
    | nil =>
      rw [writeRing3Loop, writePosn3_eq p _ h, ih _ (Wr.bytes_ok h _), ← Wr.bytes_append]
      simp [posns, takePad]
    | cons c cs =>
      rw [writeRing3Loop, writePosn3_eq p _ h, ih _ (Wr.bytes_ok h _), ← Wr.bytes_append]
      simp [posns, takePad]

theorem writeRing3_eq (pts : List Pt) (cs) {w : Wr} (h : w.Ok) (hs : pts.length * 24 < 2^31) :
    writeRing3 pts cs w = w.bytes (Spec.series false (posns 1 pts cs)) := by
  unfold writeRing3 Spec.series
  simp only [intOverflows_false hs, Bool.false_eq_true, if_false]
  rw [wr_u32, posns_length, Wr.bytes_append]
  have hok := Wr.bytes_ok h (Spec.u32 false (BitVec.ofNat 32 pts.length))
  generalize w.bytes (Spec.u32 false (BitVec.ofNat 32 pts.length)) = w' at *
  split
  · rw [← Wr.skip_eq, posns_bytes_length]; assumption
  · exact writeRing3Loop_eq pts cs hok

theorem writeRing4Loop_eq (pts : List Pt) (cs) {w : Wr} (h : w.Ok) :
    writeRing4Loop pts cs w = w.bytes ((posns 2 pts cs).flatMap (Spec.posn false)) := by
  induction pts generalizing w cs with
  | nil => cases cs <;> rfl
  | cons p ps ih =>
    match cs with
    | [] =>
      rw [writeRing4Loop, writePosn4_eq p _ _ h, ih _ (Wr.bytes_ok h _), ← Wr.bytes_append]
      simp [posns, takePad]
    | [c] =>
      rw [writeRing4Loop, writePosn4_eq p _ _ h, ih _ (Wr.bytes_ok h _), ← Wr.bytes_append]
      simp [posns, takePad]
    | c :: d :: cs =>
      rw [writeRing4Loop, writePosn4_eq p _ _ h, ih _ (Wr.bytes_ok h _), ← Wr.bytes_append]
      simp [posns, takePad]

theorem writeRing4_eq (pts : List Pt) (cs) {w : Wr} (h : w.Ok) (hs : pts.length * 32 < 2^31) :
    writeRing4 pts cs w = w.bytes (Spec.series false (posns 2 pts cs)) := by
  unfold writeRing4 Spec.series
  simp only [intOverflows_false hs, Bool.false_eq_true, if_false]
  rw [wr_u32, posns_length, Wr.bytes_append]
  have hok := Wr.bytes_ok h (Spec.u32 false (BitVec.ofNat 32 pts.length))
  generalize w.bytes (Spec.u32 false (BitVec.ofNat 32 pts.length)) = w' at *
  split
  · rw [← Wr.skip_eq, posns_bytes_length]; assumption
  · exact writeRing4Loop_eq pts cs hok

theorem posns_zero_cs (pts : List Pt) (cs cs') : posns 0 pts cs = posns 0 pts cs' := by
  induction pts generalizing cs cs' with
  | nil => rfl
  | cons p ps ih => simp [posns, takePad]; exact ih _ _

theorem writeRingD_eq (d : Nat) (hd : d = 2 ∨ d = 3 ∨ d = 4) (pts : List Pt) (cs) {w : Wr} (h : w.Ok)
    (hs : pts.length * (8 * d) < 2^31) :
    writeRingD d pts cs w = w.bytes (Spec.series false (posns (d - 2) pts cs)) := by
  unfold writeRingD
  rcases hd with rfl | rfl | rfl
  · simp only [show ¬ (2 = 3) by decide, show ¬ (2 = 4) by decide, if_false]
    rw [writeRing_eq pts h (by simpa using hs), posns_zero_cs pts [] cs]
  · simp only [if_true]
    exact writeRing3_eq pts cs h (by simpa using hs)
  · simp only [show ¬ (4 = 3) by decide, if_true, if_false]
    exact writeRing4_eq pts cs h (by simpa using hs)

theorem writeRings_eq (d : Nat) (hd : d = 2 ∨ d = 3 ∨ d = 4) (rs : List (List Pt)) (cs) {w : Wr}
    (h : w.Ok) (hs : ∀ r ∈ rs, r.length * (8 * d) < 2^31) :
    writeRings d rs cs w = w.bytes ((posnss (d - 2) rs cs).flatMap (Spec.series false)) := by
  induction rs generalizing w cs with
  | nil => rfl
  | cons r rs ih =>
    rw [writeRings, writeRingD_eq d hd r cs h (hs r (by simp)), ih _ (Wr.bytes_ok h _)
      (fun r hr => hs r (by simp [hr])), ← Wr.bytes_append]
    simp [posnss, advCoords]

theorem posnss_length (k) (rs : List (List Pt)) (cs) : (posnss k rs cs).length = rs.length := by
  induction rs generalizing cs with
  | nil => rfl
  | cons p ps ih => simp [posnss, ih]

theorem writePolyPoints_eq (d : Nat) (hd : d = 2 ∨ d = 3 ∨ d = 4) (pl : Poly) (cs) {w : Wr}
    (h : w.Ok) (hs : ∀ r ∈ rings pl, r.length * (8 * d) < 2^31) :
    writePolyPoints d pl cs w = w.bytes (Spec.u32 false (BitVec.ofNat 32 (rings pl).length) ++
      (posnss (d - 2) (rings pl) cs).flatMap (Spec.series false)) := by
  unfold writePolyPoints
  rw [wr_u32, Wr.bytes_append]
  rw [show rings pl = pl.ext :: pl.holes from rfl] at *
  rw [writeRings_eq d hd _ _ (Wr.bytes_ok h _) hs]
  simp [Nat.add_comm]

theorem dims_cases (z m) : dims z m = 2 ∨ dims z m = 3 ∨ dims z m = 4 := by
  cases z <;> cases m <;> simp [dims]

theorem writeMPoints_eq (fl : Flags) (ps : List Pt) (cs) {w : Wr} (h : w.Ok) :
    writeMPoints fl ps cs w =
      w.bytes ((posns (dims fl.hasZ fl.hasM - 2) ps cs).flatMap fun p =>
        header false none .point fl.hasZ fl.hasM ++ Spec.posn false p) := by
  induction ps generalizing w cs with
  | nil => cases cs <;> rfl
  | cons p ps ih =>
    rw [writeMPoints, writeWkbType_eq, dims_eq]
    have hok := Wr.bytes_ok h (header false none .point fl.hasZ fl.hasM)
    rcases dims_cases fl.hasZ fl.hasM with e | e | e
    · rw [e] at ih ⊢
      simp only [show ¬ (2 = 3) by decide, show ¬ (2 = 4) by decide, if_false]
      rw [writePosn_eq p hok, ih _ (Wr.bytes_ok hok _), ← Wr.bytes_append, ← Wr.bytes_append]
      simp [posns, takePad]
    · rw [e] at ih ⊢
      simp only [if_true]
      rw [writePosn3_eq p _ hok, ih _ (Wr.bytes_ok hok _), ← Wr.bytes_append, ← Wr.bytes_append]
      cases cs <;> simp [posns, takePad]
    · rw [e] at ih ⊢
      simp only [show ¬ (4 = 3) by decide, if_true, if_false]
      rw [writePosn4_eq p _ _ hok, ih _ (Wr.bytes_ok hok _), ← Wr.bytes_append, ← Wr.bytes_append]
      rcases cs with _ | ⟨c, _ | ⟨d, cs⟩⟩ <;> simp [posns, takePad]

theorem writeMLines_eq (fl : Flags) (ls : List (List Pt)) (cs) {w : Wr} (h : w.Ok)
    (hs : ∀ l ∈ ls, l.length * (8 * dims fl.hasZ fl.hasM) < 2^31) :
    writeMLines fl (ls.map some) cs w =
      w.bytes ((posnss (dims fl.hasZ fl.hasM - 2) ls cs).flatMap fun l =>
        header false none .linestring fl.hasZ fl.hasM ++ Spec.series false l) := by
  induction ls generalizing w cs with
  | nil => rfl
  | cons l ls ih =>
    rw [List.map_cons, writeMLines, writeWkbType_eq, dims_eq,
      writeRingD_eq _ (dims_cases _ _) _ _ (Wr.bytes_ok h _) (hs l (by simp)),
      ih _ (Wr.bytes_ok (Wr.bytes_ok h _) _) (fun r hr => hs r (by simp [hr])),
      ← Wr.bytes_append, ← Wr.bytes_append]
    simp [posnss, advCoords]

theorem npoints_eq (pl : Poly) : pl.npoints = ((rings pl).map List.length).sum := by
  simp [Poly.npoints, rings]

theorem writeMPolys_eq (fl : Flags) (ps : List Poly) (cs) {w : Wr} (h : w.Ok)
    (hs : ∀ p ∈ ps, ∀ r ∈ rings p, r.length * (8 * dims fl.hasZ fl.hasM) < 2^31) :
    writeMPolys fl (ps.map some) cs w =
      w.bytes ((posnsss (dims fl.hasZ fl.hasM - 2) (ps.map rings) cs).flatMap fun rs =>
        header false none .polygon fl.hasZ fl.hasM ++
          (Spec.u32 false (BitVec.ofNat 32 rs.length) ++ rs.flatMap (Spec.series false))) := by
  induction ps generalizing w cs with
  | nil => rfl
  | cons p ps ih =>
    rw [List.map_cons, writeMPolys, writeWkbType_eq, dims_eq,
      writePolyPoints_eq _ (dims_cases _ _) _ _ (Wr.bytes_ok h _) (hs p (by simp)),
      ih _ (Wr.bytes_ok (Wr.bytes_ok h _) _) (fun r hr => hs r (by simp [hr])),
      ← Wr.bytes_append, ← Wr.bytes_append]
    simp [posnsss, advCoords, npoints_eq, posnss_length]

theorem mapM_id_some {α : Type} (l : List (Option α)) (r : List α) (h : l.mapM id = some r) :
    l = r.map some := by
  induction l generalizing r with
  | nil => simp at h; subst h; rfl
  | cons a l ih =>
    simp only [List.mapM_cons, id, Option.bind_eq_bind, Option.pure_def] at h
    cases a with
    | none => simp at h
    | some a =>
      simp only [Option.bind_some] at h
      cases hl : l.mapM id with
      | none => simp [hl] at h
      | some l' =>
        simp [hl] at h
        subst h
        simp [ih l' hl]

theorem posnsss_length (k) (rs : List (List (List Pt))) (cs) : (posnsss k rs cs).length = rs.length := by
  induction rs generalizing cs with
  | nil => rfl
  | cons p ps ih => simp [posnsss, ih]

theorem posnss_mem (k) (rs : List (List Pt)) (cs) {P : Nat → Prop}
    (h : ∀ r ∈ posnss k rs cs, P r.length) : ∀ r ∈ rs, P r.length := by
  induction rs generalizing cs with
  | nil => simp
  | cons r rs ih =>
    intro x hx
    simp only [posnss, List.mem_cons, forall_eq_or_imp] at h
    rcases List.mem_cons.1 hx with rfl | hx
    · simpa [posns_length] using h.1
    · exact ih _ h.2 x hx

theorem posnsss_mem (k) (ps : List (List (List Pt))) (cs) {P : Nat → Prop}
    (h : ∀ p ∈ posnsss k ps cs, ∀ r ∈ p, P r.length) : ∀ p ∈ ps, ∀ r ∈ p, P r.length := by
  induction ps generalizing cs with
  | nil => simp
  | cons p ps ih =>
    intro x hx
    simp only [posnsss, List.mem_cons, forall_eq_or_imp] at h
    rcases List.mem_cons.1 hx with rfl | hx
    · exact posnss_mem _ _ _ h.1
    · exact ih _ h.2 x hx

mutual
/-- The writer emits the specified encoding of what the user sees. -/
theorem writeWkb_eq (g : Geom) (v : GV) (hv : view g = some v) (hf : Fits v) {w : Wr} (h : w.Ok) :
    writeWkb g w = w.bytes (encode v) := by
  match g with
  | .point fl p =>
    simp only [view] at hv
    split at hv
    · cases hv
    · rename_i hz
      simp at hz
      cases hv
      rw [writeWkb, writeWkbType_eq, writePosn_eq p (Wr.bytes_ok h _), ← Wr.bytes_append, encode, hz.1, hz.2]
  | .line fl pts =>
    simp only [view] at hv
    split at hv
    · cases hv
    · rename_i hz
      simp at hz
      cases hv
      simp only [Fits, posns_length, dims] at hf
      rw [writeWkb, writeWkbType_eq, writeRing_eq pts (Wr.bytes_ok h _) (by simpa using hf),
        ← Wr.bytes_append, encode, hz.1, hz.2]
  | .poly fl pl =>
    simp only [view] at hv
    split at hv
    · cases hv
    · rename_i hz
      simp at hz
      cases hv
      simp only [Fits] at hf
      have hf := posnss_mem (P := fun n => n * (8 * dims false false) < 2^31) _ _ _ hf
      rw [writeWkb, writeWkbType_eq, writePolyPoints_eq 2 (by simp) pl _ (Wr.bytes_ok h _) hf,
        ← Wr.bytes_append, encode, hz.1, hz.2, posnss_length]
  | .gpoint fl p z m x =>
    simp only [view] at hv
    rw [writeWkb, writeWkbType_eq]
    have hok := Wr.bytes_ok h (header false none .point fl.hasZ fl.hasM)
    split at hv
    · rename_i he
      split at hv
      · cases hv
      · rename_i hz
        simp at hz
        cases hv
        rw [he]
        simp only [if_true]
        rw [writePosn_eq _ hok, ← Wr.bytes_append, encode, hz.1, hz.2]
    · rename_i he
      cases hv
      simp only [he, Bool.false_eq_true, if_false, encode]
      cases hz : fl.hasZ <;> cases hm : fl.hasM <;> rw [hz, hm] at hok <;>
        simp only [Bool.false_eq_true, if_false, if_true]
      · rw [writePosn_eq _ hok, ← Wr.bytes_append]; simp
      · rw [writePosn3_eq _ _ hok, ← Wr.bytes_append]; simp
      · rw [writePosn3_eq _ _ hok, ← Wr.bytes_append]; simp
      · rw [writePosn4_eq _ _ _ hok, ← Wr.bytes_append]; simp
  | .gline fl l cs x =>
    simp only [view] at hv
    rw [writeWkb.eq_def]; dsimp only; rw [writeWkbType_eq]
    have hok := Wr.bytes_ok h (header false none .linestring fl.hasZ fl.hasM)
    split at hv
    · rename_i he
      cases hv
      simp only [he, if_true]
      rw [wr_u32, ← Wr.bytes_append, encode]
      simp [Spec.series]
    · rename_i he
      cases l with
      | none => cases hv
      | some pts =>
        cases hv
        simp only [Fits, posns_length] at hf
        simp only [he, Bool.false_eq_true, if_false]
        rw [dims_eq, writeRingD_eq _ (dims_cases _ _) _ _ hok hf, ← Wr.bytes_append, encode]
  | .gpoly fl p cs x =>
    simp only [view] at hv
    rw [writeWkb.eq_def]; dsimp only; rw [writeWkbType_eq]
    have hok := Wr.bytes_ok h (header false none .polygon fl.hasZ fl.hasM)
    split at hv
    · rename_i he
      cases hv
      simp only [he, if_true]
      rw [wr_u32, ← Wr.bytes_append, encode]
      simp
    · rename_i he
      cases p with
      | none => cases hv
      | some pl =>
        cases hv
        simp only [Fits] at hf
        have hf := posnss_mem (P := fun n => n * (8 * dims fl.hasZ fl.hasM) < 2^31) _ _ _ hf
        simp only [he, Bool.false_eq_true, if_false]
        rw [dims_eq, writePolyPoints_eq _ (dims_cases _ _) _ _ hok hf, ← Wr.bytes_append, encode,
          posnss_length]
  | .mpoint fl ps cs x =>
    simp only [view] at hv
    rw [writeWkb.eq_def]; dsimp only; rw [writeWkbType_eq]
    have hok := Wr.bytes_ok h (header false none .multipoint fl.hasZ fl.hasM)
    cases hv
    cases ps with
    | none =>
      simp only [Option.getD_none]
      rw [wr_u32, ← Wr.bytes_append, encode]
      simp [posns]
    | some ps =>
      simp only [Option.getD_some]
      cases he : fl.isEmpty
      · simp only [Bool.false_eq_true, if_false]
        rw [wr_u32, writeMPoints_eq _ _ _ (Wr.bytes_ok hok _), ← Wr.bytes_append,
          ← Wr.bytes_append, encode, posns_length]
      · simp only [if_true]
        rw [wr_u32, ← Wr.bytes_append, encode]
        simp
  | .mline fl ls cs x =>
    simp only [view] at hv
    rw [writeWkb.eq_def]; dsimp only; rw [writeWkbType_eq]
    have hok := Wr.bytes_ok h (header false none .multilinestring fl.hasZ fl.hasM)
    split at hv
    · rename_i he
      cases hv
      cases ls <;> simp only [he, if_true] <;> rw [wr_u32, ← Wr.bytes_append, encode] <;> simp
    · rename_i he
      split at hv
      · cases hv
      · rename_i ls' hls
        cases hv
        simp only [Fits] at hf
        have hf := posnss_mem (P := fun n => n * (8 * dims fl.hasZ fl.hasM) < 2^31) _ _ _ hf
        have := mapM_id_some _ _ hls
        cases ls with
        | none =>
          have : ls' = [] := by simpa using this
          subst this
          simp only []
          rw [wr_u32, ← Wr.bytes_append, encode]
          simp [posnss]
        | some ls =>
          simp only [Option.getD_some] at this
          subst this
          simp only [he, Bool.false_eq_true, if_false]
          rw [wr_u32, writeMLines_eq _ _ _ (Wr.bytes_ok hok _) hf, ← Wr.bytes_append,
            ← Wr.bytes_append, encode, posnss_length]
          simp
  | .mpoly fl ps cs x =>
    simp only [view] at hv
    rw [writeWkb.eq_def]; dsimp only; rw [writeWkbType_eq]
    have hok := Wr.bytes_ok h (header false none .multipolygon fl.hasZ fl.hasM)
    split at hv
    · rename_i he
      cases hv
      cases ps <;> simp only [he, if_true] <;> rw [wr_u32, ← Wr.bytes_append, encode] <;> simp
    · rename_i he
      split at hv
      · cases hv
      · rename_i ls' hls
        cases hv
        simp only [Fits] at hf
        have hf := posnsss_mem (P := fun n => n * (8 * dims fl.hasZ fl.hasM) < 2^31) _ _ _ hf
        have := mapM_id_some _ _ hls
        cases ps with
        | none =>
          have : ls' = [] := by simpa using this
          subst this
          simp only []
          rw [wr_u32, ← Wr.bytes_append, encode]
          simp [posnsss]
        | some ls =>
          simp only [Option.getD_some] at this
          subst this
          simp only [he, Bool.false_eq_true, if_false]
          rw [wr_u32, writeMPolys_eq _ _ _ (Wr.bytes_ok hok _) (fun p hp => hf _ (by simp; exact ⟨p, hp, rfl⟩)), ← Wr.bytes_append,
            ← Wr.bytes_append, encode, posnsss_length]
          simp
  | .coll fl hm gs cs x =>
    simp only [view] at hv
    rw [writeWkb, writeWkbType_eq]
    have hok := Wr.bytes_ok h (header false none .collection fl.hasZ fl.hasM)
    split at hv
    · cases hv
    · rename_i hz
      simp at hz
      rw [hz.1, hz.2] at hok ⊢
      split at hv
      · rename_i he
        cases hv
        simp only [he, if_true]
        rw [wr_u32, ← Wr.bytes_append, encode]
        simp [encodes]
      · rename_i he
        split at hv
        · cases hv
        · rename_i vs hvs
          cases hv
          simp only [Fits] at hf
          simp only [he, Bool.false_eq_true, if_false]
          have := writeWkbs_eq gs vs hvs hf (Wr.bytes_ok hok (Spec.u32 false (BitVec.ofNat 32 gs.length)))
          rw [wr_u32, this.1, ← Wr.bytes_append, ← Wr.bytes_append, encode, this.2]
  | .err _ => simp [view] at hv
/-- Children one after the other. -/
theorem writeWkbs_eq (gs : List Geom) (vs : List GV) (hv : views gs = some vs) (hf : Fitss vs)
    {w : Wr} (h : w.Ok) :
    writeWkbs gs w = w.bytes (encodes vs) ∧ gs.length = vs.length := by
  match gs with
  | [] =>
    simp only [views] at hv
    cases hv
    simp [writeWkbs, encodes]
  | g :: gs =>
    simp only [views] at hv
    split at hv
    · rename_i v vs' h1 h2
      cases hv
      simp only [Fitss] at hf
      rw [writeWkbs, writeWkb_eq g v h1 hf.1 h]
      have := writeWkbs_eq gs vs' h2 hf.2 (Wr.bytes_ok h (encode v))
      rw [this.1, ← Wr.bytes_append, encodes]
      simp [this.2]
    · cases hv
end

end Tg
