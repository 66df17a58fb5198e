import Verif.Lemmas.GeobinParse
/-!
`writeGeobin` emits a GeoBIN encoding of what the user sees, with the rectangle of the object in front.
-/
namespace Tg
open Spec Spec.Json

/-- The MBR section for a full rectangle. -/
def mbrBytes (F : FullRect) : List Byte :=
  BitVec.ofNat 8 F.dims :: ((F.min.list.take F.dims).flatMap (Spec.f64 false) ++ (F.max.list.take F.dims).flatMap (Spec.f64 false))

theorem foldl_f64 (l : List F64) (w : Wr) : l.foldl Wr.f64 w = w.bytes (l.flatMap (Spec.f64 false)) := by
  induction l generalizing w with
  | nil => rfl
  | cons x l ih => rw [List.foldl_cons, ih, wr_f64, List.flatMap_cons, Wr.bytes_append]

theorem writeMbr_eq (F : FullRect) (w : Wr) : writeMbr F w = w.bytes (mbrBytes F) := by
  unfold writeMbr mbrBytes
  dsimp only
  rw [foldl_f64, foldl_f64, ← Wr.bytes_append, Wr.bytes_cons]

theorem writeXjson_eq (x) (w : Wr) : writeXjson x w = w.bytes (xsection x) := by
  unfold writeXjson xsection
  rw [Wr.bytes_append]
  cases x <;> rfl

theorem fullrectOther_dims (P f fl cs) (h : f.dims = 2) : (fullrectOther P f fl cs).dims = fl.dims := by
  have h4 : fl.dims = 2 ∨ fl.dims = 3 ∨ fl.dims = 4 := by
    unfold Flags.dims
    cases fl.hasZ <;> cases fl.hasM <;> simp
  unfold fullrectOther
  dsimp only
  split
  · rename_i h3
    split <;> simp [h3]
  · split
    · rename_i h4
      split <;> simp [h4]
    · omega

theorem flags_dims (fl : Flags) : fl.dims = 2 ∨ fl.dims = 3 ∨ fl.dims = 4 := by
  unfold Flags.dims
  cases fl.hasZ <;> cases fl.hasM <;> simp

/-- The dimensions that occur. -/
def DimsOk (n : Nat) : Prop := n = 2 ∨ n = 3 ∨ n = 4

theorem fullrectStep_dims {P f g} (hf : DimsOk f.dims) : DimsOk (fullrectStep P f g).dims := by
  unfold fullrectStep DimsOk at *
  dsimp only
  repeat' split
  all_goals simp_all

theorem fullrectPoint_dims {f fl z m} (hf : DimsOk f.dims) : DimsOk (fullrectPoint f fl z m).dims := by
  unfold fullrectPoint DimsOk at *
  split
  · split <;> simp
  · split
    · simp
    · exact hf

theorem fullrects_dims {P} (gs : List Geom) {f} (hf : DimsOk f.dims) : DimsOk (fullrects P gs f).dims := by
  induction gs generalizing f with
  | nil => exact hf
  | cons g gs ih => exact ih (fullrectStep_dims hf)

theorem fullrect_dims (P) (g : Geom) : DimsOk (fullrect P g).dims := by
  have h2 : ∀ r, DimsOk (fullrect0 r).dims := fun r => .inl rfl
  have ho : ∀ r fl cs, DimsOk (fullrectOther P (fullrect0 r) fl cs).dims := fun r fl cs => by
    rw [fullrectOther_dims _ _ _ _ rfl]; exact flags_dims fl
  cases g with
  | point | line | poly | err => exact h2 _
  | gpoint => exact fullrectPoint_dims (h2 _)
  | gline | gpoly | mpoint | mline | mpoly => exact ho _ _ _
  | coll fl hm gs cs x =>
    rw [fullrect]
    split
    · exact fullrects_dims gs (h2 _)
    · exact ho _ _ _

theorem mbr_mbrBytes {F : FullRect} (h : DimsOk F.dims) : Mbr (mbrBytes F) := by
  refine ⟨F.min.list.take F.dims, F.max.list.take F.dims, by simp [V4.list], ?_, ?_⟩
  · rcases h with h | h | h <;> simp [h, V4.list]
  · rcases h with h | h | h <;> simp [mbrBytes, h, V4.list]

/-- Bytes in front of the JSON section are those of the object's rectangle. -/
def HasMbr (F : FullRect) (bs : List Byte) : Prop :=
  ∃ (h : Byte) (b : Byte) (rest : List Byte), (h = 2#8 ∨ h = 3#8 ∨ h = 4#8) ∧ bs = h :: (mbrBytes F ++ b :: rest)

theorem hasMbr_intro {F h x rest} (hh : h = 2#8 ∨ h = 3#8 ∨ h = 4#8) :
    HasMbr F (h :: (mbrBytes F ++ (xsection x ++ rest))) := by
  unfold xsection
  cases hx : x.getD [] with
  | nil => exact ⟨h, 0#8, rest, hh, rfl⟩
  | cons b l => exact ⟨h, b, l ++ 0#8 :: rest, hh, by simp⟩

/-- What the writer does with `g`, seen as `f`. -/
def Writes (P : Platform) (g : Geom) (f : FV) (bs : List Byte) : Prop :=
  (FFits f → ∀ w : Wr, w.Ok → writeGeobin P g w = w.bytes bs) ∧ (FValid f → GBin f bs) ∧
  ((∃ v, g.type = .point ∧ view g = some v ∧ f = .plain v none ∧ bs = encode v) ∨ HasMbr (fullrect P g) bs)

theorem view_point_type {g : Geom} {v} (ht : g.type = .point) (h : view g = some v) : ∃ z m p, v = .point z m p := by
  cases g <;> simp [Geom.type] at ht
  · simp only [view] at h; split at h
    · cases h
    · cases h; exact ⟨_, _, _, rfl⟩
  · simp only [view] at h; split at h
    · split at h
      · cases h
      · cases h; exact ⟨_, _, _, rfl⟩
    · cases h; exact ⟨_, _, _, rfl⟩
  · simp [view] at h

theorem encode_point_cons (z m p) : ∃ bs, encode (.point z m p) = 1#8 :: bs := by
  cases p <;> simp [encode, header]

/-- `write_base_geom_geobin` on something that is not a FeatureCollection. -/
theorem writeBase_writes {P g v f} (hv : view g = some v)
    (hw : ∀ w, writeGeobin P g w = writeBase P g w)
    (hf : f = if g.flags.isFeature then .feat v g.xjson else .plain v g.xjson) :
    ∃ bs, Writes P g f bs := by
  by_cases hc : (!g.flags.isFeature && g.type == .point && g.xjson == none) = true
  · have hc' := hc
    simp at hc'
    obtain ⟨⟨h1, h2⟩, h3⟩ := hc'
    rw [h1, h3] at hf
    simp at hf
    subst hf
    obtain ⟨z, m, p, rfl⟩ := view_point_type h2 hv
    refine ⟨encode (.point z m p), fun hfit w hok => ?_, fun hval => ?_, .inl ⟨_, h2, hv, rfl, rfl⟩⟩
    · rw [hw, writeBase, if_pos hc]
      exact writeWkb_eq g _ hv hfit hok
    · simp only [FValid] at hval
      have := enc_encode _ hval.1
      obtain ⟨bs, hb⟩ := encode_point_cons z m p
      rw [hb] at this ⊢
      exact .point _ _ _ _ this
  · refine ⟨(if g.flags.isFeature then 3#8 else 2#8) :: (mbrBytes (fullrect P g) ++ (xsection g.xjson ++ encode v)),
      fun hfit w hok => ?_, fun hval => ?_, .inr (hasMbr_intro (by split <;> simp))⟩
    · have hfit' : Fits v := by subst hf; split at hfit <;> exact hfit
      rw [hw, writeBase, if_neg hc]
      dsimp only
      rw [writeMbr_eq, writeXjson_eq, writeWkb_eq g v hv hfit' (Wr.bytes_ok (Wr.bytes_ok (Wr.byte_ok hok _) _) _),
        ← Wr.bytes_append, ← Wr.bytes_append, Wr.bytes_cons]
    · subst hf
      split at hval
      · simp only [FValid] at hval
        rename_i h
        simp only [h, if_true]
        exact .feat _ _ _ _ (mbr_mbrBytes (fullrect_dims P g)) (enc_encode v hval.1)
      · simp only [FValid] at hval
        rename_i h
        simp only [h]
        exact .geom _ _ _ _ (mbr_mbrBytes (fullrect_dims P g)) (enc_encode v hval.1)

/-- `write_line_geobin` and the like. -/
theorem writeBaseObj_writes {P g v} (hv : view g = some v)
    (hw : ∀ w, writeGeobin P g w = writeBaseObj P g w) (hF : fullrect P g = fullrect0 (geomRect P g)) :
    ∃ bs, Writes P g (.plain v none) bs := by
  refine ⟨2#8 :: (mbrBytes (fullrect P g) ++ (xsection none ++ encode v)), fun hfit w hok => ?_, fun hval => ?_,
    .inr (hasMbr_intro (.inl rfl))⟩
  · have e : ∀ w : Wr, writeRect (geomRect P g) w = w.bytes (mbrBytes (fullrect P g)) := by
      intro w
      rw [hF]
      unfold writeRect mbrBytes fullrect0 V4.list
      dsimp only
      rw [wr_f64, wr_f64, wr_f64, wr_f64, ← Wr.bytes_append, ← Wr.bytes_append, ← Wr.bytes_append, Wr.bytes_cons]
      simp
    rw [hw, writeBaseObj, e]
    have e2 : ∀ w : Wr, w.byte 0#8 = w.bytes (xsection none) := fun w => rfl
    rw [e2, writeWkb_eq g v hv hfit (Wr.bytes_ok (Wr.bytes_ok (Wr.byte_ok hok _) _) _), ← Wr.bytes_append,
      ← Wr.bytes_append, Wr.bytes_cons]
  · simp only [FValid] at hval
    exact .geom _ _ _ _ (mbr_mbrBytes (fullrect_dims P g)) (enc_encode v hval.1)

theorem fview_mk {g : Geom} {x fl f} (h : (view g).bind (fview.mk fl x) = some f) :
    ∃ v, view g = some v ∧ fl.isFeatureCol = false ∧ f = if fl.isFeature then .feat v x else .plain v x := by
  cases hv : view g with
  | none => rw [hv] at h; cases h
  | some v =>
    rw [hv] at h
    simp only [Option.bind_some, fview.mk] at h
    split at h
    · cases h
    · rename_i hc
      cases h
      exact ⟨v, rfl, by simpa using hc, rfl⟩

theorem ffits_all {fs} : FFitss fs ↔ ∀ f ∈ fs, FFits f := by
  induction fs with
  | nil => simp [FFitss]
  | cons f fs ih => simp [FFitss, ih]

mutual
theorem writeGeobin_writes (P : Platform) : ∀ g f, fview g = some f → ∃ bs, Writes P g f bs
  | .point fl p, f, h => by
    rw [fview] at h
    obtain ⟨v, hv, hc, hf⟩ := fview_mk h
    cases hfe : fl.isFeature with
    | true => exact writeBase_writes hv (fun w => by rw [writeGeobin, if_pos hfe, if_neg (by simp [hc])]) hf
    | false =>
      rw [hfe] at hf
      simp at hf
      subst hf
      obtain ⟨z, m, p', rfl⟩ := view_point_type rfl hv
      refine ⟨encode (.point z m p'), fun hfit w hok => ?_, fun hval => ?_, .inl ⟨_, rfl, hv, rfl, rfl⟩⟩
      · rw [writeGeobin, if_neg (by simp [hfe])]
        exact writeWkb_eq _ _ hv hfit hok
      · simp only [FValid] at hval
        have := enc_encode _ hval.1
        obtain ⟨bs, hb⟩ := encode_point_cons z m p'
        rw [hb] at this ⊢
        exact .point _ _ _ _ this
  | .line fl p, f, h => by
    rw [fview] at h
    obtain ⟨v, hv, hc, hf⟩ := fview_mk h
    cases hfe : fl.isFeature with
    | true => exact writeBase_writes hv (fun w => by rw [writeGeobin, if_pos hfe, if_neg (by simp [hc])]) hf
    | false =>
      rw [hfe] at hf
      simp at hf
      subst hf
      exact writeBaseObj_writes hv (fun w => by rw [writeGeobin, if_neg (by simp [hfe])]) (by rw [fullrect])
  | .poly fl p, f, h => by
    rw [fview] at h
    obtain ⟨v, hv, hc, hf⟩ := fview_mk h
    cases hfe : fl.isFeature with
    | true => exact writeBase_writes hv (fun w => by rw [writeGeobin, if_pos hfe, if_neg (by simp [hc])]) hf
    | false =>
      rw [hfe] at hf
      simp at hf
      subst hf
      exact writeBaseObj_writes hv (fun w => by rw [writeGeobin, if_neg (by simp [hfe])]) (by rw [fullrect])
  | .gpoint fl p z m x, f, h => by
    rw [fview] at h
    obtain ⟨v, hv, hc, hf⟩ := fview_mk h
    exact writeBase_writes hv (fun w => by rw [writeGeobin, if_neg (by simp [hc])]) hf
  | .gline fl l c x, f, h => by
    rw [fview] at h
    obtain ⟨v, hv, hc, hf⟩ := fview_mk h
    exact writeBase_writes hv (fun w => by rw [writeGeobin, if_neg (by simp [hc])]) hf
  | .gpoly fl l c x, f, h => by
    rw [fview] at h
    obtain ⟨v, hv, hc, hf⟩ := fview_mk h
    exact writeBase_writes hv (fun w => by rw [writeGeobin, if_neg (by simp [hc])]) hf
  | .mpoint fl l c x, f, h => by
    rw [fview] at h
    obtain ⟨v, hv, hc, hf⟩ := fview_mk h
    exact writeBase_writes hv (fun w => by rw [writeGeobin, if_neg (by simp [hc])]) hf
  | .mline fl l c x, f, h => by
    rw [fview] at h
    obtain ⟨v, hv, hc, hf⟩ := fview_mk h
    exact writeBase_writes hv (fun w => by rw [writeGeobin, if_neg (by simp [hc])]) hf
  | .mpoly fl l c x, f, h => by
    rw [fview] at h
    obtain ⟨v, hv, hc, hf⟩ := fview_mk h
    exact writeBase_writes hv (fun w => by rw [writeGeobin, if_neg (by simp [hc])]) hf
  | .err e, f, h => by simp [fview] at h
  | .coll fl hm gs cs x, f, h => by
    rw [fview] at h
    by_cases hc : fl.isFeatureCol = true
    · rw [if_pos hc] at h
      split at h
      · cases h
      · have hhead : ∀ n (w : Wr), writeFcHead P (.coll fl hm gs cs x) n w =
            w.bytes (4#8 :: (mbrBytes (fullrect P (.coll fl hm gs cs x)) ++ (xsection x ++ Spec.u32 false (BitVec.ofNat 32 n)))) := by
          intro n w
          rw [writeFcHead, writeMbr_eq, writeXjson_eq, wr_u32, ← Wr.bytes_append, ← Wr.bytes_append, Wr.bytes_cons]
          rfl
        split at h
        · rename_i hhm
          cases hvs : fviews gs with
          | none => rw [hvs] at h; cases h
          | some fs =>
            rw [hvs] at h
            cases h
            obtain ⟨bs, h1, h2, hlen⟩ := writeGeobins_writes P gs fs hvs
            refine ⟨4#8 :: (mbrBytes (fullrect P (.coll fl hm gs cs x)) ++ (xsection x ++
              (Spec.u32 false (BitVec.ofNat 32 fs.length) ++ bs))), fun hfit w hok => ?_, fun hval => ?_, .inr (hasMbr_intro (by simp))⟩
            · rw [writeGeobin, if_pos hc, if_pos hhm, hhead, h1 hfit _ (Wr.bytes_ok hok _), ← Wr.bytes_append, hlen]
              simp
            · simp only [FValid] at hval
              exact .fcol _ _ _ _ (mbr_mbrBytes (fullrect_dims P _)) (h2 hval.2.2)
        · rename_i hhm
          cases h
          refine ⟨4#8 :: (mbrBytes (fullrect P (.coll fl hm gs cs x)) ++ (xsection x ++
              (Spec.u32 false (BitVec.ofNat 32 0) ++ []))), fun hfit w hok => ?_, fun hval => ?_, .inr (hasMbr_intro (by simp))⟩
          · rw [writeGeobin, if_pos hc, if_neg hhm, hhead]
            simp
          · exact .fcol [] _ _ _ (mbr_mbrBytes (fullrect_dims P _)) .nil
    · rw [if_neg hc] at h
      cases hv : view (.coll fl hm gs cs x) with
      | none => rw [hv] at h; cases h
      | some v =>
        rw [hv] at h
        simp only [Option.map_some, Option.some.injEq] at h
        exact writeBase_writes hv (fun w => by rw [writeGeobin, if_neg hc]) h.symm
theorem writeGeobins_writes (P : Platform) : ∀ gs fs, fviews gs = some fs →
    ∃ bs, (FFitss fs → ∀ w : Wr, w.Ok → writeGeobins P gs w = w.bytes bs) ∧ (FValids fs → GBins fs bs) ∧ gs.length = fs.length
  | [], fs, h => by
    rw [fviews] at h
    cases h
    exact ⟨[], fun _ w _ => rfl, fun _ => .nil, rfl⟩
  | g :: gs, fs, h => by
    rw [fviews] at h
    split at h
    · rename_i f fs' h1 h2
      cases h
      obtain ⟨b, a1, a2, -⟩ := writeGeobin_writes P g f h1
      obtain ⟨bs, b1, b2, b3⟩ := writeGeobins_writes P gs fs' h2
      refine ⟨b ++ bs, fun hfit w hok => ?_, fun hval => .cons _ _ _ _ (a2 hval.1) (b2 hval.2), by simp [b3]⟩
      simp only [FFitss] at hfit
      rw [writeGeobins, a1 hfit.1 w hok, b1 hfit.2 _ (Wr.bytes_ok hok _), Wr.bytes_append]
    · cases h
end

mutual
theorem fvalid_fits : ∀ f, FValid f → FFits f
  | .plain v x, h => by simp only [FValid] at h; simp only [FFits]; exact valid_fits v h.1
  | .feat v x, h => by simp only [FValid] at h; simp only [FFits]; exact valid_fits v h.1
  | .fcol fs x, h => by simp only [FValid] at h; simp only [FFits]; exact fvalids_fits fs h.2.2
theorem fvalids_fits : ∀ fs, FValids fs → FFitss fs
  | [], _ => by simp only [FFitss]
  | f :: fs, h => by simp only [FValids] at h; simp only [FFitss]; exact ⟨fvalid_fits f h.1, fvalids_fits fs h.2⟩
end

end Tg
