import Verif.Lemmas.WkbTop
import Verif.Lemmas.JsonText
import Verif.Lemmas.JsonNul
import Verif.Spec.Geobin
/-!
`parseGeobin` inverts every GeoBIN encoding of a valid object.
-/
namespace Tg
open Spec Spec.Json

mutual
/-- The object built by the parser for `f`. -/
def fbuild : FV → Geom
  | .plain v x => finishGeobin 2#8 (x.getD []) (build v)
  | .feat v x => finishGeobin 3#8 (x.getD []) (build v)
  | .fcol fs x => finishGeobin 4#8 (x.getD []) (.coll { isFeatureCol := true } true (fbuilds fs) [] none)
/-- The objects built for a list of features. -/
def fbuilds : List FV → List Geom
  | [] => []
  | f :: fs => fbuild f :: fbuilds fs
end

theorem text_ne_nil {d} (h : Text TgStr d) : d ≠ [] := by
  obtain ⟨w, v, w', h1, h2, h3, rfl⟩ := h
  obtain ⟨b, t, rfl, _⟩ := Json.val_head h2
  simp

theorem xok_ne {x} (h : XOk x) : x ≠ some [] := fun e => text_ne_nil (h _ e) rfl

/-! ### What is seen of the built object -/

/-- No marks and no JSON. -/
def PlainG (g : Geom) : Prop :=
  g.flags.isFeature = false ∧ g.flags.isFeatureCol = false ∧ g.xjson = none

theorem plain_build (v : GV) : PlainG (build v) := by
  unfold PlainG
  cases v with
  | point z m p => cases p <;> cases z <;> cases m <;> exact ⟨rfl, rfl, rfl⟩
  | line z m ps =>
    simp only [build, buildLine]
    split
    · exact ⟨rfl, rfl, rfl⟩
    · split <;> exact ⟨rfl, rfl, rfl⟩
  | poly z m ps =>
    simp only [build, buildPoly]
    split
    · exact ⟨rfl, rfl, rfl⟩
    · split <;> exact ⟨rfl, rfl, rfl⟩
  | mpoint | mline | mpoly | coll => exact ⟨rfl, rfl, rfl⟩

theorem fview_finish {g v} {x : Option (List Byte)} (hp : PlainG g) (hv : view g = some v) (hx : x ≠ some []) :
    fview (finishGeobin 2#8 (x.getD []) g) = some (.plain v x) ∧
    fview (finishGeobin 3#8 (x.getD []) g) = some (.feat v x) := by
  obtain ⟨h1, h2, h3⟩ := hp
  cases x with
  | none =>
    cases g <;> simp_all [finishGeobin, Geom.flags, Geom.xjson, fview, fview.mk, wrapGeom, Geom.mapFlags, view, dims]
  | some x =>
    have hx : x ≠ [] := by rintro rfl; exact hx rfl
    cases g <;> simp_all [finishGeobin, Geom.flags, Geom.xjson, fview, fview.mk, wrapGeom, Geom.mapFlags, Geom.setXjson, view, dims]

mutual
theorem fview_fbuild : ∀ f, FValid f → fview (fbuild f) = some f
  | .plain v x, h => by
    simp only [FValid] at h
    rw [fbuild]; exact (fview_finish (plain_build v) (view_build v h.1) (xok_ne h.2)).1
  | .feat v x, h => by
    simp only [FValid] at h
    rw [fbuild]; exact (fview_finish (plain_build v) (view_build v h.1) (xok_ne h.2)).2
  | .fcol fs x, h => by
    simp only [FValid] at h
    have := xok_ne h.2.1
    have ih := fviews_fbuilds fs h.2.2
    rw [fbuild]
    cases x with
    | none => simp [finishGeobin, fview, ih]
    | some x =>
      have : x ≠ [] := by rintro rfl; exact this rfl
      simp [finishGeobin, fview, ih, this, wrapGeom, Geom.setXjson]
theorem fviews_fbuilds : ∀ fs, FValids fs → fviews (fbuilds fs) = some fs
  | [], _ => rfl
  | f :: fs, h => by
    simp only [FValids] at h
    simp [fbuilds, fviews, fview_fbuild f h.1, fviews_fbuilds fs h.2]
end

/-! ### Parsing -/

theorem takeWhile_nul {x rest : List Byte} (h : NoNul x) : (x ++ 0#8 :: rest).takeWhile (· ≠ 0#8) = x := by
  induction x with
  | nil => simp
  | cons b x ih =>
    have hb := h b (by simp)
    rw [List.cons_append, List.takeWhile_cons, if_pos (by simpa using hb), ih fun c hc => h c (by simp [hc])]

theorem parseGeobinJson_at {child wkb head data i x body rest} (hx : XOk x) (hb : 0 < body.length)
    (hd : data.drop i = xsection x ++ (body ++ rest)) :
    parseGeobinJson child wkb head data i =
      parseGeobinTail child wkb head (x.getD []) data (i + (xsection x).length) := by
  have hn : NoNul (x.getD []) := by
    cases x with
    | none => exact .nil
    | some x => exact text_noNul (hx x rfl)
  have hl := drop_len hd (by simp [xsection])
  have ht : (data.drop i).takeWhile (· ≠ 0#8) = x.getD [] := by
    rw [hd, xsection, List.append_assoc]; exact takeWhile_nul hn
  unfold parseGeobinJson
  rw [ht]
  simp only [xsection, List.length_append, List.length_singleton] at hl ⊢
  have hlt : i + (x.getD []).length < data.length := by omega
  rw [if_pos hlt, if_neg (by omega)]
  cases x with
  | none => simp
  | some x =>
    have h1 := text_ne_nil (hx x rfl)
    have h2 := (Json.jsonValidn_iff x).2 (hx x rfl)
    simp [h1, h2, Nat.add_assoc]

theorem flatMap_f64_length (l : List F64) : (l.flatMap (Spec.f64 false)).length = 8 * l.length :=
  posn_length false l

theorem parseGeobinMbr_at {child wkb data i mbr x body rest} {head : Byte} (hh : head = 2#8 ∨ head = 3#8 ∨ head = 4#8)
    (hm : Mbr mbr) (hx : XOk x) (hb : 0 < body.length) (hd : data.drop i = mbr ++ (xsection x ++ (body ++ rest))) :
    parseGeobinMbr child wkb head data i =
      parseGeobinTail child wkb head (x.getD []) data (i + mbr.length + (xsection x).length) := by
  obtain ⟨lo, hi, hlen, hmem, rfl⟩ := hm
  have h1 := drop_adv hd
  have hl := drop_len hd (by simp)
  unfold parseGeobinMbr
  rw [if_neg (by rcases hh with rfl | rfl | rfl <;> decide), if_neg (by simp at hl; omega), hd]
  simp only [List.length_cons, List.length_append, flatMap_f64_length, List.cons_append] at h1 hl ⊢
  have hdn : (BitVec.ofNat 8 lo.length).toNat = lo.length := by
    simp at hmem; rcases hmem with h | h | h | h <;> rw [h] <;> rfl
  rw [hdn]
  have key := parseGeobinJson_at (child := child) (wkb := wkb) (head := head) hx hb h1
  simp only [List.mem_cons, List.not_mem_nil, or_false] at hmem
  by_cases h0 : lo.length = 0
  · have h0' : hi.length = 0 := by omega
    simp only [h0, h0'] at key ⊢
    simpa using key
  · rw [if_pos h0, if_neg (by omega), if_neg (by have := body.length; omega)]
    rw [← key]
    congr 1
    omega

theorem parseGeobin_at {data i mbr x body rest r} {head : Byte} (hh : head = 2#8 ∨ head = 3#8 ∨ head = 4#8)
    (hm : Mbr mbr) (hx : XOk x) (hb : 0 < body.length)
    (hd : data.drop i = (head :: (mbr ++ (xsection x ++ body))) ++ rest) :
    parseGeobin (r + 1) data i =
      parseGeobinTail (parseGeobin r data) (parseWkb (r + 1) data) head (x.getD []) data
        (i + (1 + mbr.length + (xsection x).length)) ∧
    data.drop (i + (1 + mbr.length + (xsection x).length)) = body ++ rest := by
  have hl := drop_len hd (by simp)
  have h1 : data.drop (i + 1) = mbr ++ (xsection x ++ (body ++ rest)) := by
    have := drop_adv (a := [head]) (rest := mbr ++ (xsection x ++ (body ++ rest))) (by simpa using hd)
    simpa using this
  constructor
  · rw [parseGeobin, if_neg (by simp at hl; omega), hd]
    simp only [List.cons_append]
    rw [if_neg (by rcases hh with rfl | rfl | rfl <;> decide), parseGeobinMbr_at hh hm hx hb h1]
    congr 1
    omega
  · have h2 := drop_adv (drop_adv h1)
    rw [← h2]
    congr 1
    omega

/-- What is proved of a single encoded object. -/
def GParsesAt (f : FV) (bs : List Byte) : Prop :=
  FValid f → ∀ r data i rest, data.drop i = bs ++ rest →
    (fheight f < r → parseGeobin r data i = .ok (i + bs.length) (fbuild f)) ∧
    (r ≤ fheight f → ∃ e, parseGeobin r data i = .fail none e)

/-- The same for consecutive objects. -/
def GParsesAllAt (fs : List FV) (bs : List Byte) : Prop :=
  FValids fs → ∀ r data i rest, data.drop i = bs ++ rest →
    (fheights fs ≤ r → featLoop (parseGeobin r data) fs.length i = .ok (i + bs.length) (fbuilds fs)) ∧
    (r < fheights fs → ∃ e, featLoop (parseGeobin r data) fs.length i = .fail none e)

theorem gparsesAll_cons {f fs b bs} (h1 : GParsesAt f b) (h2 : GParsesAllAt fs bs) :
    GParsesAllAt (f :: fs) (b ++ bs) := by
  intro hv r data i rest hd
  rw [List.append_assoc] at hd
  obtain ⟨a1, a2⟩ := h1 hv.1 r data i _ hd
  obtain ⟨b1, b2⟩ := h2 hv.2 r data _ _ (drop_adv hd)
  simp only [List.length_cons, featLoop, fheights]
  by_cases hh : fheight f < r
  · rw [a1 hh]
    dsimp only
    constructor
    · intro hle
      rw [b1 (by omega)]
      simp [fbuilds, List.length_append, Nat.add_assoc]
    · intro hlt
      obtain ⟨e, hf⟩ := b2 (by omega)
      rw [hf]
      exact ⟨e, rfl⟩
  · constructor
    · intro hle; omega
    · intro _
      obtain ⟨e, hf⟩ := a2 (by omega)
      rw [hf]
      exact ⟨e, rfl⟩

theorem gparses_wkb {v bs mbr x} {head : Byte} (f : FV) (hh : head = 2#8 ∨ head = 3#8)
    (hf : FValid f → Valid v ∧ XOk x) (hb : fbuild f = finishGeobin head (x.getD []) (build v)) (hht : fheight f = height v)
    (hm : Mbr mbr) (he : Enc v bs) : GParsesAt f (head :: (mbr ++ (xsection x ++ bs))) := by
  intro hv r data i rest hd
  obtain ⟨hv, hx⟩ := hf hv
  cases r with
  | zero => exact ⟨fun h => absurd h (by omega), fun _ => ⟨_, rfl⟩⟩
  | succ r =>
    have hh' : head = 2#8 ∨ head = 3#8 ∨ head = 4#8 := by rcases hh with h | h <;> simp [h]
    obtain ⟨e1, e2⟩ := parseGeobin_at (r := r) hh' hm hx (enc_pos he) hd
    obtain ⟨p1, p2⟩ := parse_enc he hv (r + 1) data _ _ e2
    have h4 : ¬ head = 4#8 := by rcases hh with rfl | rfl <;> decide
    rw [e1, parseGeobinTail, if_neg h4]
    constructor
    · intro h
      rw [p1 (by omega)]
      dsimp only
      rw [hb]
      congr 1
      simp
      omega
    · intro h
      obtain ⟨e, hf⟩ := p2 (by omega)
      rw [hf]
      exact ⟨e, rfl⟩

mutual
/-- Every encoding of a valid object parses to the canonical object. -/
theorem parse_gbin {f bs} (h : GBin f bs) : GParsesAt f bs := by
  match h with
  | .point z m p bs he =>
    intro hv r data i rest hd
    simp only [FValid] at hv
    cases r with
    | zero => exact ⟨fun h => absurd h (by omega), fun _ => ⟨_, rfl⟩⟩
    | succ r =>
      have hl := drop_len hd (by simp)
      have hp := (parse_enc he hv.1 (r + 1) data i rest hd)
      have : fbuild (.plain (.point z m p) none) = build (.point z m p) := by
        rw [fbuild]; simp [finishGeobin]
      rw [this]
      rw [parseGeobin, if_neg (by simp at hl; omega), hd]
      exact hp
  | .geom v x mbr bs hm he =>
    exact gparses_wkb _ (.inl rfl) (fun h => h) (by rw [fbuild]) (by rw [fheight]) hm he
  | .feat v x mbr bs hm he =>
    exact gparses_wkb _ (.inr rfl) (fun h => h) (by rw [fbuild]) (by rw [fheight]) hm he
  | .fcol fs x mbr bs hm he =>
    intro hv r data i rest hd
    simp only [FValid] at hv
    cases r with
    | zero => exact ⟨fun h => absurd h (by omega), fun _ => ⟨_, rfl⟩⟩
    | succ r =>
      obtain ⟨e1, e2⟩ := parseGeobin_at (r := r) (.inr (.inr rfl)) hm hv.2.1 (by simp [u32_length]) hd
      rw [List.append_assoc] at e2
      have e3 := drop_adv e2
      rw [u32_length] at e3
      obtain ⟨p1, p2⟩ := parse_gbins he hv.2.2 r data _ _ e3
      have hn : (BitVec.ofNat 32 fs.length).toNat = fs.length := by
        rw [BitVec.toNat_ofNat]; exact Nat.mod_eq_of_lt (by omega)
      rw [e1, parseGeobinTail, if_pos rfl, parseFc, readU32_at e2, hn, fheight]
      constructor
      · intro h
        rw [p1 (by omega)]
        dsimp only
        rw [fbuild]
        congr 1
        simp [u32_length]
        omega
      · intro h
        obtain ⟨e, hf⟩ := p2 (by omega)
        rw [hf]
        exact ⟨e, rfl⟩
theorem parse_gbins {fs bs} (h : GBins fs bs) : GParsesAllAt fs bs := by
  match h with
  | .nil =>
    intro _ r data i rest hd
    exact ⟨fun _ => rfl, fun h => by simp [fheights] at h⟩
  | .cons f fs b bs h1 h2 => exact gparsesAll_cons (parse_gbin h1) (parse_gbins h2)
end

theorem tgParseGeobin_gbin {f bs} (he : GBin f bs) (hv : FValid f) (hh : fheight f ≤ 1024) (rest) :
    tgParseGeobin (bs ++ rest) = .geom (fbuild f) := by
  unfold tgParseGeobin
  rw [(parse_gbin he hv (MAXDEPTH + 1) (bs ++ rest) 0 rest (by simp)).1 (by unfold MAXDEPTH; omega)]

theorem tgParseGeobin_deep {f bs} (he : GBin f bs) (hv : FValid f) (hh : 1024 < fheight f) (rest) :
    ∃ e, tgParseGeobin (bs ++ rest) = .error e := by
  unfold tgParseGeobin
  obtain ⟨e, h⟩ := (parse_gbin he hv (MAXDEPTH + 1) (bs ++ rest) 0 rest (by simp)).2
    (by unfold MAXDEPTH; omega)
  rw [h]
  exact ⟨_, rfl⟩

end Tg
