import Verif.Lemmas.GeojsonWhole
/-! Features. -/
set_option linter.unusedSectionVars false
namespace Tg.Gp
open Json
open Wp (P Base checkBase dimFlags polyOf showBytes Safe bind_ok safe_ok safe_err)
open Spec.Json (Ws Val Elems Mems Chr Chrs Str Utf8 HexDigit IsNumber)
open Spec.Geojson (Items IsArr Pairs Spells Named Member TypeObj others extraText IsGeometry AreGeometries Keeps KeepAll ZFirst ZFirsts reread rereads Once FeatureMembers IsFeature IsFeatures shown kept both withExtra FeatureKeeps CollectionKeeps)
open Spec (view views posOk dims eachAfter join bracket)
open Spec.Wkt (LineWf RingWf Wf Wfs)

variable {sd : List Byte → F64 × Nat}

theorem kept_cons_pos {m : List Byte × List Byte} (h : ¬ Named m.1 "type" ∧ ¬ Named m.1 "geometry" ∧ ¬ (Named m.1 "properties" ∧ (m.2 = txt "null" ∨ Spec.Geojson.IsObj [] m.2))) (ms : List (List Byte × List Byte)) :
    kept (m :: ms) = m :: kept ms := by
  unfold kept
  rw [List.filter_cons_of_pos]
  simpa using h
theorem kept_cons_neg {m : List Byte × List Byte} (h : ¬ (¬ Named m.1 "type" ∧ ¬ Named m.1 "geometry" ∧ ¬ (Named m.1 "properties" ∧ (m.2 = txt "null" ∨ Spec.Geojson.IsObj [] m.2)))) (ms : List (List Byte × List Byte)) :
    kept (m :: ms) = kept ms := by
  unfold kept
  rw [List.filter_cons_of_neg]
  simpa using h
theorem kept_append (a b : List (List Byte × List Byte)) : kept (a ++ b) = kept a ++ kept b := by
  unfold kept; rw [List.filter_append]
theorem kept_mem {m : List Byte × List Byte} {ms : List (List Byte × List Byte)} (h : m ∈ kept ms) : m ∈ ms := (List.mem_filter.1 h).1

theorem null_type {j : Option J} {r : List Byte} (h : Here j (txt "null") r) : jtype j = .null := by
  rw [jtype, h.head (b := 0x6E#8) (t := txt "ull") rfl]; decide

theorem str_type {j : Option J} {v r : List Byte} (hv : Str v) (h : Here j v r) : jtype j = .string := by
  obtain ⟨cs, -, rfl⟩ := hv
  rw [jtype, h.head rfl]; decide

theorem null_not_obj {ms : List (List Byte × List Byte)} : ¬ Spec.Geojson.IsObj ms (txt "null") := by
  rintro ⟨-, l, -, e⟩
  rw [show txt "null" = [0x6E#8, 0x75#8, 0x6C#8, 0x6C#8] from by decide] at e
  cases e

/-- Whether an object has members. -/
theorem obj_first {ms : List (List Byte × List Byte)} {t r : List Byte} (h : Spec.Geojson.IsObj ms t) {j : Option J} (hj : Here j t r) : (first j).isSome = true ↔ ms ≠ [] := by
  have hp := obj_pairs h hj
  unfold pairs at hp
  cases hf : first j with
  | none => rw [hf, pairsLoop] at hp; cases hp; simp
  | some k => rw [hf, pairsLoop] at hp; cases hp; simp

/-- Two readings of one object have the same members. -/
theorem obj_same {ms ms' : List (List Byte × List Byte)} {t r : List Byte} (h : Spec.Geojson.IsObj ms t) (h' : Spec.Geojson.IsObj ms' t) {j : Option J} (hj : Here j t r) : ms = [] ↔ ms' = [] := by
  rw [← not_iff_not, ← ne_eq, ← ne_eq, ← obj_first h hj, obj_first h' hj]

open Classical in
/-- The loop over members of a Feature that are not the geometry. -/
theorem take_feature {ps : List (Option J × Option J)} {ms : List (List Byte × List Byte)} (h : List.Forall₂ IsMem ps ms) (hs : ∀ m ∈ ms, Str m.1) (hn : ∀ m ∈ ms, ¬ Named m.1 "geometry")
    (hf : FeatureMembers ms) : ∀ a : Acc, (a.hasProps = true → ∀ m ∈ ms, ¬ Named m.1 "properties") → (a.hasId = true → ∀ m ∈ ms, ¬ Named m.1 "id") →
    takeLoop "geometry" a ps = .ok ⟨a.target, a.nullProps || decide (∃ m ∈ ms, Named m.1 "properties" ∧ m.2 = txt "null"), a.hasProps || decide (∃ m ∈ ms, Named m.1 "properties"),
      a.hasId || decide (∃ m ∈ ms, Named m.1 "id"), addAll a.extra (kept ms)⟩ := by
  induction h with
  | nil => intro a _ _; simp [takeLoop, kept, addAll]
  | @cons p m ps ms hp _ ih =>
    intro a h1 h2
    obtain ⟨k, v⟩ := p
    have hm := hs m (by simp)
    obtain ⟨f1, f2, f3⟩ := hf
    rw [Once, List.pairwise_cons] at f1 f2
    have ih := ih (fun m hm => hs m (by simp [hm])) (fun m hm => hn m (by simp [hm])) ⟨f1.2, f2.2, fun m hm => f3 m (by simp [hm])⟩
    have hg := mem_strEq_not hp hm ascii_geometry (hn m (by simp))
    dsimp only at hg
    have hng := hn m (by simp)
    have np_id : ¬ (Named m.1 "properties" ∧ Named m.1 "id") := fun h => absurd (named_unique h.1 h.2) (by decide)
    have np_ty : ¬ (Named m.1 "properties" ∧ Named m.1 "type") := fun h => absurd (named_unique h.1 h.2) (by decide)
    have id_ty : ¬ (Named m.1 "id" ∧ Named m.1 "type") := fun h => absurd (named_unique h.1 h.2) (by decide)
    rw [takeLoop, takeMember]
    by_cases ht : Named m.1 "type"
    · have hnp : ¬ Named m.1 "properties" := fun h => np_ty ⟨h, ht⟩
      have hni : ¬ Named m.1 "id" := fun h => id_ty ⟨h, ht⟩
      rw [if_pos ((mem_strEq hp hm ascii_type).2 ht), kept_cons_neg (fun h => h.1 ht)]
      simp only [P.bind]
      rw [ih a (fun h m hm => h1 h m (by simp [hm])) (fun h m hm => h2 h m (by simp [hm]))]
      simp [hnp, hni]
    · have hty := mem_strEq_not hp hm ascii_type ht
      dsimp only at hty
      rw [hty, hg, if_neg (by simp), if_neg (by simp), if_pos rfl]
      by_cases hpr : Named m.1 "properties"
      · have hni : ¬ Named m.1 "id" := fun h => np_id ⟨hpr, h⟩
        have ha : a.hasProps = false := by
          rw [← Bool.not_eq_true]; exact fun h => h1 h m (by simp) hpr
        have hrest : ∀ m' ∈ ms, ¬ Named m'.1 "properties" := fun m' hm' h => f1.1 m' hm' ⟨hpr, h⟩
        have e1 : (∃ m' ∈ ms, Named m'.1 "properties" ∧ m'.2 = txt "null") ↔ False := by
          constructor
          · rintro ⟨m', a, b, -⟩; exact hrest m' a b
          · exact False.elim
        have e2 : (∃ m' ∈ ms, Named m'.1 "properties") ↔ False := by
          constructor
          · rintro ⟨m', a, b⟩; exact hrest m' a b
          · exact False.elim
        rw [if_pos ((mem_strEq hp hm ascii_properties).2 hpr), ha]
        obtain ⟨-, r, -, hv⟩ := id hp
        dsimp only at hv
        rcases (f3 m (by simp)).1 hpr with hnull | ⟨ms', hobj⟩
        · rw [hnull] at hv
          rw [if_pos (by simp), if_pos (null_type hv), kept_cons_neg (fun h => h.2.2 ⟨hpr, .inl hnull⟩)]
          simp only [P.bind]
          refine (ih { a with nullProps := true, hasProps := true } (fun _ => hrest) (fun h m hm => h2 h m (by simp [hm]))).trans ?_
          simp [hpr, hni, hnull, e1]
        · have hnn : m.2 ≠ txt "null" := fun h => null_not_obj (h ▸ hobj)
          rw [if_pos (by simp), if_neg (by rw [(obj_head hobj hv).1]; simp), if_pos (obj_head hobj hv).1]
          simp only [P.bind]
          refine (ih { a with hasProps := true, extra := if (first v).isSome then addPair a.extra k v else a.extra } (fun _ => hrest) (fun h m hm => h2 h m (by simp [hm]))).trans ?_
          by_cases he : ms' = []
          · subst he
            have : ¬ (first v).isSome = true := fun h => (obj_first hobj hv).1 h rfl
            rw [if_neg this, kept_cons_neg (fun h => h.2.2 ⟨hpr, .inr hobj⟩)]
            simp [hpr, hni, hnn]
          · rw [if_pos ((obj_first hobj hv).2 he), kept_cons_pos ⟨ht, hng, fun h => ?_⟩, addAll, ← mem_add hp]
            · simp [hpr, hni, hnn]
            · rcases h.2 with h | h
              · exact hnn h
              · exact he ((obj_same hobj h hv).2 rfl)
      · have hpr' := mem_strEq_not hp hm ascii_properties hpr
        dsimp only at hpr'
        have hk : kept (m :: ms) = m :: kept ms := kept_cons_pos ⟨ht, hng, fun h => hpr h.1⟩ ms
        rw [hpr', if_neg (by simp), hk, addAll, ← mem_add hp]
        by_cases hid : Named m.1 "id"
        · have ha : a.hasId = false := by
            rw [← Bool.not_eq_true]; exact fun h => h2 h m (by simp) hid
          have hrest : ∀ m' ∈ ms, ¬ Named m'.1 "id" := fun m' hm' h => f2.1 m' hm' ⟨hid, h⟩
          obtain ⟨-, r, -, hv⟩ := id hp
          dsimp only at hv
          have hjt : ¬ (jtype v ≠ .string ∧ jtype v ≠ .number) := by
            rcases (f3 m (by simp)).2 hid with h | h
            · exact fun hh => hh.1 (str_type h hv)
            · exact fun hh => hh.2 (number_type h hv)
          rw [if_pos ((mem_strEq hp hm ascii_id).2 hid), ha, if_neg (by simp), if_neg hjt]
          simp only [P.bind]
          refine (ih { a with hasId := true, extra := addPair a.extra k v } (fun h m hm => h1 h m (by simp [hm])) (fun _ => hrest)).trans ?_
          simp [hpr, hid]
        · have hid' := mem_strEq_not hp hm ascii_id hid
          dsimp only at hid'
          rw [hid', if_neg (by simp)]
          simp only [P.bind]
          refine (ih { a with extra := addPair a.extra k v } (fun h m hm => h1 h m (by simp [hm])) (fun h m hm => h2 h m (by simp [hm]))).trans ?_
          simp [hpr, hid]

theorem once_parts {a b : List (List Byte × List Byte)} {m : List Byte × List Byte} {s : String} (h : Once (a ++ m :: b) s) :
    Once a s ∧ Once b s ∧ ∀ x ∈ a, ∀ y ∈ b, ¬ (Named x.1 s ∧ Named y.1 s) := by
  rw [Once, List.pairwise_append] at h
  obtain ⟨h1, h2, h3⟩ := h
  rw [List.pairwise_cons] at h2
  exact ⟨h1, h2.2, fun x hx y hy => h3 x hx y (by simp [hy])⟩

open Classical in
/-- `take_basic_geojson` of a Feature. -/
theorem takeBasic_feature {ms : List (List Byte × List Byte)} {t c : List Byte} (ho : Spec.Geojson.IsObj ms t) (hm : Member ms "geometry" c) (hf : FeatureMembers ms)
    {j : Option J} {r : List Byte} (hj : Here j t r) :
    ∃ T r', Here T c r' ∧
      ((∃ vs, Spec.Geojson.IsObj vs c) → takeBasic j "geometry" =
        .ok ⟨T, { nullProps := decide (∃ m ∈ ms, Named m.1 "properties" ∧ m.2 = txt "null") }, extraText (kept ms)⟩) ∧
      (c = txt "null" → takeBasic j "geometry" =
        .ok ⟨T, { nullProps := decide (∃ m ∈ ms, Named m.1 "properties" ∧ m.2 = txt "null"), isEmpty := true, unlocated := true }, extraText (kept ms)⟩) := by
  have hp := obj_pairs ho hj
  obtain ⟨A, k, B, rfl, hk, hn⟩ := hm
  obtain ⟨pa, pb, hpa, hpb, hpe⟩ := forall₂_split hp
  cases hpb with
  | @cons p _ pb _ hpk hpb =>
  obtain ⟨k', v'⟩ := p
  have hst : Str k := (ho.1 (k, c) (by simp)).1
  have hnt : ¬ Named k "type" := fun h => absurd (named_unique hk h) (by decide)
  have hnp : ¬ Named k "properties" := fun h => absurd (named_unique hk h) (by decide)
  have hni : ¬ Named k "id" := fun h => absurd (named_unique hk h) (by decide)
  obtain ⟨⟨r1, e1, h1⟩, r2, e2, h2⟩ := id hpk
  dsimp only at e1 e2 h1 h2
  refine ⟨ensure v', r2, h2.ensure, ?_⟩
  obtain ⟨f1, f2, f3⟩ := hf
  obtain ⟨p1, p2, p3⟩ := once_parts f1
  obtain ⟨i1, i2, i3⟩ := once_parts f2
  have hA : FeatureMembers A := ⟨p1, i1, fun m hm => f3 m (by simp [hm])⟩
  have hB : FeatureMembers B := ⟨p2, i2, fun m hm => f3 m (by simp [hm])⟩
  have e : ∃ hp hi, takeLoop "geometry" {} (pairs j) = .ok ⟨ensure v', decide (∃ m ∈ A ++ (k, c) :: B, Named m.1 "properties" ∧ m.2 = txt "null"), hp, hi, addAll [] (kept (A ++ (k, c) :: B))⟩ := by
    rw [hpe, takeLoop_append, take_feature hpa (fun m hm => (ho.1 m (by simp [hm])).1) (fun m hm => hn m (by simp [hm])) hA _ (by simp) (by simp)]
    simp only [P.bind]
    rw [takeLoop, takeMember]
    have h3 := mem_strEq_not hpk hst ascii_type hnt
    have h4 := (mem_strEq hpk hst ascii_geometry).2 hk
    dsimp only at h3 h4
    rw [h3, h4, if_neg (by simp), if_pos rfl]
    simp only [P.bind]
    have hN : (decide (∃ m ∈ A, Named m.1 "properties" ∧ m.2 = txt "null") || decide (∃ m ∈ B, Named m.1 "properties" ∧ m.2 = txt "null")) =
        decide (∃ m ∈ A ++ (k, c) :: B, Named m.1 "properties" ∧ m.2 = txt "null") := by
      simp only [← Bool.decide_or, decide_eq_decide]
      constructor
      · rintro (⟨x, hx, hx'⟩ | ⟨x, hx, hx'⟩)
        · exact ⟨x, by simp [hx], hx'⟩
        · exact ⟨x, by simp [hx], hx'⟩
      · rintro ⟨x, hx, hx'⟩
        rcases List.mem_append.1 hx with hx | hx
        · exact .inl ⟨x, hx, hx'⟩
        · rcases List.mem_cons.1 hx with rfl | hx
          · exact absurd hx'.1 hnp
          · exact .inr ⟨x, hx, hx'⟩
    have hE : addAll (addAll [] (kept A)) (kept B) = addAll [] (kept (A ++ (k, c) :: B)) := by
      rw [kept_append, kept_cons_neg (fun h => h.2.1 hk), addAll_append]
    have ht := take_feature hpb (fun m hm => (ho.1 m (by simp [hm])).1) (fun m hm => hn m (by simp [hm])) hB
      ⟨ensure v', false || decide (∃ m ∈ A, Named m.1 "properties" ∧ m.2 = txt "null"), false || decide (∃ m ∈ A, Named m.1 "properties"), false || decide (∃ m ∈ A, Named m.1 "id"), addAll [] (kept A)⟩
      (by simp only [Bool.false_or, decide_eq_true_eq]
          rintro ⟨x, hx, hx'⟩ y hy hy'
          exact p3 x hx y hy ⟨hx', hy'⟩)
      (by simp only [Bool.false_or, decide_eq_true_eq]
          rintro ⟨x, hx, hx'⟩ y hy hy'
          exact i3 x hx y hy ⟨hx', hy'⟩)
    dsimp only at ht
    rw [hE, Bool.false_or, hN] at ht
    exact ⟨_, _, ht⟩
  obtain ⟨b1, b2, e⟩ := e
  have h5 : (ensure v').isNone = false := by
    have := h2.ensure.isSome
    cases hh : ensure v' <;> simp_all
  have hx : (if (addAll [] (kept (A ++ (k, c) :: B))).length > 0 then some ((addAll [] (kept (A ++ (k, c) :: B)) ++ [0x7D#8]).takeWhile (· != 0#8)) else none) = extraText (kept (A ++ (k, c) :: B)) := by
    apply addAll_text
    intro m hm
    obtain ⟨h6, n, h7⟩ := ho.1 m (kept_mem hm)
    exact ⟨str_noNul h6, val_noNul_of (fun _ h => str_noNul h) h7⟩
  constructor
  · rintro ⟨vs, hvs⟩
    rw [takeBasic, e]
    simp only [P.bind]
    rw [h5, if_neg (by simp), if_pos trivial, if_pos (obj_head hvs h2.ensure).1, hx]
  · rintro rfl
    rw [takeBasic, e]
    simp only [P.bind]
    rw [h5, if_neg (by simp), if_pos trivial, if_neg (by rw [null_type h2.ensure]; simp), if_pos (null_type h2.ensure), hx]

/-! ### What is built -/

/-- Flags that only say that it is a Feature. -/
def featFlags (np un : Bool) : Flags := { isFeature := true, nullProps := np, unlocated := un }

theorem view_withExtra (x : Option (List Byte)) (g : Geom) : view (withExtra x g) = view g := by cases g <;> rfl
theorem flags_withExtra (x : Option (List Byte)) (g : Geom) : (withExtra x g).flags = g.flags := by cases g <;> rfl
theorem xjson_withExtra {x : Option (List Byte)} {g : Geom} (h : Boxed g ∨ x = none) : xjsonOf (withExtra x g) = x := by
  cases g <;> simp only [Boxed, false_or] at h <;> first | rfl | exact h.symm
theorem withExtra_self (g : Geom) : withExtra (xjsonOf g) g = g := by cases g <;> rfl
theorem withExtra_twice (x y : Option (List Byte)) (g : Geom) : withExtra x (withExtra y g) = withExtra x g := by cases g <;> rfl

theorem view_addFlags (np : Bool) (g : Geom) : view (addFlags g { isFeature := true, nullProps := np }) = view g := by
  cases g <;> simp only [addFlags, view, orFlags, Bool.or_false]

theorem keeps_addFlags (f : Flags) {t : List Byte} {g : Geom} (h : Keeps t g) : Keeps t (addFlags g f) := by
  cases g <;> simp only [addFlags] <;> simp only [Keeps] at h ⊢ <;> exact h

theorem finish_eq {fl : Flags} {x : Option (List Byte)} {g : Geom} (h : Boxed g ∨ (x = none ∧ xjsonOf g = none)) (hx : x = none → xjsonOf g = none) :
    finish fl x g = .ok (withExtra x (addFlags g fl)) := by
  unfold finish setX
  cases x with
  | none =>
    have : xjsonOf (addFlags g fl) = none := by rw [xjson_addFlags]; exact hx rfl
    dsimp only
    conv_rhs => rw [← this, withExtra_self]
  | some x => cases g <;> simp [Boxed] at h <;> rfl

theorem boxed_of_xjson {g : Geom} {x : List Byte} (h : xjsonOf g = some x) : Boxed g := by
  cases g <;> simp [xjsonOf] at h <;> trivial

theorem addFlags_twice (g : Geom) (np : Bool) : addFlags (addFlags g { isFeature := true }) { nullProps := np } = addFlags g { isFeature := true, nullProps := np } := by
  cases g <;> simp [addFlags, orFlags]

theorem feature_jval {f : Option GV} {t : List Byte} (h : IsFeature (Num sd) f t) : JVal t := by
  obtain ⟨ms, ty, c, h1, -⟩ := h
  exact obj_jval h1

theorem geometry_obj {v : GV} {t : List Byte} (h : IsGeometry (Num sd) v t) : ∃ ms, Spec.Geojson.IsObj ms t := by
  match v with
  | .point _ _ (some p) => obtain ⟨c, ⟨ms, _, h, -⟩, -⟩ := h; exact ⟨ms, h⟩
  | .point _ _ none => obtain ⟨c, ⟨ms, _, h, -⟩, -⟩ := h; exact ⟨ms, h⟩
  | .line _ _ _ | .poly _ _ _ | .mpoint _ _ _ | .mline _ _ _ | .mpoly _ _ _ => obtain ⟨c, ⟨ms, _, h, -⟩, -⟩ := h; exact ⟨ms, h⟩
  | .coll _ => obtain ⟨c, ts, ⟨ms, _, h, -⟩, -⟩ := h; exact ⟨ms, h⟩

/-- `parse_geojson` reads every Feature. -/
theorem read_feature (f : Option GV) (t : List Byte) (ht : IsFeature (Num sd) f t) (hf : ∀ v, f = some v → Wf v ∧ ZFirst v) (d : Nat) (j : Option J) (r : List Byte) (hj : Here j t r)
    (hd : size j < d) (req : Bool) : ∃ g, parseGeojson sd d j req = .ok g ∧ view g = some (shown f) ∧ FeatureKeeps t g := by
  obtain ⟨d, rfl⟩ : ∃ e, d = e + 1 := ⟨d - 1, by omega⟩
  obtain ⟨ms, ty, c, ho, hty, hn, hm, hfm, hc⟩ := ht
  have hdp := dispatch (sd := sd) ⟨ms, ty, ho, hty, hn, hm⟩ (by decide) (by decide) hj d req
  rw [if_neg (by decide), if_neg (by decide), if_neg (by decide), if_neg (by decide), if_neg (by decide), if_neg (by decide), if_neg (by decide), if_pos rfl] at hdp
  obtain ⟨T, r', hT, hb1, hb2⟩ := takeBasic_feature ho hm hfm hj
  cases f with
  | none =>
    dsimp only at hc
    subst hc
    have hb := hb2 rfl
    rw [parseFeature, hb] at hdp
    simp only [P.bind] at hdp
    rw [if_pos trivial] at hdp
    simp only [addFlags, xjsonOf] at hdp
    rw [if_neg (by simp [Geom.flags, emptyFlags]), finish_eq (g := .gpoint _ _ _ _ none) (.inl trivial) (fun _ => rfl)] at hdp
    refine ⟨_, hdp, rfl, ms, _, none, ho, hm, rfl, rfl, rfl, ?_, ?_, ?_⟩
    · rw [flags_withExtra]
      simp [Geom.flags, addFlags, orFlags, emptyFlags]
    · rw [flags_withExtra]
      simp [Geom.flags, addFlags, orFlags, emptyFlags]
    · rw [if_pos rfl]
  | some v =>
    dsimp only at hc
    obtain ⟨vs, hvs⟩ := geometry_obj hc
    have hcn : c ≠ txt "null" := by rintro rfl; exact null_not_obj hvs
    have hb := hb1 ⟨vs, hvs⟩
    have hsz := (takeBasic_target hb).2
    simp only at hsz
    obtain ⟨hw, hz⟩ := hf v rfl
    obtain ⟨g, e1, e2, e3, e4, e5⟩ := read_geo v c hc hw hz d T r' hT (by omega) (extraText (kept ms)).isSome
    rw [parseFeature, hb] at hdp
    simp only [P.bind] at hdp
    rw [if_neg (by simp), e1] at hdp
    simp only [e4.1, e4.2.1] at hdp
    rw [if_neg (by simp), xjson_addFlags] at hdp
    have hne : ∀ m, g ≠ .err m := by rintro m rfl; simp [view] at e2
    have key : ∀ np : Bool, ∀ y : Option (List Byte), (np = true ↔ ∃ m ∈ ms, Named m.1 "properties" ∧ m.2 = txt "null") → y = both (extraText (kept ms)) (xjsonOf g) → (Boxed g ∨ y = none) →
        view (withExtra y (addFlags g { isFeature := true, nullProps := np })) = some (shown (some v)) ∧ FeatureKeeps t (withExtra y (addFlags g { isFeature := true, nullProps := np })) := by
      intro np y hnp hy hyb
      refine ⟨by rw [view_withExtra, view_addFlags, e2]; rfl, ms, c, xjsonOf g, ho, hm, ?_, ?_⟩
      · rw [xjson_eq, xjson_withExtra, hy]
        rcases hyb with h | h
        · exact .inl (boxed_addFlags.2 h)
        · exact .inr h
      · rw [flags_withExtra, flags_addFlags hne, if_neg hcn, withExtra_twice]
        refine ⟨by simp [orFlags], by simp [orFlags, e4.2.1], by simpa [orFlags, e4.2.2.1] using hnp, by simp [orFlags, e4.2.2.2, hcn], ?_⟩
        rw [← xjson_addFlags g { isFeature := true, nullProps := np }, withExtra_self]
        exact keeps_addFlags _ e3
    cases hx : xjsonOf g with
    | none =>
      rw [hx] at hdp key
      simp only at hdp
      have hbx : Boxed g ∨ extraText (kept ms) = none := by
        cases hk : extraText (kept ms) with
        | none => exact .inr rfl
        | some k => exact .inl (e5 (by rw [hk]; rfl))
      rw [finish_eq (by rcases hbx with h | h
                        · exact .inl (boxed_addFlags.2 h)
                        · exact .inr ⟨h, by rw [xjson_addFlags, hx]⟩) (fun _ => by rw [xjson_addFlags, hx]), addFlags_twice] at hdp
      exact ⟨_, hdp, key _ _ (by simp) rfl hbx⟩
    | some x =>
      rw [hx] at hdp key
      simp only at hdp
      have hbx := boxed_of_xjson hx
      rw [finish_eq (.inl (boxed_addFlags.2 hbx)) (by simp), addFlags_twice] at hdp
      exact ⟨_, hdp, key _ _ (by simp) (by simp [both, bracket, join, eachAfter]) (.inl hbx)⟩

/-- A list of Features. -/
theorem read_features (d : Nat) : ∀ (fs : List (Option GV)) (ts : List (List Byte)), List.Forall₂ (IsFeature (Num sd)) fs ts → (∀ v, some v ∈ fs → Wf v ∧ ZFirst v) →
    ∀ j, Walk ts j → size j < d → ∀ f, size j < f →
    ∃ gs, childLoop (fun j => parseGeojson sd d j false)
      (fun g => if g.flags.isFeature then none else some "'features' must only contain objects with the 'type' of Feature") f j = .ok gs ∧
      views gs = some (fs.map shown) ∧ List.Forall₂ FeatureKeeps ts gs
  | [], ts, ht, _, j, hw, hd, f, hf => by
    obtain ⟨f, rfl⟩ : ∃ e, f = e + 1 := ⟨f - 1, by omega⟩
    cases ht
    rw [Walk] at hw
    subst hw
    exact ⟨[], rfl, rfl, .nil⟩
  | v :: fs, ts, ht, hv, j, hw, hd, f, hf => by
    obtain ⟨f, rfl⟩ : ∃ e, f = e + 1 := ⟨f - 1, by omega⟩
    obtain ⟨t, ts, rfl, h1, h2⟩ : ∃ t ts', ts = t :: ts' ∧ IsFeature (Num sd) v t ∧ List.Forall₂ (IsFeature (Num sd)) fs ts' := by
      cases ht with
      | cons h1 h2 => exact ⟨_, _, rfl, h1, h2⟩
    obtain ⟨⟨r, hh⟩, hw⟩ := hw
    obtain ⟨g, e1, e2, e3⟩ := read_feature v t h1 (fun u hu => hv u (by simp [hu])) d j r hh hd false
    obtain ⟨i, rfl, hne⟩ := here_some hh
    have hsz := size_next hne
    obtain ⟨gs, f1, f2, f3⟩ := read_features d fs ts h2 (fun u hu => hv u (by simp [hu])) (next (some i)) hw (by omega) f (by omega)
    refine ⟨g :: gs, ?_, by simp only [views, List.map_cons, e2, f2], .cons e3 f3⟩
    have hfe : g.flags.isFeature = true := by obtain ⟨_, _, _, _, _, _, h, -⟩ := e3; exact h
    rw [childLoop, e1]
    simp only [P.bind, hfe, if_true]
    rw [f1]

/-- `parse_geojson` reads every FeatureCollection. -/
theorem read_collection (fs : List (Option GV)) (t : List Byte) (ht : IsFeatures (Num sd) fs t) (hv : ∀ v, some v ∈ fs → Wf v ∧ ZFirst v) (d : Nat) (j : Option J) (r : List Byte) (hj : Here j t r)
    (hd : size j < d) (req : Bool) : ∃ g, parseGeojson sd d j req = .ok g ∧ view g = some (.coll (fs.map shown)) ∧ CollectionKeeps t g := by
  obtain ⟨d, rfl⟩ : ∃ e, d = e + 1 := ⟨d - 1, by omega⟩
  obtain ⟨c, ts, hto, hc, hts⟩ := ht
  have hdp := dispatch (sd := sd) hto (by decide) (by decide) hj d req
  rw [if_neg (by decide), if_neg (by decide), if_neg (by decide), if_neg (by decide), if_neg (by decide), if_neg (by decide), if_neg (by decide), if_neg (by decide), if_pos rfl] at hdp
  obtain ⟨ms, ty, ho, -, -, hm⟩ := hto
  obtain ⟨T, r', hb, hT⟩ := takeBasic_obj (by decide) ascii_features (by decide) ho hm hc hj
  have hsz := (takeBasic_target hb).2
  simp only at hsz
  have hw := arr_walk hc (forall₂_jval (fun _ _ => feature_jval) hts) hT
  have hsf := size_first T
  obtain ⟨hs, e1, e2, e3⟩ := read_features d fs ts hts hv (first T) hw (by omega) (size T + 1) (by omega)
  rw [parseFeatureColl, hb] at hdp
  simp only [P.bind] at hdp
  rw [e1] at hdp
  simp only at hdp
  obtain ⟨g', h1, h2, h3, h4, h5, h6⟩ := finish_ok (fl := { isEmpty := (first T).isNone }) (x := extraText (others ["type", "features"] ms)) (g := .coll { isFeatureCol := true } true hs [] none) (fun _ => trivial) rfl
  rw [h1] at hdp
  refine ⟨g', hdp, ?_, ms, c, ts, _, hs, ho, hm, hc, h6 _ _ _ _ rfl, rfl, rfl, rfl, rfl, e3⟩
  rw [h2, addFlags, view, e2, walk_first hw]
  simp only [orFlags, Bool.or_self, Bool.false_or, Bool.not_true, Bool.false_eq_true, if_false]
  cases hts with
  | nil => rfl
  | cons => rfl

end Tg.Gp
