import Verif.Model.Detect
import Verif.Lemmas.GeojsonWrite
import Verif.Props.Hex
import Verif.Props.Wkt
/-!
Property C13: detection of the format.
-/
namespace Tg
open Spec Spec.Json

variable {gj : List Byte → Res} {sd : List Byte → F64}

/-! ### Texts and byte strings of each format -/

theorem space_class {b : Byte} (h : Ws [b]) : b ≠ 0x7B#8 ∧ cSpace b = some true ∧ (∃ x, cAlpha b = some x) ∧ ∃ x, cXdigit b = some x := by
  rcases h b (by simp) with rfl | rfl | rfl | rfl <;> exact ⟨by decide, by decide, ⟨_, rfl⟩, ⟨_, rfl⟩⟩

theorem detectSpace_ws : ∀ (w t : List Byte), Ws w → detectSpace (w ++ t) = detectSpace t
  | [], _, _ => rfl
  | b :: w, t, h => by
    have hb := (space_class (b := b) (fun c hc => h c (by rw [List.mem_singleton] at hc; simp [hc]))).2.1
    rw [List.cons_append, detectSpace, hb]
    exact detectSpace_ws w t (fun c hc => h c (by simp [hc]))

/-- White space before a text leads to the loop that skips it. -/
theorem detect_ws {b : Byte} {w t : List Byte} (h : Ws (b :: w)) : detect (b :: w ++ t) = detectSpace t := by
  obtain ⟨h1, h2, ⟨x, h3⟩, ⟨y, h4⟩⟩ := space_class (b := b) (fun c hc => h c (by rw [List.mem_singleton] at hc; simp [hc]))
  rw [List.cons_append, detect, if_neg h1, h2, h3, h4]
  dsimp only
  rw [if_pos rfl]
  exact detectSpace_ws w t (fun c hc => h c (by simp [hc]))

theorem detect_object {w t : List Byte} (hw : Ws w) : detect (w ++ 0x7B#8 :: t) = .fmt .geojson := by
  cases w with
  | nil => rfl
  | cons b w => rw [detect_ws hw]; rfl

/-- A letter that is not a hex digit. -/
theorem detect_letter {w t : List Byte} {c : Byte} (hw : Ws w) (h0 : cSpace c = some false) (h1 : cAlpha c = some true) (h2 : cXdigit c = some false) (h3 : c ≠ 0x7B#8) :
    detect (w ++ c :: t) = .fmt .wkt := by
  cases w with
  | nil =>
    rw [List.nil_append, detect, if_neg h3, h0, h1, h2]
    dsimp only
    rw [if_neg (by simp), if_pos (by simp), List.take_succ_cons, detectHex, h2]
  | cons b w => rw [detect_ws hw, detectSpace, h0]; dsimp only; rw [if_neg h3]

theorem tag_first {name : String} {c0 : Byte} {r0 : List Byte} (hn : txt name = c0 :: r0) {z m : Bool} {tag : List Byte} (h : Wkt.IsTag name z m tag) :
    ∃ c r, tag = c :: r ∧ Wkt.capital c = c0 := by
  have kw : ∀ t, Wkt.Kw name t → ∃ c r, t = c :: r ∧ Wkt.capital c = c0 := by
    intro t ht
    rw [Wkt.Kw, hn] at ht
    cases t with
    | nil => cases ht
    | cons c t => simp only [List.map_cons, List.cons.injEq] at ht; exact ⟨c, t, rfl, ht.1⟩
  rcases h with ⟨h, -⟩ | ⟨-, n, w, d, h, -, -, rfl⟩
  · exact kw _ h
  · obtain ⟨c, r, rfl, hc⟩ := kw _ h
    exact ⟨c, _, rfl, hc⟩

theorem wkt_first (N : List Byte → F64 → Prop) (v : GV) (t : List Byte) (h : Wkt.IsWkt N v t) :
    ∃ c r, t = c :: r ∧ Wkt.capital c ∈ [0x50#8, 0x4C#8, 0x4D#8, 0x47#8] := by
  have tg : ∀ {name : String} {c0 : Byte} {r0 : List Byte}, txt name = c0 :: r0 → c0 ∈ [0x50#8, 0x4C#8, 0x4D#8, 0x47#8] → ∀ {z m L}, Wkt.Tagged name z m L t →
      ∃ c r, t = c :: r ∧ Wkt.capital c ∈ [0x50#8, 0x4C#8, 0x4D#8, 0x47#8] := by
    rintro name c0 r0 hn h0 z m L ⟨tag, w, l, ht, -, -, rfl⟩
    obtain ⟨c, r, rfl, hc⟩ := tag_first hn ht
    exact ⟨c, _, rfl, hc ▸ h0⟩
  have te : ∀ {name : String} {c0 : Byte} {r0 : List Byte}, txt name = c0 :: r0 → c0 ∈ [0x50#8, 0x4C#8, 0x4D#8, 0x47#8] → Wkt.TaggedEmpty name t →
      ∃ c r, t = c :: r ∧ Wkt.capital c ∈ [0x50#8, 0x4C#8, 0x4D#8, 0x47#8] := by
    rintro name c0 r0 hn h0 ⟨z, m, tag, w, e, ht, -, -, -, rfl⟩
    obtain ⟨c, r, rfl, hc⟩ := tag_first hn ht
    exact ⟨c, _, rfl, hc ▸ h0⟩
  match v with
  | .point z m (some p) => rw [Wkt.IsWkt] at h; exact tg rfl (by decide) h
  | .point z m none => rw [Wkt.IsWkt] at h; exact te rfl (by decide) h
  | .line z m ps => rw [Wkt.IsWkt] at h; split_ifs at h; exacts [te rfl (by decide) h, tg rfl (by decide) h]
  | .poly z m rs => rw [Wkt.IsWkt] at h; split_ifs at h; exacts [te rfl (by decide) h, tg rfl (by decide) h]
  | .mpoint z m ps => rw [Wkt.IsWkt] at h; split_ifs at h; exacts [te rfl (by decide) h, tg rfl (by decide) h]
  | .mline z m ls => rw [Wkt.IsWkt] at h; split_ifs at h; exacts [te rfl (by decide) h, tg rfl (by decide) h]
  | .mpoly z m ps => rw [Wkt.IsWkt] at h; split_ifs at h; exacts [te rfl (by decide) h, tg rfl (by decide) h]
  | .coll gs => rw [Wkt.IsWkt] at h; rcases h with ⟨-, h⟩ | ⟨-, z, m, h⟩; exacts [te rfl (by decide) h, tg rfl (by decide) h]

theorem hexOf_digits {s bs : List Byte} (h : HexOf s bs) : ∀ c ∈ s, ∃ v, IsHex c v := by
  induction h with
  | nil => simp
  | cons c d u v s bs hc hd hs ih =>
    intro x hx
    rcases List.mem_cons.1 hx with rfl | hx
    · exact ⟨u, hc⟩
    rcases List.mem_cons.1 hx with rfl | hx
    · exact ⟨v, hd⟩
    · exact ih x hx

theorem isHex_class {c : Byte} {v : Nat} (h : IsHex c v) : cXdigit c = some true ∧ cSpace c = some false ∧ (∃ x, cAlpha c = some x) ∧ c ≠ 0x7B#8 := by
  have hc : c.toNat < 128 := by rcases h with ⟨h1, h2, -⟩ | ⟨h1, h2, -⟩ | ⟨h1, h2, -⟩ <;> omega
  refine ⟨?_, ?_, ⟨_, by rw [cAlpha, ctype, if_pos hc]⟩, ?_⟩
  · rw [cXdigit, ctype, if_pos hc]
    rcases h with ⟨h1, h2, -⟩ | ⟨h1, h2, -⟩ | ⟨h1, h2, -⟩ <;> simp [h1, h2]
  · rw [cSpace, ctype, if_pos hc]
    rcases h with ⟨h1, h2, -⟩ | ⟨h1, h2, -⟩ | ⟨h1, h2, -⟩ <;> (simp; omega)
  · rintro rfl
    rcases h with ⟨h1, h2, -⟩ | ⟨h1, h2, -⟩ | ⟨h1, h2, -⟩ <;> simp at h1 h2

theorem detectHex_digits : ∀ (l : List Byte), (∀ c ∈ l, ∃ v, IsHex c v) → detectHex l = .fmt .hex
  | [], _ => rfl
  | c :: l, h => by
    obtain ⟨v, hv⟩ := h c (by simp)
    rw [detectHex, (isHex_class hv).1]
    exact detectHex_digits l (fun d hd => h d (by simp [hd]))

theorem detect_hex {s bs : List Byte} (h : HexOf s bs) (h0 : s ≠ []) : detect s = .fmt .hex := by
  have hd := hexOf_digits h
  cases s with
  | nil => exact absurd rfl h0
  | cons c t =>
    obtain ⟨v, hv⟩ := hd c (by simp)
    obtain ⟨h1, h2, ⟨x, h3⟩, h4⟩ := isHex_class hv
    rw [detect, if_neg h4, h1, h2, h3]
    dsimp only
    rw [if_neg (by simp), if_pos (by simp)]
    exact detectHex_digits _ (fun d hd' => hd d (List.mem_of_mem_take hd'))

theorem enc_head {v : GV} {bs : List Byte} (h : Enc v bs) : ∃ b t, bs = b :: t ∧ (b = 0#8 ∨ b = 1#8) := by
  have key : ∀ (be : Bool) srid T z m (r : List Byte), ∃ b t, header be srid T z m ++ r = b :: t ∧ (b = 0#8 ∨ b = 1#8) := by
    intro be srid T z m r
    cases be
    · exact ⟨1#8, _, rfl, .inr rfl⟩
    · exact ⟨0#8, _, rfl, .inl rfl⟩
  cases h <;> exact key ..

theorem detect_wkb {b : Byte} {t : List Byte} (h : b = 0#8 ∨ b = 1#8) : detect (b :: t) = .fmt .wkb := by
  rcases h with rfl | rfl <;> rfl

theorem geobin_one (t : List Byte) : tgParseGeobin (1#8 :: t) = tgParseWkb (1#8 :: t) := by
  unfold tgParseGeobin tgParseWkb
  rw [show MAXDEPTH + 1 = 1024 + 1 from rfl, parseGeobin, if_neg (by simp)]
  simp only [List.drop_zero, if_true]
  rfl

/-! ### C13 -/

/-- C13. Whatever is in one of the five formats is parsed as such: an object in JSON, a Well-Known Text, hexadecimal digits, Well-Known Binary and GeoBIN. (A plain point in GeoBIN
is in Well-Known Binary.) JSON and Well-Known Text may have white space in front. -/
theorem C13_formats (gj : List Byte → Res) (sd : List Byte → F64) :
    (∀ w t, Ws w → tgParse gj sd (w ++ 0x7B#8 :: t) = some (gj (w ++ 0x7B#8 :: t))) ∧
    (∀ N v d, Wkt.IsText N v d → tgParse gj sd d = some (Wp.tgParseWkt sd d)) ∧
    (∀ s bs, HexOf s bs → s ≠ [] → tgParse gj sd s = some (tgParseHex s)) ∧
    (∀ v bs, Enc v bs → tgParse gj sd bs = some (tgParseWkb bs)) ∧
    (∀ f bs, GBin f bs → tgParse gj sd bs = some (tgParseGeobin bs)) := by
  refine ⟨fun w t hw => ?_, fun N v d hd => ?_, fun s bs h h0 => ?_, fun v bs h => ?_, fun f bs h => ?_⟩
  · rw [tgParse, detect_object hw]
  · obtain ⟨w, t, w', hw, ht, hw', rfl⟩ := hd
    obtain ⟨c, r, rfl, hc⟩ : ∃ c r, t = c :: r ∧ Wkt.capital c ∈ [0x50#8, 0x4C#8, 0x4D#8, 0x47#8] := wkt_first N v t ht
    have key : ∀ c : Byte, Wkt.capital c ∈ [0x50#8, 0x4C#8, 0x4D#8, 0x47#8] →
        cSpace c = some false ∧ cAlpha c = some true ∧ cXdigit c = some false ∧ c ≠ 0x7B#8 := by decide +kernel
    obtain ⟨h0, h1, h2, h3⟩ := key c hc
    rw [List.cons_append, tgParse, detect_letter hw h0 h1 h2 h3]
  · rw [tgParse, detect_hex h h0]
  · obtain ⟨b, t, rfl, hb⟩ := enc_head h
    rw [tgParse, detect_wkb hb]
  · cases h with
    | point z m p bs h => rw [tgParse, detect_wkb (.inr rfl), geobin_one]
    | geom v x mbr bs => rfl
    | feat v x mbr bs => rfl
    | fcol fs x mbr bs => rfl

/-- White space of the C library. -/
def CSpace (c : Byte) : Prop := c = 0x20#8 ∨ (9 ≤ c.toNat ∧ c.toNat ≤ 13)

theorem cSpace_iff (c : Byte) : cSpace c = some true ↔ CSpace c := by
  revert c; unfold CSpace; decide +kernel

theorem cXdigit_iff (c : Byte) : cXdigit c = some true ↔ ∃ v, IsHex c v := by
  constructor
  · intro h
    have key : ∀ c : Byte, cXdigit c = some true → (48 ≤ c.toNat ∧ c.toNat ≤ 57) ∨ (65 ≤ c.toNat ∧ c.toNat ≤ 70) ∨ (97 ≤ c.toNat ∧ c.toNat ≤ 102) := by decide +kernel
    rcases key c h with h | h | h
    · exact ⟨_, .inl ⟨h.1, h.2, rfl⟩⟩
    · exact ⟨_, .inr (.inl ⟨h.1, h.2, rfl⟩)⟩
    · exact ⟨_, .inr (.inr ⟨h.1, h.2, rfl⟩)⟩
  · rintro ⟨v, h⟩
    exact (isHex_class h).1

theorem detectHex_hex : ∀ l : List Byte, detectHex l = .fmt .hex ↔ ∀ c ∈ l, cXdigit c = some true
  | [] => by simp [detectHex]
  | c :: l => by
    rw [detectHex]
    rcases h : cXdigit c with _ | _ | _
    · simp [h]
    · simp [h]
    · simp [h, detectHex_hex l]

theorem detectHex_other : ∀ l : List Byte, detectHex l ≠ .fmt .geojson ∧ detectHex l ≠ .fmt .wkb ∧ detectHex l ≠ .fmt .geobin ∧ detectHex l ≠ .null
  | [] => by simp [detectHex]
  | c :: l => by
    rw [detectHex]
    rcases cXdigit c with _ | _ | _
    · simp
    · simp
    · exact detectHex_other l

theorem detectSpace_json : ∀ l : List Byte, detectSpace l = .fmt .geojson ↔ ∃ w t, (∀ c ∈ w, CSpace c) ∧ l = w ++ 0x7B#8 :: t
  | [] => by simp [detectSpace]
  | c :: l => by
    rw [detectSpace]
    have hb : cSpace 0x7B#8 = some false := by decide
    rcases h : cSpace c with _ | _ | _
    · refine iff_of_false (by simp) ?_
      rintro ⟨w, t, hw, he⟩
      cases w with
      | nil => cases he; rw [hb] at h; cases h
      | cons x w => cases he; rw [(cSpace_iff _).2 (hw _ (by simp))] at h; cases h
    · dsimp only
      split_ifs with hc
      · subst hc
        exact iff_of_true rfl ⟨[], l, by simp, rfl⟩
      · refine iff_of_false (by simp) ?_
        rintro ⟨w, t, hw, he⟩
        cases w with
        | nil => cases he; exact hc rfl
        | cons x w => cases he; rw [(cSpace_iff _).2 (hw _ (by simp))] at h; cases h
    · dsimp only
      rw [detectSpace_json l]
      constructor
      · rintro ⟨w, t, hw, he⟩
        refine ⟨c :: w, t, ?_, by rw [he]; rfl⟩
        intro x hx
        rcases List.mem_cons.1 hx with rfl | hx
        · exact (cSpace_iff _).1 h
        · exact hw x hx
      · rintro ⟨w, t, hw, he⟩
        cases w with
        | nil => cases he; rw [hb] at h; cases h
        | cons x w => cases he; exact ⟨w, t, fun y hy => hw y (by simp [hy]), rfl⟩

theorem detectSpace_other : ∀ l : List Byte, detectSpace l ≠ .fmt .hex ∧ detectSpace l ≠ .fmt .wkb ∧ detectSpace l ≠ .fmt .geobin ∧ detectSpace l ≠ .null
  | [] => by simp [detectSpace]
  | c :: l => by
    rw [detectSpace]
    rcases cSpace c with _ | _ | _
    · simp
    · dsimp only; split_ifs <;> simp
    · exact detectSpace_other l

/-- C13. Which bytes lead to which parser: to the GeoJSON parser a `{` after white space; to the hex parser a string that begins with 16 hexadecimal digits or consists of fewer;
to the WKB parser a first byte 0 or 1; to the GeoBIN parser a first byte below 128 that is not white space, a letter, a digit, `{`, 0 or 1. -/
theorem C13_dispatch (data : List Byte) :
    (detect data = .fmt .geojson ↔ ∃ w t, (∀ c ∈ w, CSpace c) ∧ data = w ++ 0x7B#8 :: t) ∧
    (detect data = .fmt .hex ↔ data ≠ [] ∧ ∀ c ∈ data.take 16, ∃ v, IsHex c v) ∧
    (detect data = .fmt .wkb ↔ ∃ c t, data = c :: t ∧ (c = 0#8 ∨ c = 1#8)) ∧
    (detect data = .fmt .geobin ↔ ∃ c t, data = c :: t ∧ c.toNat < 128 ∧ c ≠ 0x7B#8 ∧ c ≠ 0#8 ∧ c ≠ 1#8 ∧ ¬ CSpace c ∧
      ¬ (48 ≤ c.toNat ∧ c.toNat ≤ 57) ∧ ¬ (65 ≤ c.toNat ∧ c.toNat ≤ 90) ∧ ¬ (97 ≤ c.toNat ∧ c.toNat ≤ 122)) ∧
    (detect data = .null ↔ data = []) := by
  cases data with
  | nil => simp [detect]
  | cons c t =>
    have js : (∃ w t', (∀ x ∈ w, CSpace x) ∧ c :: t = w ++ 0x7B#8 :: t') ↔ c = 0x7B#8 ∨ (CSpace c ∧ ∃ w t', (∀ x ∈ w, CSpace x) ∧ t = w ++ 0x7B#8 :: t') := by
      constructor
      · rintro ⟨w, t', hw, he⟩
        cases w with
        | nil => cases he; exact .inl rfl
        | cons x w => cases he; exact .inr ⟨hw _ (by simp), w, t', fun y hy => hw y (by simp [hy]), rfl⟩
      · rintro (rfl | ⟨hc, w, t', hw, rfl⟩)
        · exact ⟨[], t, by simp, rfl⟩
        · exact ⟨c :: w, t', by simpa using ⟨hc, hw⟩, rfl⟩
    have ex : ∀ p : Byte → Prop, (∃ c' t', c :: t = c' :: t' ∧ p c') ↔ p c := fun p =>
      ⟨by rintro ⟨c', t', he, h⟩; cases he; exact h, fun h => ⟨c, t, rfl, h⟩⟩
    have hx : (c :: t ≠ [] ∧ ∀ x ∈ (c :: t).take 16, ∃ v, IsHex x v) ↔ cXdigit c = some true ∧ ∀ x ∈ t.take 15, cXdigit x = some true := by
      simp only [ne_eq, reduceCtorEq, not_false_eq_true, true_and, ← cXdigit_iff, List.take_succ_cons, List.mem_cons, forall_eq_or_imp]
    rw [js, hx, ex fun c => c = 0#8 ∨ c = 1#8, ex fun c => c.toNat < 128 ∧ c ≠ 0x7B#8 ∧ c ≠ 0#8 ∧ c ≠ 1#8 ∧ ¬ CSpace c ∧
      ¬ (48 ≤ c.toNat ∧ c.toNat ≤ 57) ∧ ¬ (65 ≤ c.toNat ∧ c.toNat ≤ 90) ∧ ¬ (97 ≤ c.toNat ∧ c.toNat ≤ 122)]
    have cls : ∀ c : Byte,
        (c.toNat < 128 ∧ (∃ sp, cSpace c = some sp) ∧ (∃ al, cAlpha c = some al) ∧ ∃ xd, cXdigit c = some xd) ∨ (¬ c.toNat < 128 ∧ cSpace c = none ∧ cAlpha c = none ∧ cXdigit c = none) := by
      intro c
      by_cases h : c.toNat < 128
      · exact .inl ⟨h, ⟨_, by rw [cSpace, ctype, if_pos h]⟩, ⟨_, by rw [cAlpha, ctype, if_pos h]⟩, ⟨_, by rw [cXdigit, ctype, if_pos h]⟩⟩
      · exact .inr ⟨h, by rw [cSpace, ctype, if_neg h], by rw [cAlpha, ctype, if_neg h], by rw [cXdigit, ctype, if_neg h]⟩
    by_cases hc : c = 0x7B#8
    · subst hc
      have hd : detect (0x7B#8 :: t) = .fmt .geojson := rfl
      rw [hd]
      refine ⟨by simp, iff_of_false (by simp) fun h => absurd h.1 (by decide), by simp, by simp, by simp⟩
    · rcases cls c with ⟨h128, ⟨sp, hsp⟩, ⟨al, hal⟩, ⟨xd, hxd⟩⟩ | ⟨h128, hsp, hal, hxd⟩
      · have hd : detect (c :: t) = if sp then detectSpace t else if al || xd then detectHex ((c :: t).take 16) else if c = 0#8 ∨ c = 1#8 then .fmt .wkb else .fmt .geobin := by
          rw [detect, if_neg hc, hsp, hal, hxd]
        have key : ∀ c : Byte, (cSpace c = some true → cXdigit c ≠ some true ∧ c ≠ 0#8 ∧ c ≠ 1#8) ∧
            (cAlpha c = some true ∨ cXdigit c = some true ↔ (48 ≤ c.toNat ∧ c.toNat ≤ 57) ∨ (65 ≤ c.toNat ∧ c.toNat ≤ 90) ∨ (97 ≤ c.toNat ∧ c.toNat ≤ 122)) ∧
            ((48 ≤ c.toNat ∧ c.toNat ≤ 57) ∨ (65 ≤ c.toNat ∧ c.toNat ≤ 90) ∨ (97 ≤ c.toNat ∧ c.toNat ≤ 122) → c ≠ 0#8 ∧ c ≠ 1#8) := by decide +kernel
        obtain ⟨k1, k2, k3⟩ := key c
        rw [hsp, hxd] at k1
        rw [hal, hxd] at k2
        rw [← cSpace_iff, hsp, hxd, hd]
        cases sp with
        | true =>
          obtain ⟨x1, x2, x3⟩ := k1 rfl
          obtain ⟨o1, o2, o3, o4⟩ := detectSpace_other t
          rw [if_pos rfl, detectSpace_json]
          simp [hc, o1, o2, o3, o4, x1, x2, x3]
        | false =>
          rw [if_neg (by simp)]
          by_cases hax : (al || xd) = true
          · rw [if_pos hax]
            have hax' : al = true ∨ xd = true := by simpa using hax
            obtain ⟨o1, o2, o3, o4⟩ := detectHex_other ((c :: t).take 16)
            have hr := k2.1 (by simpa using hax')
            obtain ⟨x2, x3⟩ := k3 hr
            refine ⟨iff_of_false o1 (by simp [hc]), ?_, iff_of_false o2 (by simp [x2, x3]), iff_of_false o3 ?_, iff_of_false o4 (by simp)⟩
            · rw [detectHex_hex]
              simp [hxd]
            · rintro ⟨-, -, -, -, -, h1, h2, h3⟩
              rcases hr with h | h | h
              exacts [h1 h, h2 h, h3 h]
          · rw [if_neg hax]
            have hax' : al = false ∧ xd = false := by simpa using hax
            obtain ⟨rfl, rfl⟩ := hax'
            have hr := mt k2.2 (by simp)
            rw [not_or, not_or] at hr
            by_cases h01 : c = 0#8 ∨ c = 1#8
            · rw [if_pos h01]
              refine ⟨by simp [hc], by simp, by simp [h01], iff_of_false (by simp) ?_, by simp⟩
              rintro ⟨-, -, h0, h1, -⟩
              rcases h01 with h | h
              exacts [h0 h, h1 h]
            · rw [if_neg h01]
              rw [not_or] at h01
              simp [hc, h01, h128, hr.1, hr.2.1, hr.2.2]
      · have hd : detect (c :: t) = .ub := by
          rw [detect, if_neg hc, hsp, hal, hxd]
        rw [hd, ← cSpace_iff, hsp, hxd]
        have : c ≠ 0#8 ∧ c ≠ 1#8 := by constructor <;> (rintro rfl; simp at h128)
        simp [hc, this, h128]

/-! ### What the writers leave behind -/

theorem first_append {c : Byte} {a b : List Byte} (h : a.head? = some c) : (a ++ b).head? = some c := by
  cases a with
  | nil => cases h
  | cons x a => exact h

theorem featT_first (fl : Flags) {t : List Byte} (h : t.head? = some 0x7B#8) : (featT fl t).head? = some 0x7B#8 := by
  unfold featT
  cases fl.isFeature
  · simpa using h
  · exact first_append (first_append rfl)

theorem baseT_first (fl : Flags) (x : Option (List Byte)) {a b : Byte} {t : List Byte} (h : a = 0x7B#8) : (baseT fl x (a :: b :: t)).head? = some 0x7B#8 := by
  subst h
  unfold baseT
  cases hf : fl.isFeature
  · refine first_append ?_
    rw [if_neg (by simp), List.nil_append, if_neg (by simp), extraT]
    split
    · rw [List.dropLast_cons_of_ne_nil (by simp)]; rfl
    · rfl
  · refine first_append (first_append ?_)
    rw [if_pos rfl, featHeadT]
    exact first_append (first_append rfl)

theorem jsonT_first (num : F64 → List Byte) (g : Geom) : (jsonT num g).head? = some 0x7B#8 := by
  cases g with
  | point fl p => exact featT_first fl rfl
  | line fl l => exact featT_first fl rfl
  | poly fl l => exact featT_first fl rfl
  | gpoint fl p z m x => rw [jsonT]; exact baseT_first fl x rfl
  | gline fl l c x => rw [jsonT]; exact baseT_first fl x rfl
  | gpoly fl l c x => rw [jsonT]; exact baseT_first fl x rfl
  | mpoint fl l c x => rw [jsonT]; exact baseT_first fl x rfl
  | mline fl l c x => rw [jsonT]; exact baseT_first fl x rfl
  | mpoly fl l c x => rw [jsonT]; exact baseT_first fl x rfl
  | coll fl h gs c x => rw [jsonT]; cases fl.isFeatureCol <;> exact baseT_first fl x rfl
  | err e => rfl

theorem wktT_first (num : F64 → List Byte) (g : Geom) : ∃ c ∈ [0x50#8, 0x4C#8, 0x4D#8, 0x47#8], (wktT num g).head? = some c := by
  cases g with
  | point fl p => exact ⟨0x50#8, by simp, rfl⟩
  | line fl l => exact ⟨0x4C#8, by simp, rfl⟩
  | poly fl l => exact ⟨0x50#8, by simp, rfl⟩
  | gpoint fl p z m x => exact ⟨0x50#8, by simp, by rw [wktT]; rfl⟩
  | gline fl l c x => exact ⟨0x4C#8, by simp, by rw [wktT]; rfl⟩
  | gpoly fl l c x => exact ⟨0x50#8, by simp, by rw [wktT]; rfl⟩
  | mpoint fl l c x => exact ⟨0x4D#8, by simp, by rw [wktT]; rfl⟩
  | mline fl l c x => exact ⟨0x4D#8, by simp, by rw [wktT]; rfl⟩
  | mpoly fl l c x => exact ⟨0x4D#8, by simp, by rw [wktT]; rfl⟩
  | coll fl h gs c x => exact ⟨0x47#8, by simp, by rw [wktT]; rfl⟩
  | err e => exact ⟨0x50#8, by simp, rfl⟩

theorem head_cons {c : Byte} {t : List Byte} (h : t.head? = some c) : ∃ r, t = c :: r := by
  cases t with
  | nil => cases h
  | cons x t => cases h; exact ⟨t, rfl⟩

theorem encode_first (v : GV) : ∃ t, encode v = 1#8 :: t := by
  match v with
  | .point z m (some p) => rw [encode]; exact ⟨_, rfl⟩
  | .point z m none => rw [encode]; exact ⟨_, rfl⟩
  | .line z m ps => rw [encode]; exact ⟨_, rfl⟩
  | .poly z m rs => rw [encode]; exact ⟨_, rfl⟩
  | .mpoint z m ps => rw [encode]; exact ⟨_, rfl⟩
  | .mline z m ls => rw [encode]; exact ⟨_, rfl⟩
  | .mpoly z m ps => rw [encode]; exact ⟨_, rfl⟩
  | .coll gs => rw [encode]; exact ⟨_, rfl⟩

/-- C13 for `tg_geom_geojson`, for every geometry, Feature or FeatureCollection. -/
theorem C13_geojson_writer (nf : NumFmt) (hnf : ∀ x, x.isNormal = true → IsSci (nf.d2s x)) (g : Geom) (hg : NoNull g) (dst : List Byte) (n : Nat) (hn : n ≤ dst.length)
    (hfit : (tgGeomGeojson nf g dst n).count < n) :
    let t := (tgGeomGeojson nf g dst n).dst.take (tgGeomGeojson nf g dst n).count
    tgParse gj sd t = some (gj t) := by
  dsimp only
  have h := (by simpa using writeJson_holds hnf hn g hg (holds_start dst n hn) : Holds dst n (jsonT nf.text g) _).final hn
  have h' : Written dst n (jsonT nf.text g) (tgGeomGeojson nf g dst n) := h
  rw [written_text h' hfit]
  obtain ⟨r, hr⟩ := head_cons (jsonT_first nf.text g)
  rw [hr]
  exact (C13_formats gj sd).1 [] r (by simp [Ws])

/-- C13 for `tg_geom_wkt`. -/
theorem C13_wkt_writer (nf : NumFmt) (hnf : ∀ x, x.isNormal = true → IsSci (nf.d2s x)) (g : Geom) (hg : NoNull g) (dst : List Byte) (n : Nat) (hn : n ≤ dst.length)
    (hfit : (tgGeomWkt nf g dst n).count < n) :
    let t := (tgGeomWkt nf g dst n).dst.take (tgGeomWkt nf g dst n).count
    tgParse gj sd t = some (Wp.tgParseWkt sd t) := by
  dsimp only
  have h := (by simpa using writeWkt_holds hnf hn g hg (holds_start dst n hn) : Holds dst n (wktT nf.text g) _).final hn
  have h' : Written dst n (wktT nf.text g) (tgGeomWkt nf g dst n) := h
  rw [written_text h' hfit]
  obtain ⟨c, hc, hh⟩ := wktT_first nf.text g
  obtain ⟨r, hr⟩ := head_cons hh
  rw [hr]
  have key : ∀ c ∈ [0x50#8, 0x4C#8, 0x4D#8, 0x47#8], cSpace c = some false ∧ cAlpha c = some true ∧ cXdigit c = some false ∧ c ≠ 0x7B#8 := by decide +kernel
  obtain ⟨h0, h1, h2, h3⟩ := key c hc
  have := detect_letter (w := []) (t := r) (by simp [Ws]) h0 h1 h2 h3
  rw [List.nil_append] at this
  rw [tgParse, this]

/-- C13 for `tg_geom_wkb`. -/
theorem C13_wkb_writer (g : Geom) (v : GV) (hg : view g = some v) (hf : Fits v) (dst : List Byte) (n : Nat) (hn : n ≤ dst.length) (hfit : (tgGeomWkb g dst n).count ≤ n) :
    let t := (tgGeomWkb g dst n).dst.take (tgGeomWkb g dst n).count
    tgParse gj sd t = some (tgParseWkb t) := by
  dsimp only
  obtain ⟨-, h1, h2⟩ := C02_wkb_writer g v hg hf dst n hn
  rw [h1] at hfit
  rw [h1, h2, List.take_of_length_le hfit, List.take_left]
  obtain ⟨t, ht⟩ : ∃ t, encode v = 1#8 :: t := encode_first v
  rw [ht, tgParse, detect_wkb (.inr rfl)]

/-- C13 for `tg_geom_hex`. -/
theorem C13_hex_writer (g : Geom) (v : GV) (hg : view g = some v) (hf : Fits v) (dst : List Byte) (n : Nat) (hn : n ≤ dst.length) (hfit : (tgGeomHex g dst n).count < n) :
    let t := (tgGeomHex g dst n).dst.take (tgGeomHex g dst n).count
    tgParse gj sd t = some (tgParseHex t) := by
  dsimp only
  obtain ⟨-, h1, h2⟩ := C06_hex_writer g v hg hf dst n hn
  rw [h1] at hfit
  have hl : (hexText (encode v)).length = 2 * (encode v).length := by
    have := hexOf_length (hexOf_hexText (encode v)); omega
  rw [h1, h2, if_neg (by omega), List.take_of_length_le (l := hexText (encode v)) (by omega), ← hl, List.take_left]
  obtain ⟨t, ht⟩ : ∃ t, encode v = 1#8 :: t := encode_first v
  exact (C13_formats gj sd).2.2.1 _ _ (hexOf_hexText _) (by rw [ht]; simp [hexText])

/-- C13 for `tg_geom_geobin`. -/
theorem C13_geobin_writer (P : Platform) (g : Geom) (f : FV) (hg : fview g = some f) (hf : FFits f) (dst : List Byte) (n : Nat) (hn : n ≤ dst.length)
    (hfit : (tgGeomGeobin P g dst n).count ≤ n) :
    let t := (tgGeomGeobin P g dst n).dst.take (tgGeomGeobin P g dst n).count
    tgParse gj sd t = some (tgParseGeobin t) := by
  dsimp only
  obtain ⟨bs, h1, -, h3⟩ := writeGeobin_writes P g f hg
  have hok : Wr.Ok ⟨dst, n, 0, false⟩ := hn
  have h4 : tgGeomGeobin P g dst n = Wr.bytes ⟨dst, n, 0, false⟩ bs := h1 hf _ hok
  have h5 : (tgGeomGeobin P g dst n).count = bs.length := by rw [h4, Wr.bytes_count]; simp
  have h6 : (tgGeomGeobin P g dst n).dst = bs.take n ++ dst.drop (min n bs.length) := by rw [h4, Wr.bytes_dst hok]; simp
  rw [h5] at hfit
  rw [h5, h6, List.take_of_length_le hfit, List.take_left]
  rcases h3 with ⟨v, -, -, -, rfl⟩ | h3
  · obtain ⟨t, ht⟩ : ∃ t, encode v = 1#8 :: t := encode_first v
    rw [ht, tgParse, detect_wkb (.inr rfl), geobin_one]
  · obtain ⟨h, t, rfl, hh⟩ : ∃ h t, bs = h :: t ∧ (h = 2#8 ∨ h = 3#8 ∨ h = 4#8) := by obtain ⟨h, b, r, e1, e2⟩ := h3; exact ⟨h, _, e2, e1⟩
    rcases hh with rfl | rfl | rfl <;> rfl

/-- Detection reads characters as `char`: a first byte from 0x80 on is handed to `isspace` as a negative number. -/
theorem C13_high_byte_undefined (t : List Byte) (c : Byte) (h : 128 ≤ c.toNat) : tgParse gj sd (c :: t) = some .ub := by
  have h0 : ¬ c.toNat < 128 := by omega
  have h1 : c ≠ 0x7B#8 := by rintro rfl; simp at h
  rw [tgParse, detect, if_neg h1, cSpace, ctype, if_neg h0]

/-- Hexadecimal text with white space in front is taken for Well-Known Text. -/
theorem C13_space_before_hex (s : List Byte) (bs : List Byte) (h : HexOf s bs) : tgParse gj sd (0x20#8 :: s) = some (Wp.tgParseWkt sd (0x20#8 :: s)) := by
  have hd := hexOf_digits h
  have h1 : detect (0x20#8 :: s) = detectSpace s := rfl
  cases s with
  | nil => rfl
  | cons c t =>
    obtain ⟨v, hv⟩ := hd c (by simp)
    rw [tgParse, h1, detectSpace, (isHex_class hv).2.1]
    dsimp only
    rw [if_neg (isHex_class hv).2.2.2]

/-- The collection of the C14 example and the Feature of C18 meet the conditions for the text writers, the WKB and GeoBIN samples those for the others. -/
example : NoNull roundGeom ∧ (tgGeomWkt (demoFmt false) roundGeom (List.replicate 100 0#8) 100).count < 100 ∧ NoNull demoFeature ∧
    (tgGeomGeojson (demoFmt false) demoFeature (List.replicate 110 0#8) 110).count < 110 ∧ (∃ f, fview geobinSample = some f ∧ FFits f) :=
  ⟨round_meets.1, by decide +kernel, trivial, by decide +kernel, _, geobinSample_ok.1, fvalid_fits _ geobinSample_ok.2.1⟩

/-- Instances: WKB in hexadecimal, and the same in capitals with the other byte order. -/
example : tgParse gj sd (txt "0101000000000000000000f03f0000000000000040") = some (tgParseHex (txt "0101000000000000000000f03f0000000000000040")) ∧
    tgParse gj sd (txt "POINT(1 2)") = some (Wp.tgParseWkt sd (txt "POINT(1 2)")) ∧ tgParse gj sd (txt "\n {}") = some (gj (txt "\n {}")) ∧
    tgParse gj sd [0, 0, 0, 0, 1] = some (tgParseWkb [0, 0, 0, 0, 1]) := ⟨rfl, rfl, rfl, rfl⟩

end Tg
