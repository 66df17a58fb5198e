import Verif.Lemmas.GeojsonWhole
/-! How deep the GeoJSON parser recurses on standard JSON. -/
set_option linter.unusedSectionVars false
namespace Tg.Gp
open Json
open Wp (P Safe bind_ok safe_ok safe_err)
open Spec.Json (Ws Val Elems Mems Str Utf8)
open Spec.Geojson (Items IsArr)
open Spec (nest nests)

variable {sd : List Byte → F64 × Nat}

/-- `j` is at a value of at most `n` levels. -/
def Lv (n : Nat) (j : Option J) : Prop := ∃ t r, Val Str n t ∧ Here j t r

theorem val_pos {n : Nat} {t : List Byte} (h : Val Str n t) : 0 < n := by cases h <;> omega

theorem val_members {n : Nat} {t : List Byte} (h : Val Str n t) (hh : t.head? = some 0x7B#8) : ∃ m ms, n = m + 1 ∧ Spec.Geojson.IsObj ms t ∧ ∀ x ∈ ms, Val Str m x.2 := by
  cases h with
  | null | true_ | false_ | arr0 | arr => simp at hh
  | num _ _ h =>
    obtain ⟨b, t, rfl, hb⟩ := number_head h
    simp at hh; subst hh
    rcases hb with hb | hb
    · exact absurd hb (by decide)
    · exact absurd hb.2 (by decide)
  | str _ _ h => obtain ⟨cs, -, rfl⟩ := h; simp at hh
  | obj0 m w hw => exact ⟨m, [], rfl, ⟨by simp, w, .inl ⟨rfl, hw⟩, rfl⟩, by simp⟩
  | obj m l hl =>
    obtain ⟨ms, h1, h2⟩ := mems_members hl
    exact ⟨m, ms, rfl, ⟨fun x hx => ⟨(h2 x hx).1, m, (h2 x hx).2⟩, l, .inr h1, rfl⟩, fun x hx => (h2 x hx).2⟩

theorem val_items {n : Nat} {t : List Byte} (h : Val Str n t) (hh : t.head? = some 0x5B#8) : ∃ m vs, n = m + 1 ∧ IsArr vs t ∧ ∀ x ∈ vs, Val Str m x := by
  cases h with
  | null | true_ | false_ | obj0 | obj => simp at hh
  | num _ _ h =>
    obtain ⟨b, t, rfl, hb⟩ := number_head h
    simp at hh; subst hh
    rcases hb with hb | hb
    · exact absurd hb (by decide)
    · exact absurd hb.2 (by decide)
  | str _ _ h => obtain ⟨cs, -, rfl⟩ := h; simp at hh
  | arr0 m w hw => exact ⟨m, [], rfl, ⟨w, .inl ⟨rfl, hw⟩, rfl⟩, by simp⟩
  | arr m l hl =>
    obtain ⟨vs, -, h1, h2⟩ := elems_items hl
    exact ⟨m, vs, rfl, ⟨l, .inr h1, rfl⟩, h2⟩

theorem here_type {j : Option J} {t r : List Byte} (h : Here j t r) : ∃ b, t.head? = some b ∧ jtype j = jtype (some ⟨[b], 0, false⟩) := by
  obtain ⟨i, rfl, h1, h2, h3⟩ := id h
  cases t with
  | nil => exact absurd rfl h3
  | cons b t => exact ⟨b, rfl, by rw [jtype, jtype, h.head rfl]; rfl⟩

theorem type_obj {j : Option J} {t r : List Byte} (h : Here j t r) (hj : jtype j = .object) : t.head? = some 0x7B#8 := by
  obtain ⟨b, h1, h2⟩ := here_type h
  rw [h2] at hj
  rw [h1]
  have : ∀ b : Byte, jtype (some ⟨[b], 0, false⟩) = .object → b = 0x7B#8 := by decide +kernel
  rw [this b hj]

theorem type_arr {j : Option J} {t r : List Byte} (h : Here j t r) (hj : jtype j = .array) : t.head? = some 0x5B#8 := by
  obtain ⟨b, h1, h2⟩ := here_type h
  rw [h2] at hj
  rw [h1]
  have : ∀ b : Byte, jtype (some ⟨[b], 0, false⟩) = .array → b = 0x5B#8 := by decide +kernel
  rw [this b hj]

theorem takeLoop_mem (target : String) : ∀ (ps : List (Option J × Option J)) (a a' : Acc), takeLoop target a ps = .ok a' → a'.target = a.target ∨ ∃ p ∈ ps, a'.target = ensure p.2
  | [], a, a', h => by cases h; exact .inl rfl
  | (k, v) :: ps, a, a', h => by
    obtain ⟨a1, h1, h2⟩ := bind_ok h
    rcases takeLoop_mem target ps a1 a' h2 with h | ⟨p, hp, h⟩
    · unfold takeMember at h1
      have : a1.target = a.target ∨ a1.target = ensure v := by
        split_ifs at h1 <;> first | (cases h1; exact .inl rfl) | (cases h1; exact .inr rfl)
      rcases this with e | e
      · exact .inl (h.trans e)
      · exact .inr ⟨(k, v), by simp, h.trans e⟩
    · exact .inr ⟨p, by simp [hp], h⟩

theorem takeBasic_level {n : Nat} {j : Option J} (hj : jtype j = .object) (hl : Lv n j) {target : String} {b : Basic} (h : takeBasic j target = .ok b) :
    ∃ m, n = m + 1 ∧ Lv m b.target ∧ (target ≠ "geometry" → jtype b.target = .array) := by
  obtain ⟨t, r, hv, hh⟩ := hl
  obtain ⟨m, ms, rfl, ho, hm⟩ := val_members hv (type_obj hh hj)
  have hp := obj_pairs ho hh
  unfold takeBasic at h
  obtain ⟨a, h1, h⟩ := bind_ok h
  by_cases hn : a.target.isNone
  · rw [if_pos hn] at h; cases h
  rw [if_neg hn] at h
  obtain ⟨fl, h2, h⟩ := bind_ok h
  cases h
  refine ⟨m, rfl, ?_, ?_⟩
  · rcases takeLoop_mem target _ _ _ h1 with e | ⟨p, hp', e⟩
    · rw [e] at hn; simp at hn
    · obtain ⟨i, hi, rfl⟩ := List.mem_iff_getElem.1 hp'
      have hlen := hp.length_eq
      have hmem := hp.get (i := i) hi (by omega)
      simp only [List.get_eq_getElem] at hmem
      obtain ⟨-, r2, -, h2⟩ := hmem
      exact ⟨_, r2, hm _ (List.getElem_mem (hlen ▸ hi)), by rw [e]; exact h2.ensure⟩
  · intro hg
    rw [if_neg hg] at h2
    by_contra hc
    rw [if_pos hc] at h2
    cases h2

theorem array_level {n : Nat} {j : Option J} (hj : jtype j = .array) (hl : Lv n j) : ∃ m ts, n = m + 1 ∧ Walk ts (first j) ∧ ∀ t ∈ ts, Val Str m t := by
  obtain ⟨t, r, hv, hh⟩ := hl
  obtain ⟨m, ts, rfl, ha, hm⟩ := val_items hv (type_arr hh hj)
  exact ⟨m, ts, rfl, arr_walk ha (fun v hv => ⟨m, hm v hv⟩) hh, hm⟩

theorem childLoop_level {child : Option J → P Geom} {chk : Geom → Option String} {n : Nat} (hc : ∀ j, Lv n j → Safe (child j)) (f : Nat) :
    ∀ (ts : List (List Byte)) (j : Option J), Walk ts j → (∀ t ∈ ts, Val Str n t) → size j < f → Safe (childLoop child chk f j) := by
  induction f with
  | zero => intro ts j _ _ h; omega
  | succ f ih =>
    intro ts j hw ht hs
    cases ts with
    | nil => rw [Walk] at hw; subst hw; exact safe_ok _
    | cons t ts =>
      obtain ⟨⟨r, hh⟩, hw⟩ := hw
      have hl : Lv n j := ⟨t, r, ht t (by simp), hh⟩
      obtain ⟨i, rfl, hne⟩ := here_some hh
      rw [childLoop]
      have := size_next hne
      refine (hc _ hl).bind fun g _ => ?_
      split
      · exact safe_err _
      · exact (ih ts _ hw (fun t h => ht t (by simp [h])) (by omega)).bind fun gs _ => safe_ok _

theorem depth_safe (n : Nat) : ∀ (d : Nat), n ≤ d → ∀ (j : Option J) (req : Bool), Lv n j → Safe (parseGeojson sd d j req) := by
  induction n using Nat.strong_induction_on with
  | _ n ih =>
    intro d hd j req hl
    have hpos : 0 < n := by obtain ⟨t, r, hv, -⟩ := hl; exact val_pos hv
    obtain ⟨d, rfl⟩ : ∃ e, d = e + 1 := ⟨d - 1, by omega⟩
    rw [parseGeojson]
    by_cases hj : jtype j ≠ .object
    · rw [if_pos hj]; exact safe_err _
    rw [if_neg hj]
    rw [not_not] at hj
    split
    · exact safe_err _
    dsimp only
    split_ifs
    · exact parsePoint_safe _ _
    · exact parseLine_safe _ _
    · exact parsePolygon_safe _ _
    · exact parseMPoint_safe _
    · exact parseMLine_safe _
    · exact parseMPoly_safe _
    · unfold parseColl
      refine (takeBasic_safe _ _).bind fun b hb => ?_
      obtain ⟨m, rfl, h1, h2⟩ := takeBasic_level hj hl hb
      obtain ⟨m, ts, rfl, h3, h4⟩ := array_level (h2 (by decide)) h1
      have := size_first b.target
      exact (childLoop_level (fun j hj => ih m (by omega) d (by omega) j false hj) _ ts _ h3 h4 (by omega)).bind fun gs _ => finish_safe fun _ => trivial
    · unfold parseFeature
      refine (takeBasic_safe _ _).bind fun b hb' => ?_
      obtain ⟨m, rfl, h1, h2⟩ := takeBasic_level hj hl hb'
      refine Safe.bind ?_ fun g hg => ?_
      · split_ifs
        · exact safe_ok _
        · exact ih m (by omega) d (by omega) _ _ h1
      · split_ifs with hf
        · exact safe_err _
        · dsimp only
          split
          · refine finish_safe fun hx => boxed_addFlags.2 ?_
            rw [hx] at hg
            split_ifs at hg
            · cases hg; trivial
            · rcases (parseGeojson_boxed d _ true g hg).2 rfl with h | h
              · exact h
              · exact absurd (by rw [h]; rfl) hf
          · rename_i x hx
            exact finish_safe fun _ => xjson_boxed hx
    · unfold parseFeatureColl
      refine (takeBasic_safe _ _).bind fun b hb => ?_
      obtain ⟨m, rfl, h1, h2⟩ := takeBasic_level hj hl hb
      obtain ⟨m, ts, rfl, h3, h4⟩ := array_level (h2 (by decide)) h1
      have := size_first b.target
      exact (childLoop_level (fun j hj => ih m (by omega) d (by omega) j false hj) _ ts _ h3 h4 (by omega)).bind fun gs _ => finish_safe fun _ => trivial
    · exact safe_err _

/-! ### The result -/

theorem nest_addFlags (g : Geom) (f : Flags) : nest (addFlags g f) = nest g := by cases g <;> rfl

theorem nest_finish {fl : Flags} {x : Option (List Byte)} {g g' : Geom} (h : finish fl x g = .ok g') : nest g' = nest g := by
  unfold finish setX at h
  cases x with
  | none => cases h; exact nest_addFlags g fl
  | some x => cases g <;> simp only [addFlags] at h <;> cases h <;> rfl

theorem childLoop_nest {child : Option J → P Geom} {chk : Geom → Option String} {n : Nat} (hc : ∀ j g, Lv n j → child j = .ok g → 2 * nest g ≤ n) (f : Nat) :
    ∀ (ts : List (List Byte)) (j : Option J) (gs : List Geom), Walk ts j → (∀ t ∈ ts, Val Str n t) → childLoop child chk f j = .ok gs → 2 * nests gs ≤ n + 2 := by
  induction f with
  | zero => intro ts j gs _ _ h; cases h
  | succ f ih =>
    intro ts j gs hw ht h
    cases ts with
    | nil => rw [Walk] at hw; subst hw; rw [childLoop] at h; cases h; simp [nests]
    | cons t ts =>
      obtain ⟨⟨r, hh⟩, hw⟩ := hw
      have hl : Lv n j := ⟨t, r, ht t (by simp), hh⟩
      obtain ⟨i, rfl, hne⟩ := here_some hh
      rw [childLoop] at h
      obtain ⟨g, h1, h⟩ := bind_ok h
      split at h
      · cases h
      · obtain ⟨gs', h2, h⟩ := bind_ok h
        cases h
        have e1 := hc _ g hl h1
        have e2 := ih ts _ gs' hw (fun t h => ht t (by simp [h])) h2
        simp only [nests]; omega

theorem depth_nest (d : Nat) : ∀ (n : Nat) (j : Option J) (req : Bool), Lv n j → ∀ g, parseGeojson sd d j req = .ok g → 2 * nest g ≤ n := by
  induction d with
  | zero => intro n j req _ g h; cases h
  | succ d ih =>
    intro n j req hl g h
    have hpos : 0 < n := by obtain ⟨t, r, hv, -⟩ := hl; exact val_pos hv
    rw [parseGeojson] at h
    by_cases hj : jtype j ≠ .object
    · rw [if_pos hj] at h; cases h
    rw [if_neg hj] at h
    rw [not_not] at hj
    split at h
    · cases h
    dsimp only at h
    split_ifs at h
    · unfold parsePoint at h
      obtain ⟨b, -, h⟩ := bind_ok h
      split_ifs at h
      · rw [nest_finish h]; simp [nest]
      · obtain ⟨ps, -, h⟩ := bind_ok h
        by_cases h1 : ps.length < 2
        · rw [if_pos h1] at h; cases h
        rw [if_neg h1] at h
        rw [nest_finish h]; split_ifs <;> simp [nest]
    · unfold parseLine at h
      obtain ⟨b, -, h⟩ := bind_ok h
      split_ifs at h
      · rw [nest_finish h]; simp [nest]
      · obtain ⟨ps, -, h⟩ := bind_ok h
        rw [nest_finish h]; split_ifs <;> simp [nest]
    · unfold parsePolygon at h
      obtain ⟨b, -, h⟩ := bind_ok h
      split_ifs at h
      · rw [nest_finish h]; simp [nest]
      · obtain ⟨ps, -, h⟩ := bind_ok h
        rw [nest_finish h]; split_ifs <;> simp [nest]
    · unfold parseMPoint at h
      obtain ⟨b, -, h⟩ := bind_ok h
      obtain ⟨ps, -, h⟩ := bind_ok h
      rw [nest_finish h]; simp [nest]
    · unfold parseMLine at h
      obtain ⟨b, -, h⟩ := bind_ok h
      obtain ⟨ps, -, h⟩ := bind_ok h
      rw [nest_finish h]; simp [nest]
    · unfold parseMPoly at h
      obtain ⟨b, -, h⟩ := bind_ok h
      obtain ⟨ps, -, h⟩ := bind_ok h
      rw [nest_finish h]; simp [nest]
    · unfold parseColl at h
      obtain ⟨b, hb, h⟩ := bind_ok h
      obtain ⟨gs, hg, h⟩ := bind_ok h
      obtain ⟨m, rfl, h1, h2⟩ := takeBasic_level hj hl hb
      obtain ⟨m, ts, rfl, h3, h4⟩ := array_level (h2 (by decide)) h1
      have := childLoop_nest (fun j g hj hg => ih m j false hj g hg) _ ts _ _ h3 h4 hg
      rw [nest_finish h]; simp only [nest]; omega
    · unfold parseFeature at h
      obtain ⟨b, hb, h⟩ := bind_ok h
      obtain ⟨g', hg, h⟩ := bind_ok h
      obtain ⟨m, rfl, h1, h2⟩ := takeBasic_level hj hl hb
      have e : 2 * nest g' ≤ m := by
        split_ifs at hg
        · cases hg; simp [nest]
        · exact ih m _ _ h1 _ hg
      split_ifs at h
      dsimp only at h
      split at h <;> rw [nest_finish h, nest_addFlags] <;> omega
    · unfold parseFeatureColl at h
      obtain ⟨b, hb, h⟩ := bind_ok h
      obtain ⟨gs, hg, h⟩ := bind_ok h
      obtain ⟨m, rfl, h1, h2⟩ := takeBasic_level hj hl hb
      obtain ⟨m, ts, rfl, h3, h4⟩ := array_level (h2 (by decide)) h1
      have := childLoop_nest (fun j g hj hg => ih m j false hj g hg) _ ts _ _ h3 h4 hg
      rw [nest_finish h]; simp only [nest]; omega

end Tg.Gp
