import Verif.Lemmas.Parsed
import Verif.Lemmas.GeojsonFeature
/-! What the GeoJSON parser builds is a geometry. -/
set_option linter.unusedSectionVars false
namespace Tg.Gp
open Json Spec Spec.Wkt
open Wp (P Base checkBase dimFlags polyOf showBytes Safe bind_ok safe_ok safe_err Found PosLen Checked Rings)

variable {sd : List Byte → F64 × Nat}

/-! ### Flags and extra members -/

/-- Made of parts. -/
def Multi : Geom → Prop
  | .mpoint .. | .mline .. | .mpoly .. | .coll .. => True
  | _ => False

theorem sound_addFlags {g : Geom} {f : Flags} (h : Sound g) (hz : f.hasZ = false) (hm : f.hasM = false) (he : f.isEmpty = true → Multi g ∨ g.flags.isEmpty = true) : Sound (addFlags g f) := by
  obtain ⟨v, h1, h2, h3, h4⟩ := h
  cases g with
  | err e => simp [view] at h1
  | point fl p =>
    have hfe : f.isEmpty = true → fl.isEmpty = true := fun e => (he e).resolve_left id
    refine ⟨v, ?_, h2, trivial, trivial⟩
    simp only [addFlags, view, orFlags, hz, hm, Bool.or_false] at h1 ⊢; exact h1
  | line fl p =>
    refine ⟨v, ?_, h2, trivial, h4⟩
    simp only [addFlags, view, orFlags, hz, hm, Bool.or_false] at h1 ⊢; exact h1
  | poly fl p =>
    refine ⟨v, ?_, h2, trivial, trivial⟩
    simp only [addFlags, view, orFlags, hz, hm, Bool.or_false] at h1 ⊢; exact h1
  | gpoint fl p z m x =>
    have hfe : (fl.isEmpty || f.isEmpty) = fl.isEmpty := by
      cases e : f.isEmpty
      · simp
      · rw [(he e).resolve_left id |> (fun h => (h : fl.isEmpty = true))]; rfl
    refine ⟨v, ?_, h2, trivial, trivial⟩
    simp only [addFlags, view, orFlags, hz, hm, Bool.or_false, hfe] at h1 ⊢; exact h1
  | gline fl l c x =>
    have hfe : (fl.isEmpty || f.isEmpty) = fl.isEmpty := by
      cases e : f.isEmpty
      · simp
      · rw [(he e).resolve_left id |> (fun h => (h : fl.isEmpty = true))]; rfl
    refine ⟨v, ?_, h2, ?_, ?_⟩
    · simp only [addFlags, view, orFlags, hz, hm, Bool.or_false, hfe] at h1 ⊢; exact h1
    · simp only [addFlags, NoNull, orFlags, hfe] at h3 ⊢; exact h3
    · simp only [addFlags, Filled, orFlags, hfe] at h4 ⊢; exact h4
  | gpoly fl l c x =>
    have hfe : (fl.isEmpty || f.isEmpty) = fl.isEmpty := by
      cases e : f.isEmpty
      · simp
      · rw [(he e).resolve_left id |> (fun h => (h : fl.isEmpty = true))]; rfl
    refine ⟨v, ?_, h2, ?_, trivial⟩
    · simp only [addFlags, view, orFlags, hz, hm, Bool.or_false, hfe] at h1 ⊢; exact h1
    · simp only [addFlags, NoNull, orFlags, hfe] at h3 ⊢; exact h3
  | mpoint fl l c x =>
    cases e : f.isEmpty
    · refine ⟨v, ?_, h2, trivial, trivial⟩
      simp only [addFlags, view, orFlags, hz, hm, Bool.or_false, e] at h1 ⊢; exact h1
    · refine ⟨.mpoint fl.hasZ fl.hasM [], ?_, fun p hp => absurd hp (by simp), trivial, trivial⟩
      simp only [addFlags, view, orFlags, hz, hm, Bool.or_false, e, Bool.or_true, if_true]
  | mline fl l c x =>
    cases e : f.isEmpty
    · refine ⟨v, ?_, h2, h3, trivial⟩
      simp only [addFlags, view, orFlags, hz, hm, Bool.or_false, e] at h1 ⊢; exact h1
    · refine ⟨.mline fl.hasZ fl.hasM [], ?_, fun p hp => absurd hp (by simp), h3, trivial⟩
      simp only [addFlags, view, orFlags, hz, hm, Bool.or_false, e, Bool.or_true, if_true]
  | mpoly fl l c x =>
    cases e : f.isEmpty
    · refine ⟨v, ?_, h2, h3, trivial⟩
      simp only [addFlags, view, orFlags, hz, hm, Bool.or_false, e] at h1 ⊢; exact h1
    · refine ⟨.mpoly fl.hasZ fl.hasM [], ?_, fun p hp => absurd hp (by simp), h3, trivial⟩
      simp only [addFlags, view, orFlags, hz, hm, Bool.or_false, e, Bool.or_true, if_true]
  | coll fl hm' gs c x =>
    cases e : f.isEmpty
    · refine ⟨v, ?_, h2, h3, ?_⟩
      · simp only [addFlags, view, orFlags, hz, hm, Bool.or_false, e] at h1 ⊢; exact h1
      · simp only [addFlags, Filled, orFlags, e, Bool.or_false] at h4 ⊢; exact h4
    · refine ⟨.coll [], ?_, trivial, h3, ?_⟩
      · simp only [view] at h1
        simp only [addFlags, view, orFlags, hz, hm, Bool.or_false, e, Bool.or_true, if_true]
        split_ifs at h1 ⊢ <;> rfl
      · simp only [addFlags, Filled, orFlags, e, Bool.or_true, true_or]

theorem sound_setX {g g' : Geom} {x : Option (List Byte)} (h : setX g x = .ok g') (hs : Sound g) : Sound g' := by
  unfold setX at h
  cases x with
  | none => cases h; exact hs
  | some x =>
    cases g <;> simp only at h <;> cases h <;> exact hs

theorem sound_finish {fl : Flags} {x : Option (List Byte)} {g g' : Geom} (h : finish fl x g = .ok g') (hs : Sound g) (hz : fl.hasZ = false) (hm : fl.hasM = false)
    (he : fl.isEmpty = true → Multi g ∨ g.flags.isEmpty = true) : Sound g' := sound_setX h (sound_addFlags hs hz hm he)

theorem takeBasic_flags {json : Option J} {target : String} {b : Basic} (h : takeBasic json target = .ok b) :
    b.flags.hasZ = false ∧ b.flags.hasM = false ∧ (target ≠ "geometry" → b.flags.isEmpty = (first b.target).isNone) := by
  unfold takeBasic at h
  obtain ⟨a, -, h⟩ := bind_ok h
  by_cases h0 : a.target.isNone = true
  · rw [if_pos h0] at h; cases h
  rw [if_neg h0] at h
  dsimp only at h
  obtain ⟨fl, h1, h⟩ := bind_ok h
  cases h
  dsimp only
  split_ifs at h1 with h2 h3 h4 h5
  · cases h1; exact ⟨rfl, rfl, fun h => absurd h2 h⟩
  · cases h1; exact ⟨rfl, rfl, fun h => absurd h2 h⟩
  · cases h1; exact ⟨rfl, rfl, fun _ => rfl⟩

/-! ### Positions -/

theorem numLoop_len (msg : String) : ∀ (f : Nat) (j : Option J) (ps r : List F64), ps.length ≤ 4 → numLoop sd msg f j ps = .ok r → r.length ≤ 4 := by
  intro f
  induction f with
  | zero => intro j ps r _ h; cases h
  | succ f ih =>
    intro j ps r hl h
    cases j with
    | none => cases h; exact hl
    | some v =>
      rw [numLoop] at h
      by_cases h0 : jtype (some v) ≠ .number
      · rw [if_pos h0] at h; cases h
      rw [if_neg h0] at h
      refine ih _ _ _ ?_ h
      split_ifs
      · simp; omega
      · exact hl

theorem posnLoop_found (depth : Nat) : ∀ (f d : Nat) (j : Option J) (r : Nat × List (List F64)), posnLoop sd depth f d j = .ok r → (d = 0 ∨ 2 ≤ d ∧ d ≤ 4) → Found PosLen d r := by
  intro f
  induction f with
  | zero => intro d j r h; cases h
  | succ f ih =>
    intro d j r h hd
    cases j with
    | none => cases h; exact .nil
    | some v =>
      rw [posnLoop] at h
      by_cases h0 : jtype (some v) ≠ .array
      · rw [if_pos h0] at h; cases h
      rw [if_neg h0] at h
      obtain ⟨ps, e1, h⟩ := bind_ok h
      have hl := numLoop_len _ _ _ _ _ (by simp) e1
      dsimp only at h
      by_cases h2 : ps.length < 2
      · rw [if_pos h2] at h; cases h
      rw [if_neg h2] at h
      by_cases h3 : ps.length ≠ if d = 0 then ps.length else d
      · rw [if_pos h3] at h; cases h
      rw [if_neg h3] at h
      obtain ⟨q, e2, h⟩ := bind_ok h
      cases h
      rw [not_not] at h3
      rw [← h3] at e2
      have hk : 2 ≤ ps.length ∧ ps.length ≤ 4 := by omega
      refine .cons hk ?_ rfl (ih _ _ _ e2 (.inr hk))
      split_ifs at h3 with h4
      · exact .inl h4
      · exact .inr h3.symm

theorem parsePosns_found {base : Base} {depth d : Nat} {j : Option J} {r : Nat × List (List F64)} (h : parsePosns sd base depth d j = .ok r) (hd : d = 0 ∨ 2 ≤ d ∧ d ≤ 4) :
    Found PosLen d r ∧ checkBase base (r.2.map ptOf) = none := by
  unfold parsePosns at h
  obtain ⟨r', h1, h⟩ := bind_ok h
  split at h
  · cases h
  · rename_i hc
    cases h
    exact ⟨posnLoop_found _ _ _ _ _ h1 hd, hc⟩

theorem arrLoop_found {α : Type} {msg : String} {inner : Nat → Option J → P (Nat × α)} {Q : Nat → α → Prop}
    (hi : ∀ d j a, inner d j = .ok a → (d = 0 ∨ 2 ≤ d ∧ d ≤ 4) → (2 ≤ a.1 ∧ a.1 ≤ 4) ∧ (d = 0 ∨ d = a.1) ∧ Q a.1 a.2) :
    ∀ (f d : Nat) (j : Option J) (r : Nat × List α), arrLoop msg inner f d j = .ok r → (d = 0 ∨ 2 ≤ d ∧ d ≤ 4) → Found Q d r := by
  intro f
  induction f with
  | zero => intro d j r h; cases h
  | succ f ih =>
    intro d j r h hd
    cases j with
    | none => cases h; exact .nil
    | some v =>
      rw [arrLoop] at h
      by_cases h0 : jtype (some v) ≠ .array
      · rw [if_pos h0] at h; cases h
      rw [if_neg h0] at h
      obtain ⟨a, e1, h⟩ := bind_ok h
      obtain ⟨q, e2, h⟩ := bind_ok h
      cases h
      obtain ⟨k1, k2, k3⟩ := hi _ _ _ e1 hd
      exact .cons k1 k2 k3 (ih _ _ _ e2 (.inr k1))

theorem posns_inner {base : Base} (hb : base ≠ .point) {depth d : Nat} {j : Option J} {a : Nat × List (List F64)} (h : parsePosns sd base depth d j = .ok a) (hd : d = 0 ∨ 2 ≤ d ∧ d ≤ 4) :
    (2 ≤ a.1 ∧ a.1 ≤ 4) ∧ (d = 0 ∨ d = a.1) ∧ Checked base a.1 a.2 := by
  obtain ⟨h1, h2⟩ := parsePosns_found h hd
  obtain ⟨h3, h4⟩ := h1.2.1 (Wp.checked_ne hb h2)
  exact ⟨h3, h4, h1.2.2, h2⟩

theorem parseRings_found {depth d : Nat} {j : Option J} {a : Nat × List (List (List F64))} (h : parseRings sd depth d j = .ok a) (hd : d = 0 ∨ 2 ≤ d ∧ d ≤ 4) :
    (2 ≤ a.1 ∧ a.1 ≤ 4) ∧ (d = 0 ∨ d = a.1) ∧ Rings a.1 a.2 := by
  unfold parseRings at h
  obtain ⟨r, h1, h⟩ := bind_ok h
  split_ifs at h with h0
  cases h
  have := arrLoop_found (Q := Checked .ring) (fun d j a h hd => posns_inner (by simp) h hd) _ _ _ _ h1 hd
  exact ⟨(this.2.1 h0).1, (this.2.1 h0).2, h0, this.2.2⟩

/-! ### The types -/

theorem none_empty {b : Bool} (h : ¬ b = true) {p : Prop} : b = true → p := fun e => absurd e h

theorem parsePoint_sound {json : Option J} {req : Bool} {g : Geom} (h : parsePoint sd json req = .ok g) : Sound g := by
  unfold parsePoint at h
  obtain ⟨b, hb, h⟩ := bind_ok h
  obtain ⟨f1, f2, -⟩ := takeBasic_flags hb
  by_cases he : b.flags.isEmpty = true
  · rw [if_pos he] at h
    exact sound_finish h (Wp.sound_empty .point) f1 f2 fun _ => .inr rfl
  rw [if_neg he] at h
  obtain ⟨ps, e1, h⟩ := bind_ok h
  have hl := numLoop_len _ _ _ _ _ (by simp) e1
  by_cases h2 : ps.length < 2
  · rw [if_pos h2] at h; cases h
  rw [if_neg h2] at h
  refine sound_finish h ?_ f1 f2 (none_empty he)
  match ps, h2, hl with
  | [x, y], _, _ =>
    split_ifs
    · exact Wp.sound_point (z := false) (m := false) (p := [x, y]) rfl rfl trivial trivial
    · exact Wp.sound_point (z := false) (m := false) (p := [x, y]) rfl rfl trivial trivial
    all_goals simp_all
  | [x, y, a], _, _ =>
    rw [if_neg (by simp), if_neg (by simp), if_pos (by simp)]
    exact Wp.sound_point (z := true) (m := false) (p := [x, y, a]) rfl rfl trivial trivial
  | [x, y, a, c], _, _ =>
    rw [if_neg (by simp), if_neg (by simp), if_neg (by simp)]
    exact Wp.sound_point (z := true) (m := true) (p := [x, y, a, c]) rfl rfl trivial trivial
  | [], h, _ => simp at h
  | [x], h, _ => simp at h

theorem parseLine_sound {json : Option J} {req : Bool} {g : Geom} (h : parseLine sd json req = .ok g) : Sound g := by
  unfold parseLine at h
  obtain ⟨b, hb, h⟩ := bind_ok h
  obtain ⟨f1, f2, -⟩ := takeBasic_flags hb
  by_cases he : b.flags.isEmpty = true
  · rw [if_pos he] at h
    exact sound_finish h (Wp.sound_empty .linestring) f1 f2 fun _ => .inr rfl
  rw [if_neg he] at h
  obtain ⟨r, e1, h⟩ := bind_ok h
  obtain ⟨k1, -, k3⟩ := posns_inner (by simp) e1 (.inl rfl)
  refine sound_finish h ?_ f1 f2 (none_empty he)
  split_ifs with h1 h2 h2
  · simp only [Bool.and_eq_true, beq_iff_eq] at h1
    exact Wp.sound_line (k3.line (z := false) (m := false) h1.2.symm)
  all_goals
    obtain ⟨z', m', e1, e2⟩ := Wp.dimFlags_of (.inr k1) false
    have hw := k3.line (e2 (by omega))
    rw [e1]
  · have h3 := Wp.sound_gline hw
    have := Wp.dims_two ((e2 (by omega)).trans h2)
    obtain ⟨rfl, rfl⟩ := this
    rwa [Wp.extras_none hw.2] at h3
  · exact Wp.sound_gline hw

theorem parsePolygon_sound {json : Option J} {req : Bool} {g : Geom} (h : parsePolygon sd json req = .ok g) : Sound g := by
  unfold parsePolygon at h
  obtain ⟨b, hb, h⟩ := bind_ok h
  obtain ⟨f1, f2, -⟩ := takeBasic_flags hb
  by_cases he : b.flags.isEmpty = true
  · rw [if_pos he] at h
    exact sound_finish h (Wp.sound_empty .polygon) f1 f2 fun _ => .inr rfl
  rw [if_neg he] at h
  obtain ⟨r, e1, h⟩ := bind_ok h
  obtain ⟨k1, -, k0, k3⟩ := parseRings_found e1 (.inl rfl)
  refine sound_finish h ?_ f1 f2 (none_empty he)
  split_ifs with h1 h2 h2
  · simp only [Bool.and_eq_true, beq_iff_eq] at h1
    exact Wp.sound_poly k0 fun r hr => (k3 r hr).ring (z := false) (m := false) h1.2.symm
  all_goals
    obtain ⟨z', m', e1, e2⟩ := Wp.dimFlags_of (.inr k1) false
    have hw : ∀ r' ∈ r.2, RingWf z' m' r' := fun r' hr => (k3 r' hr).ring (e2 (by omega))
    rw [e1]
  · have h3 := Wp.sound_gpoly k0 hw
    have := Wp.dims_two ((e2 (by omega)).trans h2)
    obtain ⟨rfl, rfl⟩ := this
    rwa [show r.2.flatMap (·.flatMap Tg.extraOf) = [] by rw [List.flatMap_eq_nil_iff]; exact fun r hr => Wp.extras_none (hw r hr).2.1] at h3
  · exact Wp.sound_gpoly k0 hw

theorem parseMPoint_sound {json : Option J} {g : Geom} (h : parseMPoint sd json = .ok g) : Sound g := by
  obtain ⟨b, hb, h⟩ := bind_ok h
  obtain ⟨f1, f2, -⟩ := takeBasic_flags hb
  obtain ⟨r, e1, h⟩ := bind_ok h
  obtain ⟨z', m', e1, e2⟩ := Wp.found_flags (.inl rfl) (parsePosns_found e1 (.inl rfl)).1 false
  have hw : ∀ p ∈ r.2, posOk z' m' p := fun p hp => (e2 p hp).2.trans (e2 p hp).1.symm
  refine sound_finish h ?_ f1 f2 fun _ => .inl trivial
  rw [e1]
  split_ifs with h2
  · have h3 := Wp.sound_mpoint hw
    by_cases h4 : r.2 = []
    · rw [h4] at h3 ⊢; exact h3
    · obtain ⟨p, hp⟩ := List.exists_mem_of_ne_nil _ h4
      obtain ⟨rfl, rfl⟩ := Wp.dims_two ((e2 p hp).1.trans h2)
      rwa [Wp.extras_none hw] at h3
  · exact Wp.sound_mpoint hw

theorem parseMLine_sound {json : Option J} {g : Geom} (h : parseMLine sd json = .ok g) : Sound g := by
  obtain ⟨b, hb, h⟩ := bind_ok h
  obtain ⟨f1, f2, -⟩ := takeBasic_flags hb
  obtain ⟨r, e1, h⟩ := bind_ok h
  obtain ⟨z', m', e1, e2⟩ := Wp.found_flags (.inl rfl) (arrLoop_found (Q := Checked .line) (fun d j a h hd => posns_inner (by simp) h hd) _ _ _ _ e1 (.inl rfl)) false
  have hw : ∀ l ∈ r.2, LineWf z' m' l := fun l hl => (e2 l hl).2.line (e2 l hl).1
  refine sound_finish h ?_ f1 f2 fun _ => .inl trivial
  rw [e1]
  split_ifs with h2
  · have h3 := Wp.sound_mline hw
    by_cases h4 : r.2 = []
    · rw [h4] at h3 ⊢; exact h3
    · obtain ⟨p, hp⟩ := List.exists_mem_of_ne_nil _ h4
      obtain ⟨rfl, rfl⟩ := Wp.dims_two ((e2 p hp).1.trans h2)
      rwa [show r.2.flatMap (·.flatMap Tg.extraOf) = [] by rw [List.flatMap_eq_nil_iff]; exact fun r hr => Wp.extras_none (hw r hr).2] at h3
  · exact Wp.sound_mline hw

theorem parseMPoly_sound {json : Option J} {g : Geom} (h : parseMPoly sd json = .ok g) : Sound g := by
  obtain ⟨b, hb, h⟩ := bind_ok h
  obtain ⟨f1, f2, -⟩ := takeBasic_flags hb
  obtain ⟨r, e1, h⟩ := bind_ok h
  obtain ⟨z', m', e1, e2⟩ := Wp.found_flags (.inl rfl) (arrLoop_found (Q := Rings) (fun d j a h hd => parseRings_found h hd) _ _ _ _ e1 (.inl rfl)) false
  have hw : ∀ rs ∈ r.2, rs ≠ [] ∧ ∀ r ∈ rs, RingWf z' m' r := fun rs hrs => ⟨(e2 rs hrs).2.1, fun r hr => ((e2 rs hrs).2.2 r hr).ring (e2 rs hrs).1⟩
  refine sound_finish h ?_ f1 f2 fun _ => .inl trivial
  rw [e1]
  split_ifs with h2
  · have h3 := Wp.sound_mpoly hw
    by_cases h4 : r.2 = []
    · rw [h4] at h3 ⊢; exact h3
    · obtain ⟨p, hp⟩ := List.exists_mem_of_ne_nil _ h4
      obtain ⟨rfl, rfl⟩ := Wp.dims_two ((e2 p hp).1.trans h2)
      rwa [show r.2.flatMap (·.flatMap (·.flatMap Tg.extraOf)) = [] by
        rw [List.flatMap_eq_nil_iff]; intro rs hrs; rw [List.flatMap_eq_nil_iff]; exact fun r hr => Wp.extras_none ((hw rs hrs).2 r hr).2.1] at h3
  · exact Wp.sound_mpoly hw

theorem childLoop_sound {child : Option J → P Geom} {chk : Geom → Option String} (hc : ∀ j g, child j = .ok g → Sound g) :
    ∀ (f : Nat) (j : Option J) (gs : List Geom), childLoop child chk f j = .ok gs → ∀ g ∈ gs, Sound g := by
  intro f
  induction f with
  | zero => intro j gs h; cases h
  | succ f ih =>
    intro j gs h
    cases j with
    | none => cases h; simp
    | some v =>
      rw [childLoop] at h
      obtain ⟨g, e1, h⟩ := bind_ok h
      split at h
      · cases h
      · obtain ⟨gs', e2, h⟩ := bind_ok h
        cases h
        intro g' hg
        rcases List.mem_cons.1 hg with rfl | hg
        · exact hc _ _ e1
        · exact ih _ _ e2 _ hg

theorem parseColl_sound {child : Option J → P Geom} (hc : ∀ j g, child j = .ok g → Sound g) {json : Option J} {g : Geom} (h : parseColl child json = .ok g) : Sound g := by
  obtain ⟨b, hb, h⟩ := bind_ok h
  obtain ⟨f1, f2, -⟩ := takeBasic_flags hb
  obtain ⟨gs, e1, h⟩ := bind_ok h
  exact sound_finish h (Wp.sound_coll rfl rfl (childLoop_sound hc _ _ _ e1) _ _) f1 f2 fun _ => .inl trivial

theorem parseFeatureColl_sound {child : Option J → P Geom} (hc : ∀ j g, child j = .ok g → Sound g) {json : Option J} {g : Geom} (h : parseFeatureColl child json = .ok g) : Sound g := by
  obtain ⟨b, hb, h⟩ := bind_ok h
  obtain ⟨f1, f2, -⟩ := takeBasic_flags hb
  obtain ⟨gs, e1, h⟩ := bind_ok h
  exact sound_finish h (Wp.sound_coll rfl rfl (childLoop_sound hc _ _ _ e1) _ _) f1 f2 fun _ => .inl trivial

theorem parseFeature_sound {child : Option J → Bool → P Geom} (hc : ∀ j r g, child j r = .ok g → Sound g) {json : Option J} {g : Geom} (h : parseFeature child json = .ok g) : Sound g := by
  unfold parseFeature at h
  obtain ⟨b, hb, h⟩ := bind_ok h
  obtain ⟨f1, f2, -⟩ := takeBasic_flags hb
  obtain ⟨g0, e1, h⟩ := bind_ok h
  have hg0 : Sound g0 ∧ (b.flags.isEmpty = true → g0.flags.isEmpty = true) := by
    split_ifs at e1 with he
    · cases e1; exact ⟨Wp.sound_empty .point, fun _ => rfl⟩
    · exact ⟨hc _ _ _ e1, none_empty he⟩
  by_cases hf : (g0.flags.isFeature || g0.flags.isFeatureCol) = true
  · rw [if_pos hf] at h; cases h
  rw [if_neg hf] at h
  dsimp only at h
  have h1 : Sound (addFlags g0 { isFeature := true }) := sound_addFlags hg0.1 rfl rfl (by simp)
  have h2 : b.flags.isEmpty = true → (addFlags g0 { isFeature := true }).flags.isEmpty = true := by
    intro he
    have := hg0.2 he
    cases g0 <;> simp_all [addFlags, Geom.flags, orFlags]
  split at h
  · exact sound_finish h h1 f1 f2 fun he => .inr (h2 he)
  · exact sound_finish h h1 f1 f2 fun he => .inr (h2 he)

theorem parseGeojson_sound : ∀ (d : Nat) (json : Option J) (req : Bool) (g : Geom), parseGeojson sd d json req = .ok g → Sound g := by
  intro d
  induction d with
  | zero => intro json req g h; cases h
  | succ d ih =>
    intro json req g h
    rw [parseGeojson] at h
    by_cases h0 : jtype json ≠ .object
    · rw [if_pos h0] at h; cases h
    rw [if_neg h0] at h
    split at h
    · cases h
    · dsimp only at h
      split_ifs at h
      · exact parsePoint_sound h
      · exact parseLine_sound h
      · exact parsePolygon_sound h
      · exact parseMPoint_sound h
      · exact parseMLine_sound h
      · exact parseMPoly_sound h
      · exact parseColl_sound (fun j g h => ih j false g h) h
      · exact parseFeature_sound ih h
      · exact parseFeatureColl_sound (fun j g h => ih j false g h) h

theorem tgParseGeojson_sound {data : List Byte} {g : Geom} (h : tgParseGeojson sd data = .geom g) : Sound g := by
  unfold tgParseGeojson at h
  split at h
  · cases h
  · cases h
  · split at h
    · cases h
    · cases h
    · rename_i g' h1
      cases h
      exact parseGeojson_sound _ _ _ _ h1

end Tg.Gp
