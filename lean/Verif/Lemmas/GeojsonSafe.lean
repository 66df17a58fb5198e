import Verif.Model.GeojsonParse
import Verif.Lemmas.WktSafe
import Verif.Lemmas.JsonNav
import Verif.Lemmas.JsonText
/-!
The GeoJSON parser never misbehaves: its loops end, and extra members are only stored where there is a place for them.
-/
set_option linter.unusedSectionVars false
namespace Tg.Gp
open Json
open Wp (P Base checkBase dimFlags polyOf showBytes Safe bind_ok safe_ok safe_err)

/-- There are bytes at the value. -/
def Ne (j : Option J) : Prop := ∀ i, j = some i → i.raw ≠ []

theorem size_left (j : Option J) : size j = left j := by cases j <;> rfl

theorem ne_first (j : Option J) : Ne (first j) := (first_left j).2
theorem ne_next {j : J} (h : j.raw ≠ []) : Ne (next (some j)) := (next_left h).2
theorem size_next {j : J} (h : j.raw ≠ []) : size (next (some j)) < size (some j) := by rw [size_left, size_left]; exact (next_left h).1
theorem size_first (j : Option J) : size (first j) ≤ size j := by rw [size_left, size_left]; exact (first_left j).1

theorem size_first_lt {j : Option J} (h : (first j).isSome) : size (first j) < size j := by
  cases j with
  | none => simp [first] at h
  | some j =>
    obtain ⟨raw, len, esc⟩ := j
    cases raw with
    | nil => simp [first] at h
    | cons b t =>
      rw [first] at h ⊢
      split_ifs at h ⊢
      · have := (peek_left t).1
        rw [size_left]; simp only [size, List.length_cons]; omega
      · simp at h

theorem ne_peek (l : List Byte) : Ne (peekAny l) := (peek_left l).2

theorem ensure_raw (j : Option J) : size (ensure j) = size j := by cases j <;> rfl
theorem ne_ensure {j : Option J} (h : Ne j) : Ne (ensure j) := by
  cases j with
  | none => intro i hi; simp [ensure] at hi
  | some j => intro i hi; simp only [ensure, Option.some.injEq] at hi; subst hi; exact h j rfl

/-- Every value of a pair is at bytes, fewer than the object has. -/
theorem pairsLoop_size (f : Nat) : ∀ (j : Option J), Ne j → ∀ p ∈ pairsLoop f j, (Ne p.1 ∧ size p.1 ≤ size j) ∧ Ne p.2 ∧ size p.2 ≤ size j := by
  induction f with
  | zero => intro j _ p hp; simp [pairsLoop] at hp
  | succ f ih =>
    intro j hj p hp
    cases j with
    | none => simp [pairsLoop] at hp
    | some k =>
      have hk := hj k rfl
      rw [pairsLoop, List.mem_cons] at hp
      have h1 := size_next hk
      rcases hp with rfl | hp
      · exact ⟨⟨hj, le_refl _⟩, ne_next hk, by dsimp only; omega⟩
      · have h2 := next2_left hk
        have := ih _ h2.2 p hp
        have h3 := h2.1
        rw [← size_left, ← size_left] at h3
        exact ⟨⟨this.1.1, by omega⟩, this.2.1, by omega⟩

theorem pairs_size (j : Option J) : ∀ p ∈ pairs j, (Ne p.1 ∧ size p.1 < size j) ∧ Ne p.2 ∧ size p.2 < size j := by
  intro p hp
  unfold pairs at hp
  have h := pairsLoop_size _ _ (ne_first j) p hp
  have : (first j).isSome := by
    cases hf : first j with
    | none => rw [hf] at hp; simp [pairsLoop] at hp
    | some _ => rfl
  have := size_first_lt this
  exact ⟨⟨h.1.1, by omega⟩, h.2.1, by omega⟩

/-! ### `take_basic_geojson` -/

theorem takeMember_safe (target : String) (a : Acc) (k v : Option J) : Safe (takeMember target a k v) := by
  unfold takeMember
  split_ifs <;> first | exact safe_ok _ | exact safe_err _

theorem takeLoop_safe (target : String) (l : List (Option J × Option J)) : ∀ a, Safe (takeLoop target a l) := by
  induction l with
  | nil => exact fun a => safe_ok _
  | cons p l ih => obtain ⟨k, v⟩ := p; exact fun a => (takeMember_safe _ _ _ _).bind fun a _ => ih a

theorem takeMember_target {target : String} {a a' : Acc} {k v : Option J} (h : takeMember target a k v = .ok a') : a'.target = a.target ∨ a'.target = ensure v := by
  unfold takeMember at h
  split_ifs at h <;> first | (cases h; exact .inl rfl) | (cases h; exact .inr rfl) | cases h

theorem takeLoop_target {target : String} {n : Nat} : ∀ {l : List (Option J × Option J)} {a a' : Acc}, takeLoop target a l = .ok a' →
    (∀ p ∈ l, Ne p.2 ∧ size p.2 < n) → (Ne a.target ∧ (a.target.isSome → size a.target < n)) → Ne a'.target ∧ (a'.target.isSome → size a'.target < n)
  | [], a, a', h, _, ha => by cases h; exact ha
  | (k, v) :: l, a, a', h, hl, ha => by
    obtain ⟨a1, h1, h2⟩ := bind_ok h
    refine takeLoop_target h2 (fun p hp => hl p (by simp [hp])) ?_
    have hv := hl (k, v) (by simp)
    rcases takeMember_target h1 with e | e
    · rw [e]; exact ha
    · rw [e]; exact ⟨ne_ensure hv.1, fun _ => by rw [ensure_raw]; exact hv.2⟩

theorem takeBasic_safe (json : Option J) (target : String) : Safe (takeBasic json target) := by
  unfold takeBasic
  refine (takeLoop_safe _ _ _).bind fun a _ => ?_
  by_cases h : a.target.isNone
  · rw [if_pos h]; exact safe_err _
  · rw [if_neg h]
    refine Safe.bind ?_ fun fl _ => safe_ok _
    split_ifs <;> first | exact safe_ok _ | exact safe_err _

theorem takeBasic_target {json : Option J} {target : String} {b : Basic} (h : takeBasic json target = .ok b) : Ne b.target ∧ size b.target < size json := by
  unfold takeBasic at h
  obtain ⟨a, h1, h⟩ := bind_ok h
  by_cases hn : a.target.isNone
  · rw [if_pos hn] at h; cases h
  rw [if_neg hn] at h
  obtain ⟨fl, _, h⟩ := bind_ok h
  cases h
  have := takeLoop_target (n := size json) h1 (fun p hp => (pairs_size json p hp).2) ⟨fun i hi => by simp at hi, by simp⟩
  exact ⟨this.1, this.2 (by cases ht : a.target <;> simp_all)⟩

/-! ### Positions -/

variable (sd : List Byte → F64 × Nat)

theorem numLoop_safe (msg : String) (f : Nat) : ∀ (j : Option J) (ps : List F64), Ne j → size j < f → Safe (numLoop sd msg f j ps) := by
  induction f with
  | zero => intro j _ _ h; omega
  | succ f ih =>
    intro j ps hj h
    cases j with
    | none => exact safe_ok _
    | some v =>
      rw [numLoop]
      split_ifs
      · exact safe_err _
      · exact ih _ _ (ne_next (hj v rfl)) (by have := size_next (hj v rfl); omega)
      · exact ih _ _ (ne_next (hj v rfl)) (by have := size_next (hj v rfl); omega)

theorem posnLoop_safe (depth f : Nat) : ∀ (dims : Nat) (j : Option J), Ne j → size j < f → Safe (posnLoop sd depth f dims j) := by
  induction f with
  | zero => intro _ j _ h; omega
  | succ f ih =>
    intro dims j hj h
    cases j with
    | none => exact safe_ok _
    | some v =>
      rw [posnLoop]
      by_cases ha : jtype (some v) ≠ .array
      · rw [if_pos ha]; exact safe_err _
      rw [if_neg ha]
      refine (numLoop_safe sd _ _ _ _ (ne_first _) (by have := size_first (some v); omega)).bind fun ps _ => ?_
      have key : ∀ d, Safe ((posnLoop sd depth f d (next (some v))).bind fun r => .ok (r.1, ps :: r.2)) := fun d =>
        (ih _ _ (ne_next (hj v rfl)) (by have := size_next (hj v rfl); omega)).bind fun r _ => safe_ok _
      dsimp only
      by_cases h1 : ps.length < 2
      · rw [if_pos h1]; exact safe_err _
      rw [if_neg h1]
      by_cases h2 : ps.length ≠ (if dims = 0 then ps.length else dims)
      · rw [if_pos h2]; exact safe_err _
      rw [if_neg h2]; exact key _

theorem parsePosns_safe (base : Base) (depth dims : Nat) (j : Option J) : Safe (parsePosns sd base depth dims j) := by
  unfold parsePosns
  refine (posnLoop_safe sd _ _ _ _ (ne_first _) (by have := size_first j; omega)).bind fun r _ => ?_
  split
  · exact safe_err _
  · exact safe_ok _

theorem arrLoop_safe {α : Type} {msg : String} {inner : Nat → Option J → P (Nat × α)} (hi : ∀ d j, Safe (inner d j)) (f : Nat) :
    ∀ (dims : Nat) (j : Option J), Ne j → size j < f → Safe (arrLoop msg inner f dims j) := by
  induction f with
  | zero => intro _ j _ h; omega
  | succ f ih =>
    intro dims j hj h
    cases j with
    | none => exact safe_ok _
    | some v =>
      rw [arrLoop]
      split_ifs
      · exact safe_err _
      · exact (hi _ _).bind fun a _ => (ih _ _ (ne_next (hj v rfl)) (by have := size_next (hj v rfl); omega)).bind fun r _ => safe_ok _

theorem parseRings_safe (depth dims : Nat) (j : Option J) : Safe (parseRings sd depth dims j) := by
  unfold parseRings
  refine (arrLoop_safe (fun d j => parsePosns_safe sd _ _ d j) _ _ _ (ne_first _) (by have := size_first j; omega)).bind fun r _ => ?_
  split_ifs
  · exact safe_err _
  · exact safe_ok _

/-! ### Storing the extra members -/

/-- The object is a `struct tg_geom`. -/
def Boxed : Geom → Prop
  | .point .. | .line .. | .poly .. | .err _ => False
  | _ => True

theorem boxed_addFlags {g : Geom} {f : Flags} : Boxed (addFlags g f) ↔ Boxed g := by cases g <;> simp [addFlags, Boxed]

theorem finish_safe {fl : Flags} {x : Option (List Byte)} {g : Geom} (h : x.isSome → Boxed g) : Safe (finish fl x g) := by
  unfold finish setX
  cases x with
  | none => exact safe_ok _
  | some x =>
    have := h rfl
    cases g <;> simp only [Boxed] at this <;> exact safe_ok _

theorem finish_boxed {fl : Flags} {x : Option (List Byte)} {g g' : Geom} (h : finish fl x g = .ok g') (hg : Boxed g) : Boxed g' := by
  unfold finish setX at h
  cases x with
  | none => cases h; exact boxed_addFlags.2 hg
  | some x => cases g <;> simp only [Boxed] at hg <;> (cases h; trivial)

/-! ### Types -/

variable {sd}

theorem parsePoint_safe (json : Option J) (req : Bool) : Safe (parsePoint sd json req) := by
  unfold parsePoint
  refine (takeBasic_safe _ _).bind fun b _ => ?_
  split_ifs
  · exact finish_safe fun _ => trivial
  · refine (numLoop_safe sd _ _ _ _ (ne_first _) (by have := size_first b.target; omega)).bind fun ps _ => ?_
    by_cases h : ps.length < 2
    · rw [if_pos h]; exact safe_err _
    rw [if_neg h]
    refine finish_safe fun hx => ?_
    have : b.extra.isNone = false := by cases hb : b.extra <;> simp_all
    rw [this]; simp only [Bool.and_false, Bool.false_and, Bool.false_eq_true, if_false]
    split_ifs <;> trivial

theorem parsePoint_boxed {json : Option J} {g : Geom} (h : parsePoint sd json true = .ok g) : Boxed g := by
  unfold parsePoint at h
  obtain ⟨b, -, h⟩ := bind_ok h
  split_ifs at h with h0
  · exact finish_boxed h trivial
  · obtain ⟨ps, -, h⟩ := bind_ok h
    by_cases h1 : ps.length < 2
    · rw [if_pos h1] at h; cases h
    rw [if_neg h1] at h
    refine finish_boxed h ?_
    simp only [Bool.not_true, Bool.false_and, Bool.false_eq_true, if_false]
    split_ifs <;> trivial

theorem parseLine_safe (json : Option J) (req : Bool) : Safe (parseLine sd json req) := by
  unfold parseLine
  refine (takeBasic_safe _ _).bind fun b _ => ?_
  split_ifs
  · exact finish_safe fun _ => trivial
  · refine (parsePosns_safe sd _ _ _ _).bind fun r _ => finish_safe fun hx => ?_
    have : b.extra.isNone = false := by cases hb : b.extra <;> simp_all
    rw [this]; simp [Boxed]

theorem parseLine_boxed {json : Option J} {g : Geom} (h : parseLine sd json true = .ok g) : Boxed g := by
  unfold parseLine at h
  obtain ⟨b, -, h⟩ := bind_ok h
  split_ifs at h with h0
  · exact finish_boxed h trivial
  · obtain ⟨r, -, h⟩ := bind_ok h
    exact finish_boxed h (by simp [Boxed])

theorem parsePolygon_safe (json : Option J) (req : Bool) : Safe (parsePolygon sd json req) := by
  unfold parsePolygon
  refine (takeBasic_safe _ _).bind fun b _ => ?_
  split_ifs
  · exact finish_safe fun _ => trivial
  · refine (parseRings_safe sd _ _ _).bind fun r _ => finish_safe fun hx => ?_
    have : b.extra.isNone = false := by cases hb : b.extra <;> simp_all
    rw [this]; simp [Boxed]

theorem parsePolygon_boxed {json : Option J} {g : Geom} (h : parsePolygon sd json true = .ok g) : Boxed g := by
  unfold parsePolygon at h
  obtain ⟨b, -, h⟩ := bind_ok h
  split_ifs at h with h0
  · exact finish_boxed h trivial
  · obtain ⟨r, -, h⟩ := bind_ok h
    exact finish_boxed h (by simp [Boxed])

theorem parseMPoint_safe (json : Option J) : Safe (parseMPoint sd json) :=
  (takeBasic_safe _ _).bind fun _ _ => (parsePosns_safe sd _ _ _ _).bind fun _ _ => finish_safe fun _ => trivial
theorem parseMPoint_boxed {json : Option J} {g : Geom} (h : parseMPoint sd json = .ok g) : Boxed g := by
  obtain ⟨b, -, h⟩ := bind_ok h
  obtain ⟨r, -, h⟩ := bind_ok h
  exact finish_boxed h trivial

theorem parseMLine_safe (json : Option J) : Safe (parseMLine sd json) :=
  (takeBasic_safe _ _).bind fun b _ =>
    (arrLoop_safe (fun d j => parsePosns_safe sd _ _ d j) _ _ _ (ne_first _) (by have := size_first b.target; omega)).bind fun _ _ => finish_safe fun _ => trivial
theorem parseMLine_boxed {json : Option J} {g : Geom} (h : parseMLine sd json = .ok g) : Boxed g := by
  obtain ⟨b, -, h⟩ := bind_ok h
  obtain ⟨r, -, h⟩ := bind_ok h
  exact finish_boxed h trivial

theorem parseMPoly_safe (json : Option J) : Safe (parseMPoly sd json) :=
  (takeBasic_safe _ _).bind fun b _ =>
    (arrLoop_safe (fun d j => parseRings_safe sd _ d j) _ _ _ (ne_first _) (by have := size_first b.target; omega)).bind fun _ _ => finish_safe fun _ => trivial
theorem parseMPoly_boxed {json : Option J} {g : Geom} (h : parseMPoly sd json = .ok g) : Boxed g := by
  obtain ⟨b, -, h⟩ := bind_ok h
  obtain ⟨r, -, h⟩ := bind_ok h
  exact finish_boxed h trivial

theorem childLoop_safe {child : Option J → P Geom} {chk : Geom → Option String} {n : Nat} (hc : ∀ j, Ne j → size j < n → Safe (child j)) (f : Nat) :
    ∀ (j : Option J), Ne j → size j < f → size j < n → Safe (childLoop child chk f j) := by
  induction f with
  | zero => intro j _ h; omega
  | succ f ih =>
    intro j hj h hn
    cases j with
    | none => exact safe_ok _
    | some v =>
      rw [childLoop]
      refine (hc _ hj hn).bind fun g _ => ?_
      have := size_next (hj v rfl)
      split
      · exact safe_err _
      · exact (ih _ (ne_next (hj v rfl)) (by omega) (by omega)).bind fun gs _ => safe_ok _

theorem parseColl_safe {child : Option J → P Geom} {json : Option J} (hc : ∀ j, Ne j → size j < size json → Safe (child j)) : Safe (parseColl child json) := by
  unfold parseColl
  refine (takeBasic_safe _ _).bind fun b hb => ?_
  have := (takeBasic_target hb).2
  have h1 := size_first b.target
  exact (childLoop_safe hc _ _ (ne_first _) (by omega) (by omega)).bind fun gs _ => finish_safe fun _ => trivial

theorem parseColl_boxed {child : Option J → P Geom} {json : Option J} {g : Geom} (h : parseColl child json = .ok g) : Boxed g := by
  obtain ⟨b, -, h⟩ := bind_ok h
  obtain ⟨r, -, h⟩ := bind_ok h
  exact finish_boxed h trivial

theorem parseFeatureColl_safe {child : Option J → P Geom} {json : Option J} (hc : ∀ j, Ne j → size j < size json → Safe (child j)) : Safe (parseFeatureColl child json) := by
  unfold parseFeatureColl
  refine (takeBasic_safe _ _).bind fun b hb => ?_
  have := (takeBasic_target hb).2
  have h1 := size_first b.target
  exact (childLoop_safe hc _ _ (ne_first _) (by omega) (by omega)).bind fun gs _ => finish_safe fun _ => trivial

theorem parseFeatureColl_boxed {child : Option J → P Geom} {json : Option J} {g : Geom} (h : parseFeatureColl child json = .ok g) : Boxed g := by
  obtain ⟨b, -, h⟩ := bind_ok h
  obtain ⟨r, -, h⟩ := bind_ok h
  exact finish_boxed h trivial

theorem xjson_boxed {g : Geom} {x : List Byte} (h : xjsonOf g = some x) : Boxed g := by cases g <;> simp_all [xjsonOf, Boxed]

theorem xjson_addFlags (g : Geom) (f : Flags) : xjsonOf (addFlags g f) = xjsonOf g := by cases g <;> rfl

theorem parseFeature_safe {child : Option J → Bool → P Geom} {json : Option J} (hc : ∀ j r, Ne j → size j < size json → Safe (child j r))
    (hb : ∀ j g, child j true = .ok g → Boxed g ∨ g.flags.isFeature = true) : Safe (parseFeature child json) := by
  unfold parseFeature
  refine (takeBasic_safe _ _).bind fun b hb' => ?_
  have ht := takeBasic_target hb'
  refine Safe.bind ?_ fun g hg => ?_
  · split_ifs
    · exact safe_ok _
    · exact hc _ _ ht.1 ht.2
  · split_ifs with hf
    · exact safe_err _
    · dsimp only
      split
      · refine finish_safe fun hx => boxed_addFlags.2 ?_
        rw [hx] at hg
        split_ifs at hg
        · cases hg; trivial
        · rcases hb _ _ hg with h | h
          · exact h
          · exact absurd (by rw [h]; rfl) hf
      · rename_i x hx
        exact finish_safe fun _ => xjson_boxed hx

theorem flags_addFlags {g : Geom} (hg : ∀ m, g ≠ .err m) (f : Flags) : (addFlags g f).flags = orFlags g.flags f := by
  cases g <;> first | rfl | exact absurd rfl (hg _)

theorem flags_setX {g g' : Geom} {x : Option (List Byte)} (h : setX g x = .ok g') : g'.flags = g.flags := by
  unfold setX at h
  cases x with
  | none => cases h; rfl
  | some x => cases g <;> first | (cases h; rfl) | cases h

theorem noErr_addFlags {g : Geom} (hg : ∀ m, g ≠ .err m) (f : Flags) : ∀ m, addFlags g f ≠ .err m := by
  cases g <;> first | exact absurd rfl (hg _) | (intro m; simp [addFlags])

theorem noErr_setX {g g' : Geom} {x : Option (List Byte)} (h : setX g x = .ok g') (hg : ∀ m, g ≠ .err m) : ∀ m, g' ≠ .err m := by
  unfold setX at h
  cases x with
  | none => cases h; exact hg
  | some x => cases g <;> first | (cases h; simp) | cases h

theorem Boxed.noErr {g : Geom} (h : Boxed g) : ∀ m, g ≠ .err m := by rintro m rfl; exact h

theorem finish_flags {fl : Flags} {x : Option (List Byte)} {g g' : Geom} (h : finish fl x g = .ok g') (hg : ∀ m, g ≠ .err m) :
    g'.flags = orFlags g.flags fl ∧ ∀ m, g' ≠ .err m :=
  ⟨by rw [flags_setX h, flags_addFlags hg], noErr_setX h (noErr_addFlags hg fl)⟩

/-- A Feature is marked as one. -/
theorem parseFeature_flags {child : Option J → Bool → P Geom} {json : Option J} {g : Geom} (h : parseFeature child json = .ok g)
    (hn : ∀ j r g, child j r = .ok g → ∀ m, g ≠ .err m) : g.flags.isFeature = true ∧ ∀ m, g ≠ .err m := by
  unfold parseFeature at h
  obtain ⟨b, -, h⟩ := bind_ok h
  obtain ⟨g1, h1, h⟩ := bind_ok h
  have hg1 : ∀ m, g1 ≠ .err m := by
    split_ifs at h1
    · cases h1; simp
    · exact hn _ _ _ h1
  split_ifs at h
  dsimp only at h
  have key : ∀ x, finish b.flags x (addFlags g1 { isFeature := true }) = .ok g → g.flags.isFeature = true ∧ ∀ m, g ≠ .err m := by
    intro x hx
    have := finish_flags hx (noErr_addFlags hg1 _)
    rw [flags_addFlags hg1] at this
    exact ⟨by rw [this.1]; simp [orFlags], this.2⟩
  split at h <;> exact key _ h

/-- `parse_geojson` gives no error object, and a `struct tg_geom` or a Feature where one is required. -/
theorem parseGeojson_boxed (d : Nat) : ∀ (json : Option J) (req : Bool) (g : Geom), parseGeojson sd d json req = .ok g →
    (∀ m, g ≠ .err m) ∧ (req = true → Boxed g ∨ g.flags.isFeature = true) := by
  induction d with
  | zero => intro json req g h; cases h
  | succ d ih =>
    intro json req g h
    have fin : ∀ (fl : Flags) (x : Option (List Byte)) (g0 : Geom), (∀ m, g0 ≠ .err m) → finish fl x g0 = .ok g → ∀ m, g ≠ .err m := fun fl x g0 h0 h => (finish_flags h h0).2
    rw [parseGeojson] at h
    split_ifs at h
    split at h
    · cases h
    · rename_i t ht
      dsimp only at h
      split_ifs at h
      · refine ⟨?_, fun hr => ?_⟩
        · unfold parsePoint at h
          obtain ⟨b, -, h⟩ := bind_ok h
          split_ifs at h
          · exact fin _ _ _ (by simp) h
          · obtain ⟨ps, -, h⟩ := bind_ok h
            by_cases h1 : ps.length < 2
            · rw [if_pos h1] at h; cases h
            rw [if_neg h1] at h
            refine fin _ _ _ ?_ h
            split_ifs <;> simp
        · rw [hr] at h; exact .inl (parsePoint_boxed h)
      · refine ⟨?_, fun hr => ?_⟩
        · unfold parseLine at h
          obtain ⟨b, -, h⟩ := bind_ok h
          split_ifs at h
          · exact fin _ _ _ (by simp) h
          · obtain ⟨ps, -, h⟩ := bind_ok h
            refine fin _ _ _ ?_ h
            split_ifs <;> simp
        · rw [hr] at h; exact .inl (parseLine_boxed h)
      · refine ⟨?_, fun hr => ?_⟩
        · unfold parsePolygon at h
          obtain ⟨b, -, h⟩ := bind_ok h
          split_ifs at h
          · exact fin _ _ _ (by simp) h
          · obtain ⟨ps, -, h⟩ := bind_ok h
            refine fin _ _ _ ?_ h
            split_ifs <;> simp
        · rw [hr] at h; exact .inl (parsePolygon_boxed h)
      · exact ⟨(parseMPoint_boxed h).noErr, fun _ => .inl (parseMPoint_boxed h)⟩
      · exact ⟨(parseMLine_boxed h).noErr, fun _ => .inl (parseMLine_boxed h)⟩
      · exact ⟨(parseMPoly_boxed h).noErr, fun _ => .inl (parseMPoly_boxed h)⟩
      · exact ⟨(parseColl_boxed h).noErr, fun _ => .inl (parseColl_boxed h)⟩
      · have := parseFeature_flags h fun j r g h => (ih j r g h).1
        exact ⟨this.2, fun _ => .inr this.1⟩
      · exact ⟨(parseFeatureColl_boxed h).noErr, fun _ => .inl (parseFeatureColl_boxed h)⟩

theorem parseGeojson_safe (d : Nat) : ∀ (json : Option J) (req : Bool), size json < d → Safe (parseGeojson sd d json req) := by
  induction d with
  | zero => intro json req h; omega
  | succ d ih =>
    intro json req h
    rw [parseGeojson]
    split_ifs
    · exact safe_err _
    split
    · exact safe_err _
    dsimp only
    split_ifs
    · exact parsePoint_safe _ _
    · exact parseLine_safe _ _
    · exact parsePolygon_safe _ _
    · exact parseMPoint_safe _
    · exact parseMLine_safe _
    · exact parseMPoly_safe _
    · exact parseColl_safe fun j _ hj => ih _ _ (by omega)
    · exact parseFeature_safe (fun j r _ hj => ih _ _ (by omega)) fun j g hg => (parseGeojson_boxed d j true g hg).2 rfl
    · exact parseFeatureColl_safe fun j _ hj => ih _ _ (by omega)
    · exact safe_err _

theorem size_parse (l : List Byte) : size (parse l) ≤ l.length := by
  cases l with
  | nil => simp [parse, size]
  | cons b t =>
    rw [parse]
    split_ifs
    · simp [size]
    · rw [size_left]; exact (peek_left _).1

theorem tgParseGeojson_safe (data : List Byte) : tgParseGeojson sd data ≠ .ub := by
  unfold tgParseGeojson
  have h1 := jsonValidn_total data
  split
  · exact absurd ‹_› h1
  · simp
  · have h2 := parseGeojson_safe (sd := sd) (data.length + 1) (parse data) false (by have := size_parse data; omega)
    unfold Safe at h2
    split
    · exact absurd ‹_› h2
    · simp
    · simp

end Tg.Gp
