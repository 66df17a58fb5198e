import Verif.Spec.Parsed
import Verif.Lemmas.WktWhole
import Verif.Lemmas.WktSafe
/-! What the WKT parser builds is a geometry. -/
set_option linter.unusedSectionVars false
namespace Tg.Wp
open Spec Spec.Wkt

/-! ### Positions -/

theorem wf_of_checkLine {z m : Bool} {ps : List (List F64)} (hp : ∀ p ∈ ps, posOk z m p) (h : checkBase .line (ps.map ptOf) = none) : LineWf z m ps := by
  refine ⟨?_, hp⟩
  simp only [checkBase, checkPosns, Bool.false_eq_true, if_false, List.length_map] at h
  by_contra hc
  rw [if_pos (by omega)] at h; cases h

theorem wf_of_checkRing {z m : Bool} {ps : List (List F64)} (hp : ∀ p ∈ ps, posOk z m p) (h : checkBase .ring (ps.map ptOf) = none) : RingWf z m ps := by
  simp only [checkBase, checkPosns, if_true, List.length_map] at h
  have h3 : 3 ≤ ps.length := by
    by_contra hc
    rw [if_pos (by omega)] at h; cases h
  refine ⟨h3, hp, fun p0 p1 h0 h1 => ?_⟩
  rw [if_neg (by omega), List.head?_map, List.getLast?_map, h0, h1] at h
  simp only [Option.map_some] at h
  have hl := dims_ge z m
  have e0 : p0.length = dims z m := hp _ (List.mem_of_head? h0)
  have e1 : p1.length = dims z m := hp _ (List.mem_of_getLast? h1)
  rw [(ptOf_getD (p := p0) (by omega)).1, (ptOf_getD (p := p0) (by omega)).2,
    (ptOf_getD (p := p1) (by omega)).1, (ptOf_getD (p := p1) (by omega)).2] at h
  split_ifs at h with hc
  simpa using hc

/-- The flags for `d` coordinates. -/
theorem dimFlags_of {d : Nat} (h : d = 0 ∨ 2 ≤ d ∧ d ≤ 4) (m : Bool) : ∃ z m', dimFlags d m = zmFlags z m' ∧ (d ≠ 0 → dims z m' = d) := by
  rcases h with rfl | ⟨h1, h2⟩
  · exact ⟨true, true, rfl, fun h => absurd rfl h⟩
  · have : d = 2 ∨ d = 3 ∨ d = 4 := by omega
    rcases this with rfl | rfl | rfl
    · exact ⟨false, false, rfl, fun _ => rfl⟩
    · cases m
      · exact ⟨true, false, rfl, fun _ => rfl⟩
      · exact ⟨false, true, rfl, fun _ => rfl⟩
    · exact ⟨true, true, rfl, fun _ => rfl⟩

/-! ### What is built -/

section
variable {z m : Bool}

theorem sound_point {g : Geom} {p : List F64} (h : view g = some (.point z m (some p))) (hp : posOk z m p) (hn : NoNull g) (hf : Filled g) : Sound g := ⟨_, h, hp, hn, hf⟩

theorem sound_gline {ps : List (List F64)} (h : LineWf z m ps) : Sound (.gline (zmFlags z m) (some (ps.map ptOf)) (ps.flatMap extraOf) none) := by
  refine ⟨_, view_line h.2, .inr h, .inr (by simp), .inr ?_⟩
  have := h.1
  intro e
  rw [Option.some.injEq, List.map_eq_nil_iff] at e
  subst e; simp at this

theorem sound_line {ps : List (List F64)} (h : LineWf false false ps) : Sound (.line {} (ps.map ptOf)) := by
  refine ⟨.line false false ps, ?_, .inr h, trivial, ?_⟩
  · simp only [view, Bool.or_self, Bool.false_eq_true, if_false]
    rw [posns_zero_map h.2]
  · have := h.1
    intro e
    rw [List.map_eq_nil_iff] at e
    subst e; simp at this

theorem sound_gpoly {rs : List (List (List F64))} (h0 : rs ≠ []) (h : ∀ r ∈ rs, RingWf z m r) :
    Sound (.gpoly (zmFlags z m) (some (polyOf rs)) (rs.flatMap (·.flatMap extraOf)) none) :=
  ⟨_, view_poly h0 fun r hr => (h r hr).2.1, h, .inr (by simp), trivial⟩

theorem extras_none {ps : List (List F64)} (h : ∀ p ∈ ps, posOk false false p) : ps.flatMap extraOf = [] := by
  rw [List.flatMap_eq_nil_iff]
  intro p hp
  have : p.length = 2 := h p hp
  rw [extraOf, List.drop_eq_nil_iff]; omega

theorem sound_poly {rs : List (List (List F64))} (h0 : rs ≠ []) (h : ∀ r ∈ rs, RingWf false false r) : Sound (.poly {} (polyOf rs)) := by
  have := view_poly h0 fun r hr => (h r hr).2.1
  rw [show rs.flatMap (·.flatMap extraOf) = [] by rw [List.flatMap_eq_nil_iff]; exact fun r hr => extras_none (h r hr).2.1] at this
  exact ⟨_, this, h, trivial, trivial⟩

theorem sound_mpoint {ps : List (List F64)} (h : ∀ p ∈ ps, posOk z m p) : Sound (.mpoint (zmFlags z m) (some (ps.map ptOf)) (ps.flatMap extraOf) none) :=
  ⟨_, view_mpoint h, h, trivial, trivial⟩

theorem sound_mline {ls : List (List (List F64))} (h : ∀ l ∈ ls, LineWf z m l) :
    Sound (.mline (zmFlags z m) (some (ls.map fun l => some (l.map ptOf))) (ls.flatMap (·.flatMap extraOf)) none) :=
  ⟨_, view_mline fun l hl => (h l hl).2, h, by simp [NoNull], trivial⟩

theorem sound_mpoly {ps : List (List (List (List F64)))} (h : ∀ rs ∈ ps, rs ≠ [] ∧ ∀ r ∈ rs, RingWf z m r) :
    Sound (.mpoly (zmFlags z m) (some (ps.map fun rs => some (polyOf rs))) (ps.flatMap (·.flatMap (·.flatMap extraOf))) none) :=
  ⟨_, view_mpoly (fun rs hrs => (h rs hrs).1) fun rs hrs r hr => ((h rs hrs).2 r hr).2.1, h, by simp [NoNull], trivial⟩

theorem sounds {gs : List Geom} (h : ∀ g ∈ gs, Sound g) : ∃ vs, views gs = some vs ∧ Wfs vs ∧ NoNulls gs ∧ Filleds gs := by
  induction gs with
  | nil => exact ⟨[], rfl, trivial, trivial, trivial⟩
  | cons g gs ih =>
    obtain ⟨vs, h1, h2, h3, h4⟩ := ih fun g hg => h g (by simp [hg])
    obtain ⟨v, a1, a2, a3, a4⟩ := h g (by simp)
    exact ⟨v :: vs, by rw [views, a1, h1], ⟨a2, h2⟩, ⟨a3, h3⟩, ⟨a4, h4⟩⟩

theorem sound_coll {gs : List Geom} {fl : Flags} (hz : fl.hasZ = false) (hm : fl.hasM = false) (h : ∀ g ∈ gs, Sound g) (cs : List F64) (x : Option (List Byte)) :
    Sound (.coll fl true gs cs x) := by
  obtain ⟨vs, h1, h2, h3, h4⟩ := sounds h
  cases he : fl.isEmpty with
  | true => exact ⟨.coll [], by rw [view, hz, hm, he]; rfl, trivial, .inr h3, .inl he⟩
  | false => exact ⟨.coll vs, by rw [view, hz, hm, he]; simp only [Bool.or_self, Bool.false_eq_true, if_false, Bool.not_true, h1], h2, .inr h3, .inr (.inr h4)⟩

theorem sound_empty (t : GType) : Sound (emptyGeom t) := by
  cases t
  · exact ⟨.point false false none, rfl, trivial, trivial, trivial⟩
  · exact ⟨.line false false [], rfl, .inl rfl, .inl rfl, .inl rfl⟩
  · exact ⟨.poly false false [], rfl, fun r h => absurd h (by simp), .inl rfl, trivial⟩
  · exact ⟨.mpoint false false [], rfl, fun r h => absurd h (by simp), trivial, trivial⟩
  · exact ⟨.mline false false [], rfl, fun r h => absurd h (by simp), fun h => absurd h (by simp), trivial⟩
  · exact ⟨.mpoly false false [], rfl, fun r h => absurd h (by simp), fun h => absurd h (by simp), trivial⟩
  · exact ⟨.coll [], rfl, trivial, .inl rfl, .inl rfl⟩
end

/-! ### WKT -/

variable {sd : List Byte → F64}

theorem pointLoop_len (dims : Nat) (after : List Byte) : ∀ (f : Nat) (l : List Byte) (ps r : List F64), ps.length ≤ 4 → pointLoop sd dims after f l ps = .ok r → r.length ≤ 4 := by
  intro f
  induction f with
  | zero => intro l ps r _ h; cases h
  | succ f ih =>
    intro l ps r hl h
    rw [pointLoop] at h
    obtain ⟨q, -, h⟩ := bind_ok h
    split_ifs at h with h4
    obtain ⟨x, -, h⟩ := bind_ok h
    have h5 : (ps ++ [x]).length ≤ 4 := by simp; omega
    split at h
    · cases h; exact h5
    · split_ifs at h
      split at h
      · cases h; exact h5
      · exact ih _ _ _ h5 h

theorem numLoop_len (dims : Nat) (after : List Byte) : ∀ (f : Nat) (l : List Byte) (ps : List F64) (r : List Byte × List F64), ps.length ≤ 4 →
    numLoop sd dims after f l ps = .ok r → r.2.length ≤ 4 := by
  intro f
  induction f with
  | zero => intro l ps r _ h; cases h
  | succ f ih =>
    intro l ps r hl h
    rw [numLoop.eq_def] at h
    dsimp only at h
    split at h
    · cases h; exact hl
    · rename_i b t
      by_cases h0 : isNum b = true
      case neg => rw [if_neg h0] at h; cases h
      rw [if_pos h0] at h
      obtain ⟨q, -, h⟩ := bind_ok h
      obtain ⟨x, -, h⟩ := bind_ok h
      split_ifs at h with h4
      have h5 : (ps ++ [x]).length ≤ 4 := by simp; omega
      split at h
      · cases h; exact h5
      · split_ifs at h
        · split at h
          · cases h; exact h5
          · split_ifs at h
            · cases h; exact h5
            · exact ih _ _ _ h5 h
        · cases h; exact h5

/-- What the loops over positions and groups find. -/
def Found {α : Type} (Q : Nat → α → Prop) (d : Nat) (r : Nat × List α) : Prop :=
  (r.2 = [] → r.1 = d) ∧ (r.2 ≠ [] → (2 ≤ r.1 ∧ r.1 ≤ 4) ∧ (d = 0 ∨ d = r.1)) ∧ ∀ a ∈ r.2, Q r.1 a

theorem Found.nil {α : Type} {Q : Nat → α → Prop} {d : Nat} : Found Q d (d, []) := ⟨fun _ => rfl, fun h => absurd rfl h, by simp⟩

theorem Found.cons {α : Type} {Q : Nat → α → Prop} {d k : Nat} {a : α} {q : Nat × List α} (hk : 2 ≤ k ∧ k ≤ 4) (hd : d = 0 ∨ d = k) (ha : Q k a) (hq : Found Q k q) :
    Found Q d (q.1, a :: q.2) := by
  have e : q.1 = k := by
    by_cases h : q.2 = []
    · exact hq.1 h
    · rcases (hq.2.1 h).2 with h | h <;> omega
  refine ⟨fun h => (by cases h), fun _ => ⟨by dsimp only; rw [e]; exact hk, by dsimp only; rw [e]; exact hd⟩, fun b hb => ?_⟩
  rcases List.mem_cons.1 hb with rfl | hb
  · dsimp only; rw [e]; exact ha
  · exact hq.2.2 b hb

theorem Found.dim {α : Type} {Q : Nat → α → Prop} {d : Nat} {r : Nat × List α} (h : Found Q d r) (hd : d = 0 ∨ 2 ≤ d ∧ d ≤ 4) : r.1 = 0 ∨ 2 ≤ r.1 ∧ r.1 ≤ 4 := by
  by_cases e : r.2 = []
  · rw [h.1 e]; exact hd
  · exact .inr (h.2.1 e).1

/-- A position of `d` coordinates. -/
def PosLen (d : Nat) (p : List F64) : Prop := p.length = d

theorem posnLoop_found (xp : Bool) (after : List Byte) : ∀ (f d : Nat) (l : List Byte) (r : Nat × List (List F64)), posnLoop sd xp after f d l = .ok r →
    (d = 0 ∨ 2 ≤ d ∧ d ≤ 4) → Found PosLen d r := by
  intro f
  induction f with
  | zero => intro d l r h; cases h
  | succ f ih =>
    intro d l r h hd
    rw [posnLoop.eq_def] at h
    dsimp only at h
    split at h
    · cases h; exact .nil
    · rename_i b t
      obtain ⟨l1, e1, h⟩ := bind_ok h
      obtain ⟨q, e2, h⟩ := bind_ok h
      obtain ⟨l3, e3, h⟩ := bind_ok h
      obtain ⟨l4, e4, h⟩ := bind_ok h
      split_ifs at h with hc
      obtain ⟨s, e5, h⟩ := bind_ok h
      cases h
      have hq := numLoop_len _ _ _ _ _ _ (by simp) e2
      have h0 : q.2.length ≠ 0 := by
        intro h0
        rw [numLoop.eq_def] at e2
        dsimp only at e2
        split at e2
        · cases e2
          cases xp with
          | true => simp [expect] at e3
          | false => simp [expect] at e1
        · rename_i b' t'
          by_cases hn : isNum b' = true
          case neg => rw [if_neg hn] at e2; cases e2
          rw [if_pos hn] at e2
          obtain ⟨_, -, e2⟩ := bind_ok e2
          obtain ⟨x, -, e2⟩ := bind_ok e2
          simp only [List.length_nil, List.nil_append] at e2
          rw [if_neg (by omega)] at e2
          have grow : ∀ (f : Nat) (l : List Byte) (ps : List F64) (r : List Byte × List F64), numLoop sd d after f l ps = .ok r → ps.length ≤ r.2.length := by
            intro f
            induction f with
            | zero => intro l ps r h; cases h
            | succ f ih =>
              intro l ps r h
              rw [numLoop.eq_def] at h
              dsimp only at h
              split at h
              · cases h; exact le_refl _
              · rename_i b t
                by_cases h0 : isNum b = true
                case neg => rw [if_neg h0] at h; cases h
                rw [if_pos h0] at h
                obtain ⟨q, -, h⟩ := bind_ok h
                obtain ⟨x, -, h⟩ := bind_ok h
                split_ifs at h with h4
                split at h
                · cases h; simp
                · split_ifs at h
                  · split at h
                    · cases h; simp
                    · split_ifs at h
                      · cases h; simp
                      · have := ih _ _ _ h; simp at this; omega
                  · cases h; simp
          split at e2
          · cases e2; simp at h0
          · split_ifs at e2
            · split at e2
              · cases e2; simp at h0
              · split_ifs at e2
                · cases e2; simp at h0
                · have := grow _ _ _ _ e2; simp at this; omega
            · cases e2; simp at h0
      have hk : (2 ≤ q.2.length ∧ q.2.length ≤ 4) ∧ (d = 0 ∨ d = q.2.length) := by omega
      exact .cons hk.1 hk.2 rfl (ih _ _ _ e5 (.inr hk.1))

/-- A line or ring, as the check at the end accepts it. -/
def Checked (base : Base) (d : Nat) (ps : List (List F64)) : Prop := (∀ p ∈ ps, p.length = d) ∧ checkBase base (ps.map ptOf) = none

theorem parsePosns_found {base : Base} {d : Nat} {s after : List Byte} {r : Nat × List (List F64)} (h : parsePosns sd base d s after = .ok r) (hd : d = 0 ∨ 2 ≤ d ∧ d ≤ 4) :
    Found PosLen d r ∧ checkBase base (r.2.map ptOf) = none := by
  unfold parsePosns at h
  obtain ⟨r', h1, h⟩ := bind_ok h
  split at h
  · cases h
  · rename_i hc
    cases h
    refine ⟨?_, hc⟩
    unfold rawPosns at h1
    split at h1
    · cases h1; exact .nil
    · exact posnLoop_found _ _ _ _ _ _ h1 hd

theorem checked_ne {base : Base} {ps : List (List F64)} (hb : base ≠ .point) (h : checkBase base (ps.map ptOf) = none) : ps ≠ [] := by
  rintro rfl
  cases base
  · exact hb rfl
  · simp [checkBase, checkPosns] at h
  · simp [checkBase, checkPosns] at h

theorem groupLoop_found {α : Type} {inner : Nat → List Byte → List Byte → P (Nat × α)} {Q : Nat → α → Prop}
    (hi : ∀ d s after a, inner d s after = .ok a → (d = 0 ∨ 2 ≤ d ∧ d ≤ 4) → (2 ≤ a.1 ∧ a.1 ≤ 4) ∧ (d = 0 ∨ d = a.1) ∧ Q a.1 a.2) (after : List Byte) :
    ∀ (f d : Nat) (l : List Byte) (r : Nat × List α), groupLoop inner after f d l = .ok r → (d = 0 ∨ 2 ≤ d ∧ d ≤ 4) → Found Q d r := by
  intro f
  induction f with
  | zero => intro d l r h; cases h
  | succ f ih =>
    intro d l r h hd
    rw [groupLoop.eq_def] at h
    dsimp only at h
    split at h
    · cases h; exact .nil
    · split_ifs at h
      split at h
      · cases h
      · obtain ⟨a, e1, h⟩ := bind_ok h
        obtain ⟨k1, k2, k3⟩ := hi _ _ _ _ e1 hd
        split at h
        · cases h; exact .cons k1 k2 k3 .nil
        · split_ifs at h
          split at h
          · cases h
          · obtain ⟨q, e2, h⟩ := bind_ok h
            cases h
            exact .cons k1 k2 k3 (ih _ _ _ e2 (.inr k1))

theorem posns_inner {base : Base} (hb : base ≠ .point) {d : Nat} {s after : List Byte} {a : Nat × List (List F64)} (h : parsePosns sd base d s after = .ok a) (hd : d = 0 ∨ 2 ≤ d ∧ d ≤ 4) :
    (2 ≤ a.1 ∧ a.1 ≤ 4) ∧ (d = 0 ∨ d = a.1) ∧ Checked base a.1 a.2 := by
  obtain ⟨h1, h2⟩ := parsePosns_found h hd
  obtain ⟨h3, h4⟩ := h1.2.1 (checked_ne hb h2)
  exact ⟨h3, h4, h1.2.2, h2⟩

/-- The rings of a polygon. -/
def Rings (d : Nat) (rs : List (List (List F64))) : Prop := rs ≠ [] ∧ ∀ r ∈ rs, Checked .ring d r

theorem parseRings_found {d : Nat} {s after : List Byte} {a : Nat × List (List (List F64))} (h : parseRings sd d s after = .ok a) (hd : d = 0 ∨ 2 ≤ d ∧ d ≤ 4) :
    (2 ≤ a.1 ∧ a.1 ≤ 4) ∧ (d = 0 ∨ d = a.1) ∧ Rings a.1 a.2 := by
  unfold parseRings at h
  obtain ⟨r, h1, h⟩ := bind_ok h
  split_ifs at h with h0
  cases h
  have := groupLoop_found (Q := Checked .ring) (fun d s after a h hd => posns_inner (by simp) h hd) _ _ _ _ _ h1 hd
  exact ⟨(this.2.1 h0).1, (this.2.1 h0).2, h0, this.2.2⟩

theorem Checked.line {d : Nat} {z m : Bool} (e : dims z m = d) {ps : List (List F64)} (h : Checked .line d ps) : LineWf z m ps :=
  wf_of_checkLine (fun p hp => (h.1 p hp).trans e.symm) h.2
theorem Checked.ring {d : Nat} {z m : Bool} (e : dims z m = d) {ps : List (List F64)} (h : Checked .ring d ps) : RingWf z m ps :=
  wf_of_checkRing (fun p hp => (h.1 p hp).trans e.symm) h.2

theorem dims0_ok (z m : Bool) : dims0 z m = 0 ∨ 2 ≤ dims0 z m ∧ dims0 z m ≤ 4 := by cases z <;> cases m <;> simp [dims0]

theorem parsePoint_sound {z m : Bool} {s after : List Byte} {g : Geom} (h : parsePoint sd z m s after = .ok g) : Sound g := by
  unfold parsePoint at h
  dsimp only at h
  split at h
  · cases h
  · obtain ⟨ps, h1, h⟩ := bind_ok h
    have hl := pointLoop_len _ _ _ _ _ _ (by simp) h1
    by_cases hc : if dims0 z m = 0 then ps.length < 2 else ps.length ≠ dims0 z m
    · rw [if_pos hc] at h; cases h
    rw [if_neg hc] at h
    have h2 : 2 ≤ ps.length := by
      have := dims0_ok z m
      by_contra h2
      apply hc
      split_ifs with h0
      · omega
      · omega
    cases h
    match ps, h2, hl with
    | [x, y], _, _ => exact sound_point (z := false) (m := false) (p := [x, y]) rfl rfl trivial trivial
    | [x, y, a], _, _ =>
      cases m
      · exact sound_point (z := true) (m := false) (p := [x, y, a]) rfl rfl trivial trivial
      · exact sound_point (z := false) (m := true) (p := [x, y, a]) rfl rfl trivial trivial
    | [x, y, a, b], _, _ => exact sound_point (z := true) (m := true) (p := [x, y, a, b]) rfl rfl trivial trivial

theorem parseLine_sound {z m : Bool} {s after : List Byte} {g : Geom} (h : parseLine sd z m s after = .ok g) : Sound g := by
  unfold parseLine at h
  obtain ⟨r, h1, h⟩ := bind_ok h
  obtain ⟨k1, -, k3⟩ := posns_inner (by simp) h1 (dims0_ok z m)
  cases h
  split_ifs with h2
  · exact sound_line (k3.line (z := false) (m := false) h2.symm)
  · obtain ⟨z', m', e1, e2⟩ := dimFlags_of (.inr k1) m
    rw [e1]; exact sound_gline (k3.line (e2 (by omega)))

theorem parsePolygon_sound {z m : Bool} {s after : List Byte} {g : Geom} (h : parsePolygon sd z m s after = .ok g) : Sound g := by
  unfold parsePolygon at h
  obtain ⟨r, h1, h⟩ := bind_ok h
  obtain ⟨k1, -, k0, k3⟩ := parseRings_found h1 (dims0_ok z m)
  cases h
  split_ifs with h2
  · exact sound_poly k0 fun r hr => (k3 r hr).ring (z := false) (m := false) h2.symm
  · obtain ⟨z', m', e1, e2⟩ := dimFlags_of (.inr k1) m
    rw [e1]; exact sound_gpoly k0 fun r hr => (k3 r hr).ring (e2 (by omega))

theorem found_flags {α : Type} {Q : Nat → α → Prop} {d : Nat} (hd : d = 0 ∨ 2 ≤ d ∧ d ≤ 4) {r : Nat × List α} (h : Found Q d r) (m : Bool) :
    ∃ z m', dimFlags r.1 m = zmFlags z m' ∧ ∀ a ∈ r.2, dims z m' = r.1 ∧ Q r.1 a := by
  obtain ⟨z', m', e1, e2⟩ := dimFlags_of (h.dim hd) m
  refine ⟨z', m', e1, fun a ha => ⟨e2 ?_, h.2.2 a ha⟩⟩
  have := (h.2.1 (List.ne_nil_of_mem ha)).1
  omega

theorem parseMPoint_sound {z m : Bool} {s after : List Byte} {g : Geom} (h : parseMPoint sd z m s after = .ok g) : Sound g := by
  unfold parseMPoint at h
  obtain ⟨r, h1, h⟩ := bind_ok h
  obtain ⟨z', m', e1, e2⟩ := found_flags (dims0_ok z m) (parsePosns_found h1 (dims0_ok z m)).1 m
  cases h
  rw [e1]
  exact sound_mpoint fun p hp => (e2 p hp).2.trans (e2 p hp).1.symm

theorem parseMLine_sound {z m : Bool} {s after : List Byte} {g : Geom} (h : parseMLine sd z m s after = .ok g) : Sound g := by
  unfold parseMLine at h
  obtain ⟨r, h1, h⟩ := bind_ok h
  obtain ⟨z', m', e1, e2⟩ := found_flags (dims0_ok z m) (groupLoop_found (Q := Checked .line) (fun d s after a h hd => posns_inner (by simp) h hd) _ _ _ _ _ h1 (dims0_ok z m)) m
  cases h
  rw [e1]
  exact sound_mline fun l hl => (e2 l hl).2.line (e2 l hl).1

theorem parseMPoly_sound {z m : Bool} {s after : List Byte} {g : Geom} (h : parseMPoly sd z m s after = .ok g) : Sound g := by
  unfold parseMPoly at h
  obtain ⟨r, h1, h⟩ := bind_ok h
  obtain ⟨z', m', e1, e2⟩ := found_flags (dims0_ok z m) (groupLoop_found (Q := Rings) (fun d s after a h hd => parseRings_found h hd) _ _ _ _ _ h1 (dims0_ok z m)) m
  cases h
  rw [e1]
  exact sound_mpoly fun rs hrs => ⟨(e2 rs hrs).2.1, fun r hr => ((e2 rs hrs).2.2 r hr).ring (e2 rs hrs).1⟩

theorem collLoop_sound {child : List Byte → List Byte → P Geom} (hc : ∀ s after g, child s after = .ok g → Sound g) (after : List Byte) :
    ∀ (f : Nat) (l : List Byte) (r : Nat × List Geom), collLoop child after f l = .ok r → ∀ g ∈ r.2, Sound g := by
  intro f
  induction f with
  | zero => intro l r h; cases h
  | succ f ih =>
    intro l r h
    rw [collLoop.eq_def] at h
    dsimp only at h
    split at h
    · cases h; simp
    · split at h
      · cases h
      · obtain ⟨gs, e1, h⟩ := bind_ok h
        have hgs : ∀ g ∈ gs, Sound g := by
          split_ifs at e1
          · cases e1; simp
          · obtain ⟨g, e2, e1⟩ := bind_ok e1
            cases e1
            simpa using hc _ _ _ e2
        split at h
        · cases h; exact hgs
        · split_ifs at h
          obtain ⟨q, e2, h⟩ := bind_ok h
          cases h
          intro g hg
          rcases List.mem_append.1 hg with hg | hg
          · exact hgs g hg
          · exact ih _ _ e2 g hg

theorem parseWkt_sound : ∀ (d : Nat) (s after : List Byte) (g : Geom), parseWkt sd d s after = .ok g → Sound g := by
  intro d
  induction d with
  | zero => intro s after g h; cases h
  | succ d ih =>
    intro s after g h
    rw [parseWkt] at h
    split_ifs at h with h0
    dsimp only at h
    split at h
    · cases h
    · cases h
    · cases h
    · split_ifs at h
      · cases h; exact sound_empty _
      split at h
      · cases h
      · split at h
        · cases h
        · split_ifs at h
          split at h
          · exact parsePoint_sound h
          · exact parseLine_sound h
          · exact parsePolygon_sound h
          · exact parseMPoint_sound h
          · exact parseMLine_sound h
          · exact parseMPoly_sound h
          · unfold parseColl at h
            obtain ⟨r, h1, h⟩ := bind_ok h
            split_ifs at h
            cases h
            exact sound_coll rfl rfl (collLoop_sound (fun s after g h => ih s after g h) _ _ _ _ h1) _ _

theorem tgParseWkt_sound {data : List Byte} {g : Geom} (h : tgParseWkt sd data = .geom g) : Sound g := by
  unfold tgParseWkt at h
  split at h
  · cases h
  · cases h
  · rename_i g' h1
    cases h
    exact parseWkt_sound _ _ _ _ h1

end Tg.Wp
