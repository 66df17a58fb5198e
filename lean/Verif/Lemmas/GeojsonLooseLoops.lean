import Verif.Lemmas.GeojsonLooseTake
/-! What the loops of the GeoJSON parser accept. -/
set_option linter.unusedSectionVars false
namespace Tg.Gp
open Json
open Wp (P Base checkBase dimFlags polyOf showBytes Safe bind_ok safe_ok safe_err)
open Spec.Json (Ws Val Elems Mems Chr Chrs Str Utf8 HexDigit IsNumber)
open Spec.Geojson (IsArr IsPosn IsSeries IsRings IsPolys IsList)
open Spec (view views posOk dims)
open Spec.Wkt (LineWf RingWf)

variable {sd : List Byte → F64 × Nat}

theorem numLoop_inv (msg : String) : ∀ (ts : List (List Byte)) (j : Option J) (f : Nat) (ps qs : List F64), Walk ts j → (∀ t ∈ ts, JVal t) → numLoop sd msg f j ps = .ok qs →
    ∀ t ∈ ts, IsNumber t
  | [], _, _, _, _, _, _, _ => by simp
  | t :: ts, j, 0, ps, qs, hw, hv, h => by cases h
  | t :: ts, j, f + 1, ps, qs, hw, hv, h => by
    obtain ⟨⟨r, hh⟩, hw⟩ := hw
    obtain ⟨i, rfl, -⟩ := here_some hh
    rw [numLoop] at h
    by_cases ht : jtype (some i) ≠ .number
    · rw [if_pos ht] at h; cases h
    · rw [if_neg ht] at h
      intro t' ht'
      rcases List.mem_cons.1 ht' with rfl | ht'
      · exact jval_number (hv _ (by simp)) hh (not_not.1 ht)
      · exact numLoop_inv msg ts _ f _ _ hw (fun u hu => hv u (by simp [hu])) h t' ht'

theorem posn_inv (msg : String) {t r : List Byte} (hv : JVal t) {j : Option J} (hj : Here j t r) (ht : jtype j = .array) {p : List F64}
    (h : numLoop sd msg (size j + 1) (first j) [] = .ok p) : IsPosn (Num sd) p t ∧ p.length ≤ 4 := by
  obtain ⟨vs, h1, h2⟩ := jval_arr hv hj ht
  have hw := arr_walk h1 h2 hj
  have hn := numLoop_inv msg vs _ _ _ _ hw h2 h
  have hs := size_first j
  rw [numLoop_walk msg vs _ _ [] hw hn (by omega) (by simp)] at h
  cases h
  refine ⟨⟨vs, h1, hn, ?_⟩, by simp⟩
  simp only [List.nil_append, List.length_nil, Nat.sub_zero]
  rw [List.forall₂_map_right_iff]
  have hn' : ∀ t ∈ vs.take 4, IsNumber t := fun t ht => hn t (List.mem_of_mem_take ht)
  revert hn'
  generalize vs.take 4 = us
  intro hn'
  induction us with
  | nil => exact .nil
  | cons u us ih => exact .cons ⟨hn' u (by simp), rfl⟩ (ih fun t ht => hn' t (by simp [ht]))

theorem posnLoop_inv (depth : Nat) : ∀ (ts : List (List Byte)) (j : Option J) (f dims D : Nat) (ps : List (List F64)), Walk ts j → (∀ t ∈ ts, JVal t) →
    posnLoop sd depth f dims j = .ok (D, ps) →
    List.Forall₂ (IsPosn (Num sd)) ps ts ∧ (∀ p ∈ ps, p.length = D) ∧ (ps = [] → D = dims) ∧ (ps ≠ [] → 2 ≤ D ∧ D ≤ 4) ∧ (dims ≠ 0 → D = dims)
  | ts, j, 0, dims, D, ps, hw, hv, h => by cases h
  | [], j, f + 1, dims, D, ps, hw, hv, h => by
    rw [Walk] at hw
    subst hw
    cases h
    simp
  | t :: ts, j, f + 1, dims, D, ps, hw, hv, h => by
    obtain ⟨⟨r, hh⟩, hw⟩ := hw
    obtain ⟨i, rfl, -⟩ := here_some hh
    rw [posnLoop] at h
    by_cases ht : jtype (some i) ≠ .array
    · rw [if_pos ht] at h; cases h
    rw [if_neg ht] at h
    obtain ⟨p, h1, h⟩ := bind_ok h
    obtain ⟨hp, hp4⟩ := posn_inv _ (hv t (by simp)) hh (not_not.1 ht) h1
    dsimp only at h
    by_cases h2 : p.length < 2
    · rw [if_pos h2] at h; cases h
    rw [if_neg h2] at h
    by_cases h3 : p.length ≠ if dims = 0 then p.length else dims
    · rw [if_pos h3] at h; cases h
    rw [if_neg h3] at h
    obtain ⟨⟨D', ps'⟩, h4, h⟩ := bind_ok h
    obtain ⟨rfl, rfl⟩ : D' = D ∧ ps = p :: ps' := by cases h; exact ⟨rfl, rfl⟩
    obtain ⟨i1, i2, i3, i4, i5⟩ := posnLoop_inv depth ts _ f _ _ _ hw (fun u hu => hv u (by simp [hu])) h4
    rw [not_not] at h3
    have hD : D' = p.length := by rw [h3]; exact i5 (by omega)
    refine ⟨.cons hp i1, ?_, by simp, fun _ => by omega, ?_⟩
    · intro q hq
      rcases List.mem_cons.1 hq with rfl | hq
      · exact hD.symm
      · exact i2 q hq
    · intro hd
      rw [if_neg hd] at h3
      omega

theorem parsePosns_inv {base : Base} (depth : Nat) {t r : List Byte} (hv : JVal t) {j : Option J} (hj : Here j t r) (ht : jtype j = .array) {dims D : Nat} {ps : List (List F64)}
    (h : parsePosns sd base depth dims j = .ok (D, ps)) :
    IsSeries (Num sd) ps t ∧ (∀ p ∈ ps, p.length = D) ∧ (ps = [] → D = dims) ∧ (ps ≠ [] → 2 ≤ D ∧ D ≤ 4) ∧ (dims ≠ 0 → D = dims) ∧ checkBase base (ps.map ptOf) = none := by
  rw [parsePosns] at h
  obtain ⟨⟨D', ps'⟩, h1, h⟩ := bind_ok h
  dsimp only at h
  cases hc : checkBase base (ps'.map ptOf) with
  | some e => rw [hc] at h; cases h
  | none =>
    rw [hc] at h
    cases h
    obtain ⟨vs, h2, h3⟩ := jval_arr hv hj ht
    obtain ⟨i1, i2, i3, i4, i5⟩ := posnLoop_inv depth vs _ _ _ _ _ (arr_walk h2 h3 hj) h3 h1
    exact ⟨⟨vs, h2, i1⟩, i2, i3, i4, i5, hc⟩

theorem arrLoop_inv {α : Type} (msg : String) {inner : Nat → Option J → P (Nat × α)} {I : α → List Byte → Prop} (Q : Nat → α → Prop)
    (hI : ∀ t j r dims D a, JVal t → Here j t r → jtype j = .array → inner dims j = .ok (D, a) → I a t ∧ Q D a ∧ (2 ≤ D ∧ D ≤ 4) ∧ (dims ≠ 0 → D = dims)) :
    ∀ (ts : List (List Byte)) (j : Option J) (f dims D : Nat) (as : List α), Walk ts j → (∀ t ∈ ts, JVal t) → arrLoop msg inner f dims j = .ok (D, as) →
    List.Forall₂ I as ts ∧ (∀ a ∈ as, Q D a) ∧ (as ≠ [] → 2 ≤ D ∧ D ≤ 4) ∧ (dims ≠ 0 → D = dims)
  | ts, j, 0, dims, D, ps, hw, hv, h => by cases h
  | [], j, f + 1, dims, D, ps, hw, hv, h => by
    rw [Walk] at hw
    subst hw
    cases h
    simp
  | t :: ts, j, f + 1, dims, D, ps, hw, hv, h => by
    obtain ⟨⟨r, hh⟩, hw⟩ := hw
    obtain ⟨i, rfl, -⟩ := here_some hh
    rw [arrLoop] at h
    by_cases ht : jtype (some i) ≠ .array
    · rw [if_pos ht] at h; cases h
    rw [if_neg ht] at h
    obtain ⟨⟨D1, a⟩, h1, h⟩ := bind_ok h
    obtain ⟨k1, k2, k3, k4⟩ := hI _ _ _ _ _ _ (hv t (by simp)) hh (not_not.1 ht) h1
    obtain ⟨⟨D', ps'⟩, h4, h⟩ := bind_ok h
    obtain ⟨rfl, rfl⟩ : D' = D ∧ ps = a :: ps' := by cases h; exact ⟨rfl, rfl⟩
    obtain ⟨i1, i2, i3, i4⟩ := arrLoop_inv msg Q hI ts _ f _ _ _ hw (fun u hu => hv u (by simp [hu])) h4
    dsimp only at i4
    have hD : D' = D1 := i4 (by omega)
    subst hD
    refine ⟨.cons k1 i1, ?_, fun _ => k3, k4⟩
    intro q hq
    rcases List.mem_cons.1 hq with rfl | hq
    · exact k2
    · exact i2 q hq

/-! ### Lines and rings -/

/-- How many coordinates there are says which. -/
theorem zm_of {D : Nat} (h : 2 ≤ D ∧ D ≤ 4) : ∃ z m, dims z m = D ∧ (m = true → z = true) := by
  obtain ⟨h1, h2⟩ := h
  match D, h1, h2 with
  | 2, _, _ => exact ⟨false, false, rfl, by simp⟩
  | 3, _, _ => exact ⟨true, false, rfl, by simp⟩
  | 4, _, _ => exact ⟨true, true, rfl, by simp⟩

/-- A line with this many coordinates. -/
def LineOf (D : Nat) (ps : List (List F64)) : Prop := ∀ z m, dims z m = D → LineWf z m ps
/-- A ring with this many coordinates. -/
def RingOf (D : Nat) (ps : List (List F64)) : Prop := ∀ z m, dims z m = D → RingWf z m ps

theorem checkLine_inv {D : Nat} {ps : List (List F64)} (hp : ∀ p ∈ ps, p.length = D) (h : checkBase .line (ps.map ptOf) = none) : LineOf D ps ∧ ps ≠ [] := by
  have h2 : 2 ≤ ps.length := by
    rw [checkBase, checkPosns] at h
    simp only [Bool.false_eq_true, if_false, List.length_map] at h
    by_contra hc
    rw [if_pos (by omega)] at h
    cases h
  exact ⟨fun z m e => ⟨h2, fun p hq => (hp p hq).trans e.symm⟩, by rintro rfl; simp at h2⟩

theorem checkRing_inv {D : Nat} {ps : List (List F64)} (hp : ∀ p ∈ ps, p.length = D) (hD : ps ≠ [] → 2 ≤ D) (h : checkBase .ring (ps.map ptOf) = none) : RingOf D ps ∧ ps ≠ [] := by
  rw [checkBase, checkPosns] at h
  simp only [if_true, List.length_map] at h
  have h3 : 3 ≤ ps.length := by
    by_contra hc
    rw [if_pos (by omega)] at h
    cases h
  rw [if_neg (by omega), List.head?_map, List.getLast?_map] at h
  have hne : ps ≠ [] := by rintro rfl; simp at h3
  refine ⟨fun z m e => ⟨h3, fun p hq => (hp p hq).trans e.symm, fun p0 p1 h0 h1 => ?_⟩, hne⟩
  rw [h0, h1] at h
  simp only [Option.map_some] at h
  have e0 := hp _ (List.mem_of_head? h0)
  have e1 := hp _ (List.mem_of_getLast? h1)
  have := hD hne
  rw [(ptOf_getD (p := p0) (by omega)).1, (ptOf_getD (p := p0) (by omega)).2, (ptOf_getD (p := p1) (by omega)).1, (ptOf_getD (p := p1) (by omega)).2] at h
  split at h
  · rename_i hc
    exact (Bool.and_eq_true _ _).mp hc
  · cases h

/-- One line of several. -/
theorem line_inv (depth : Nat) : ∀ t j r dims D a, JVal t → Here j t r → jtype j = .array → parsePosns sd .line depth dims j = .ok (D, a) →
    IsSeries (Num sd) a t ∧ LineOf D a ∧ (2 ≤ D ∧ D ≤ 4) ∧ (dims ≠ 0 → D = dims) := by
  intro t j r dims D a hv hj ht h
  obtain ⟨i1, i2, -, i4, i5, i6⟩ := parsePosns_inv depth hv hj ht h
  obtain ⟨k1, k2⟩ := checkLine_inv i2 i6
  exact ⟨i1, k1, i4 k2, i5⟩

/-- One ring of several. -/
theorem ring_inv (depth : Nat) : ∀ t j r dims D a, JVal t → Here j t r → jtype j = .array → parsePosns sd .ring depth dims j = .ok (D, a) →
    IsSeries (Num sd) a t ∧ RingOf D a ∧ (2 ≤ D ∧ D ≤ 4) ∧ (dims ≠ 0 → D = dims) := by
  intro t j r dims D a hv hj ht h
  obtain ⟨i1, i2, -, i4, i5, i6⟩ := parsePosns_inv depth hv hj ht h
  obtain ⟨k1, k2⟩ := checkRing_inv i2 (fun h => (i4 h).1) i6
  exact ⟨i1, k1, i4 k2, i5⟩

/-- One polygon of several. -/
theorem rings_inv (depth : Nat) : ∀ t j r dims D a, JVal t → Here j t r → jtype j = .array → parseRings sd depth dims j = .ok (D, a) →
    IsRings (Num sd) a t ∧ (a ≠ [] ∧ ∀ l ∈ a, RingOf D l) ∧ (2 ≤ D ∧ D ≤ 4) ∧ (dims ≠ 0 → D = dims) := by
  intro t j r dims D a hv hj ht h
  rw [parseRings] at h
  obtain ⟨⟨D', a'⟩, h1, h⟩ := bind_ok h
  dsimp only at h
  by_cases h0 : a' = []
  · rw [if_pos h0] at h; cases h
  rw [if_neg h0] at h
  cases h
  obtain ⟨vs, h2, h3⟩ := jval_arr hv hj ht
  obtain ⟨i1, i2, i3, i4⟩ := arrLoop_inv _ _ (ring_inv depth) vs _ _ _ _ _ (arr_walk h2 h3 hj) h3 h1
  exact ⟨⟨vs, h2, i1⟩, ⟨h0, i2⟩, i3 h0, i4⟩

end Tg.Gp
