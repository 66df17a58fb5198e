import Verif.Lemmas.SeriesPip
import Verif.Lemmas.RingRing
import Verif.Model.IndexOpt
import Verif.Model.Exact
import Mathlib.Algebra.Order.Floor.Ring
import Mathlib.Tactic.FieldSimp
import Mathlib.Tactic.Linarith
/-! The constructors `tg_ring_new_ix` and `tg_line_new_ix`; laws of the exact arithmetic for indexes. -/
namespace Tg.S

set_option linter.unusedSectionVars false

variable {α β : Type*} [LinearOrder α] [LinearOrder β]

/-- Whatever is built is as expected. -/
theorem seriesNew_some [Zero α] {f : Ix α β} (hf : f.Lawful) {A : Arith α} {pts : List (Pt α)} {closed : Bool} {ix dflt ixspread : Nat}
    (hs : 2 ≤ ixspread) {ring : Ring α β} (h : seriesNew f A pts closed ix dflt ixspread = some ring) :
    RingOk f pts closed ixspread ring ∧ (ring.index.isSome = true ↔ (indexKinds pts.length ixspread closed ix dflt).1 = true) ∧
      (ring.ystripes.isSome = true ↔ (indexKinds pts.length ixspread closed ix dflt).2 = true) ∧
      ∀ st, ring.ystripes = some st → processStripes A ring.rect (stripesOf A pts) (segments pts closed) = some st := by
  obtain ⟨rect, index, h1, h2, h3, h4⟩ := seriesBase_ok hf pts closed hs (indexKinds pts.length ixspread closed ix dflt).1
    (fun h => indexKinds_size (Or.inl h))
  unfold seriesNew at h
  rcases hk : indexKinds pts.length ixspread closed ix dflt with ⟨ki, ks⟩
  rw [hk] at h1 h3 h
  dsimp only at *
  rw [h1] at h
  have hx : ∀ ix, index = some ix → ix.spread = ixspread ∧ 2 * ixspread ≤ pts.length := by
    intro ix hx
    refine ⟨(h4 ix hx).1, ?_⟩
    have hki : ki = true := h3.1 (by rw [hx]; rfl)
    exact indexKinds_size (Or.inl (by rw [hk]; exact hki))
  dsimp only at h
  cases ks with
  | false =>
    simp only [Bool.false_eq_true, ↓reduceIte, Option.some.injEq] at h
    subst h
    exact ⟨⟨rfl, rfl, rfl, numSegments_eq _ _, fun h => (h2 h).1, fun h => (h2 h).2, hx, fun ix hx => (h4 ix hx).2.1, fun ix hx => (h4 ix hx).2.2⟩, h3, by simp, by
      intro st h; cases h⟩
  | true =>
    rw [if_pos rfl] at h
    rw [numSegments_eq, allSegs_eq] at h
    dsimp only at h
    cases hp : processStripes A rect (stripesOf A pts) (segments pts closed) with
    | none => rw [hp] at h; cases h
    | some st =>
      rw [hp] at h
      dsimp only at h
      rw [Option.some.injEq] at h
      subst h
      exact ⟨⟨rfl, rfl, rfl, rfl, fun h => (h2 h).1, fun h => (h2 h).2, hx, fun ix hx => (h4 ix hx).2.1, fun ix hx => (h4 ix hx).2.2⟩, h3, by simp, by
        intro st h; cases h; exact hp⟩

theorem indexKinds_closed {n s : Nat} {closed : Bool} {ix d : Nat} (h : (indexKinds n s closed ix d).2 = true) : closed = true := by
  by_cases hn : n ≥ s * 2
  · simp only [indexKinds, hn, ↓reduceIte, Bool.and_eq_true] at h; exact h.1
  · simp [indexKinds, hn] at h

/-! ### Options -/

/-- The environments that occur: `tg_env_set_index_spread` keeps the spread in range. -/
def Env.Ok (e : Env) : Prop := 2 ≤ e.spread ∧ e.spread ≤ 4096

theorem extractSpread_ge {e : Env} (he : e.Ok) (ix : BitVec 32) : 2 ≤ (extractSpread e ix).2.toNat := by
  obtain ⟨h1, h2⟩ := he
  unfold extractSpread
  dsimp only
  split_ifs <;> omega

/-- The spread that a constructor uses. -/
def spreadOf (e : Env) (ix : BitVec 32) : Nat := (extractSpread e ix).2.toNat

/-- The kinds of index that a constructor builds. -/
def kindsOf (e : Env) (n : Nat) (closed : Bool) (ix : BitVec 32) : Bool × Bool :=
  indexKinds n (spreadOf e ix) closed (extractSpread e ix).1.toNat e.index.toNat

theorem newIx_some [Zero α] {f : Ix α β} (hf : f.Lawful) {A : Arith α} {e : Env} (he : e.Ok) {pts : List (Pt α)} {closed : Bool}
    {ix : BitVec 32} {ring : Ring α β} (h : newIx f A e pts closed ix = some ring) :
    RingOk f pts closed (spreadOf e ix) ring ∧ (ring.index.isSome = true ↔ (kindsOf e pts.length closed ix).1 = true) ∧
      (ring.ystripes.isSome = true ↔ (kindsOf e pts.length closed ix).2 = true) ∧
      ∀ st, ring.ystripes = some st → processStripes A ring.rect (stripesOf A pts) (segments pts closed) = some st :=
  seriesNew_some hf (extractSpread_ge he ix) h

/-- What a level of the index is above. -/
theorem Levels.at {s n : Nat} {ext : Nat → Option (Rect β)} : ∀ {ls : List (List (Rect β))}, Levels s n ext ls →
    ∀ k l, ls[k]? = some l → l.length = numKeys s (ls.length - k) n ∧
      (∀ l', ls[k + 1]? = some l' → Parent s l l') ∧
      (k + 1 = ls.length → ∀ i r, l[i]? = some r → ∀ j q, i * s ≤ j → j < (i + 1) * s → j < n → ext j = some q → q.Le r)
  | [], _, k, l, h => by simp at h
  | l0 :: ls, ⟨h1, h2, h3⟩, 0, l, h => by
    simp only [List.getElem?_cons_zero, Option.some.injEq] at h
    subst h
    refine ⟨by simpa using h1, ?_, ?_⟩
    · intro l' hl'
      cases ls with
      | nil => simp at hl'
      | cons x xs =>
        simp only [Nat.zero_add, List.getElem?_cons_succ, List.getElem?_cons_zero, Option.some.injEq] at hl'
        subst hl'
        exact h2
    · intro hk
      cases ls with
      | nil => exact h2
      | cons x xs => simp at hk
  | l0 :: ls, ⟨h1, h2, h3⟩, k + 1, l, h => by
    obtain ⟨a1, a2, a3⟩ := Levels.at h3 k l (by simpa using h)
    refine ⟨by rw [a1]; simp, fun l' hl' => a2 l' (by simpa using hl'), fun hk => a3 (by simpa using hk)⟩

/-! ### Exact arithmetic -/

section exact
variable {K : Type*} [Field K] [LinearOrder K]

theorem Ix.exact_lawful : (Ix.exact : Ix K K).Lawful :=
  ⟨fun _ _ h => h, fun _ _ h => h, fun _ _ h => h, fun _ => le_rfl, fun _ => le_rfl⟩

theorem Ix.exact_tight (segs : List (Seg K)) : (Ix.exact : Ix K K).Tight segs :=
  ⟨fun _ _ h => h, fun _ _ _ _ => ⟨le_rfl, le_rfl⟩, fun _ _ _ _ => ⟨le_rfl, le_rfl⟩⟩

variable [IsStrictOrderedRing K] [FloorRing K] {ε : K} {ns : List (Pt K) → Nat}

theorem exact_stripe {lo hi : K} {n : Nat} {y : K} (h : lo < hi) (h1 : lo ≤ y) :
    (exact ε ns).stripe lo hi n y = some ⌊(y - lo) / (hi - lo) * n⌋ := by
  have h0 : hi - lo ≠ 0 := (sub_pos.2 h).ne'
  have : 0 ≤ (y - lo) / (hi - lo) * n := mul_nonneg (div_nonneg (sub_nonneg.2 h1) (sub_pos.2 h).le) (Nat.cast_nonneg n)
  simp [exact, h0, truncInt, this]

theorem exact_stripeOk {lo hi : K} {n : Nat} (h : lo < hi) : StripeOk (exact ε ns) lo hi n := by
  refine ⟨fun y h1 h2 => ⟨_, exact_stripe h h1⟩, ?_, ?_⟩
  · intro y k h1 h2 hk
    rw [exact_stripe h h1] at hk
    cases hk
    exact Int.floor_nonneg.2 (mul_nonneg (div_nonneg (sub_nonneg.2 h1) (sub_pos.2 h).le) (Nat.cast_nonneg n))
  · intro y y' k k' h1 h2 h3 hk hk'
    rw [exact_stripe h h1] at hk
    rw [exact_stripe h (h1.trans h2)] at hk'
    cases hk
    cases hk'
    apply Int.floor_le_floor
    exact mul_le_mul_of_nonneg_right (div_le_div_of_nonneg_right (sub_le_sub_right h2 _) (sub_pos.2 h).le) (Nat.cast_nonneg n)

theorem exact_stripe_lt {lo hi : K} {n : Nat} (hn : 0 < n) {y : K} {k : Int} (h : lo < hi) (h2 : y < hi)
    (hk : (exact ε ns).stripe lo hi n y = some k) : k < n := by
  have h0 : hi - lo ≠ 0 := (sub_pos.2 h).ne'
  have : (y - lo) / (hi - lo) < 1 := by rw [div_lt_one (sub_pos.2 h)]; linarith
  have hn' : (0 : K) < n := Nat.cast_pos.2 hn
  have hlt : (y - lo) / (hi - lo) * n < ((n : Int) : K) := calc
    (y - lo) / (hi - lo) * n < 1 * n := mul_lt_mul_of_pos_right this hn'
    _ = ((n : Int) : K) := by simp
  simp only [exact, h0, ↓reduceIte, Option.some.injEq, truncInt] at hk
  rw [← hk]
  split_ifs with hx
  · exact Int.floor_lt.2 hlt
  · have : ⌈(y - lo) / (hi - lo) * n⌉ ≤ 0 := Int.ceil_le.2 (by simpa using (not_le.1 hx).le)
    omega

end exact

end Tg.S
