import Verif.Model.Series
import Mathlib.Tactic.Ring
import Mathlib.Data.Nat.Log
/-! Lemmas on rectangles and on the construction of the natural index. -/
namespace Tg.S

set_option linter.unusedSectionVars false

variable {α β : Type*} [LinearOrder α] [LinearOrder β]

/-! ### Rectangles -/

/-- The closed box of a rectangle contains a point. -/
def Rect.Has (r : Rect α) (p : Pt α) : Prop := r.lo.x ≤ p.x ∧ p.x ≤ r.hi.x ∧ r.lo.y ≤ p.y ∧ p.y ≤ r.hi.y

/-- Inclusion of the bounds. -/
def Rect.Le (r s : Rect α) : Prop := s.lo.x ≤ r.lo.x ∧ r.hi.x ≤ s.hi.x ∧ s.lo.y ≤ r.lo.y ∧ r.hi.y ≤ s.hi.y

/-- A rectangle that is not inside out. -/
def Rect.Valid (r : Rect α) : Prop := r.lo.x ≤ r.hi.x ∧ r.lo.y ≤ r.hi.y

theorem Rect.Le.refl (r : Rect α) : r.Le r := ⟨le_rfl, le_rfl, le_rfl, le_rfl⟩

theorem Rect.Le.trans {r s t : Rect α} (h : r.Le s) (h' : s.Le t) : r.Le t :=
  ⟨h'.1.trans h.1, h.2.1.trans h'.2.1, h'.2.2.1.trans h.2.2.1, h.2.2.2.trans h'.2.2.2⟩

theorem Rect.Has.mono {r s : Rect α} {p : Pt α} (h : r.Has p) (h' : r.Le s) : s.Has p :=
  ⟨h'.1.trans h.1, h.2.1.trans h'.2.1, h'.2.2.1.trans h.2.2.1, h.2.2.2.trans h'.2.2.2⟩

theorem Rect.le_inflate_left (r s : Rect α) : r.Le (r.inflate s) :=
  ⟨min_le_left _ _, le_max_left _ _, min_le_left _ _, le_max_left _ _⟩

theorem Rect.le_inflate_right (r s : Rect α) : s.Le (r.inflate s) :=
  ⟨min_le_right _ _, le_max_right _ _, min_le_right _ _, le_max_right _ _⟩

theorem Rect.inflate_le {r s t : Rect α} (h : r.Le t) (h' : s.Le t) : (r.inflate s).Le t :=
  ⟨le_min h.1 h'.1, max_le h.2.1 h'.2.1, le_min h.2.2.1 h'.2.2.1, max_le h.2.2.2 h'.2.2.2⟩

theorem Rect.le_inflatePt (r : Rect α) (p : Pt α) : r.Le (r.inflatePt p) :=
  ⟨min_le_left _ _, le_max_left _ _, min_le_left _ _, le_max_left _ _⟩

theorem Rect.has_inflatePt (r : Rect α) (p : Pt α) : (r.inflatePt p).Has p :=
  ⟨min_le_right _ _, le_max_right _ _, min_le_right _ _, le_max_right _ _⟩

theorem Rect.inflatePt_le {r t : Rect α} {p : Pt α} (h : r.Le t) (h' : t.Has p) : (r.inflatePt p).Le t :=
  ⟨le_min h.1 h'.1, max_le h.2.1 h'.2.1, le_min h.2.2.1 h'.2.2.1, max_le h.2.2.2 h'.2.2.2⟩

theorem Pt.rect_has (p : Pt α) : p.rect.Has p := ⟨le_rfl, le_rfl, le_rfl, le_rfl⟩

theorem Pt.rect_le {p : Pt α} {t : Rect α} (h : t.Has p) : p.rect.Le t := ⟨h.1, h.2.1, h.2.2.1, h.2.2.2⟩

theorem Seg.rect_le {s : Seg α} {t : Rect α} (ha : t.Has s.a) (hb : t.Has s.b) : s.rect.Le t :=
  ⟨le_min ha.1 hb.1, max_le ha.2.1 hb.2.1, le_min ha.2.2.1 hb.2.2.1, max_le ha.2.2.2 hb.2.2.2⟩

theorem Seg.rect_valid (s : Seg α) : s.rect.Valid :=
  ⟨(min_le_left _ _).trans (le_max_left _ _), (min_le_left _ _).trans (le_max_left _ _)⟩

theorem Rect.ext_of_le {r s : Rect α} (h : r.Le s) (h' : s.Le r) : r = s := by
  rcases r with ⟨⟨a, b⟩, ⟨c, d⟩⟩; rcases s with ⟨⟨a', b'⟩, ⟨c', d'⟩⟩
  obtain ⟨h1, h2, h3, h4⟩ := h
  obtain ⟨g1, g2, g3, g4⟩ := h'
  simp only at *
  rw [le_antisymm g1 h1, le_antisymm h2 g2, le_antisymm g3 h3, le_antisymm h4 g4]

theorem intersects_iff (a b : Rect α) :
    a.intersects b = true ↔ b.lo.x ≤ a.hi.x ∧ a.lo.x ≤ b.hi.x ∧ b.lo.y ≤ a.hi.y ∧ a.lo.y ≤ b.hi.y := by
  simp only [Rect.intersects, Bool.not_eq_true', Bool.or_eq_false_iff, decide_eq_false_iff_not, not_lt, gt_iff_lt]
  tauto

theorem covers_iff (a b : Rect α) : a.covers b = true ↔ b.Le a := by
  simp only [Rect.covers, Bool.not_eq_true', Bool.or_eq_false_iff, decide_eq_false_iff_not, not_lt, gt_iff_lt, Rect.Le]
  tauto

theorem coversPt_iff (a : Rect α) (p : Pt α) : a.coversPt p = true ↔ a.Has p := by
  simp only [Rect.coversPt, Bool.not_eq_true', Bool.or_eq_false_iff, decide_eq_false_iff_not, not_lt, gt_iff_lt, Rect.Has]
  tauto

theorem ixIntersects_iff (a b : Rect β) :
    ixIntersects a b = true ↔ a.lo.y ≤ b.hi.y ∧ b.lo.y ≤ a.hi.y ∧ a.lo.x ≤ b.hi.x ∧ b.lo.x ≤ a.hi.x := by
  unfold ixIntersects
  split_ifs with h1 h2
  · simp only [Bool.or_eq_true, decide_eq_true_eq, gt_iff_lt] at h1
    simp only [false_iff]
    rintro ⟨a1, a2, -, -⟩
    rcases h1 with h | h
    · exact absurd a1 (not_le.2 h)
    · exact absurd a2 (not_le.2 h)
  · simp only [Bool.or_eq_true, decide_eq_true_eq, gt_iff_lt] at h2
    simp only [false_iff]
    rintro ⟨-, -, a1, a2⟩
    rcases h2 with h | h
    · exact absurd a1 (not_le.2 h)
    · exact absurd a2 (not_le.2 h)
  · simp only [Bool.or_eq_true, decide_eq_true_eq, gt_iff_lt, not_or, not_lt] at h1 h2
    simp only [true_iff]
    exact ⟨h1.1, h1.2, h2.1, h2.2⟩

/-! ### Laws of the conversion -/

/-- What the searches need of the conversion to index coordinates. It holds for the conversion to 32-bit floats of all
doubles but NaN, and for the identity. -/
structure Ix.Lawful (f : Ix α β) : Prop where
  down_mono : ∀ x y, x ≤ y → f.down x ≤ f.down y
  up_mono : ∀ x y, x ≤ y → f.up x ≤ f.up y
  near_mono : ∀ x y, x ≤ y → f.near x ≤ f.near y
  down_le : ∀ x, f.down x ≤ f.near x
  le_up : ∀ x, f.near x ≤ f.up x

theorem Ix.Lawful.rect_mono {f : Ix α β} (hf : f.Lawful) {r s : Rect α} (h : r.Le s) : (f.rect r).Le (f.rect s) :=
  ⟨hf.down_mono _ _ h.1, hf.up_mono _ _ h.2.1, hf.down_mono _ _ h.2.2.1, hf.up_mono _ _ h.2.2.2⟩

/-! ### Level sizes -/

theorem numKeys_eq (s k n : Nat) : numKeys s k n = (n + (s ^ k - 1)) / s ^ k := rfl

theorem lt_numKeys_iff {s k n i : Nat} (hs : 2 ≤ s) : i < numKeys s k n ↔ i * s ^ k < n := by
  have hp : 0 < s ^ k := Nat.pow_pos (by omega)
  rw [numKeys_eq, Nat.lt_iff_add_one_le, Nat.le_div_iff_mul_le hp, Nat.add_mul]
  omega

theorem numKeys_zero (s n : Nat) : numKeys s 0 n = n := by simp [numKeys]

theorem numKeys_le_iff {s k n m : Nat} (hs : 2 ≤ s) : numKeys s k n ≤ m ↔ n ≤ m * s ^ k := by
  have := lt_numKeys_iff (i := m) (k := k) (n := n) hs
  omega

theorem numKeys_mono {s k n : Nat} (hs : 2 ≤ s) : numKeys s (k + 1) n ≤ numKeys s k n := by
  rw [numKeys_le_iff hs]
  have h := (numKeys_le_iff (m := numKeys s k n) (k := k) (n := n) hs).1 le_rfl
  refine h.trans (Nat.mul_le_mul_left _ (Nat.pow_le_pow_right (by omega) (by omega)))

/-- The levels stop at the first one with at most one key, and the one before has more. -/
theorem numLevelsLoop_spec {s n : Nat} (hs : 2 ≤ s) : ∀ (fuel l : Nat), 1 ≤ l → n ≤ 2 ^ (l + fuel) → 
    (l = 1 ∨ 1 < numKeys s (l - 1) n) →
    let L := numLevelsLoop s n fuel l
    1 ≤ L ∧ numKeys s L n ≤ 1 ∧ (L = 1 ∨ 1 < numKeys s (L - 1) n)
  | 0, l, h1, h, hl => by
    refine ⟨h1, ?_, hl⟩
    rw [numLevelsLoop, numKeys_le_iff hs, one_mul]
    exact h.trans (Nat.pow_le_pow_left hs _)
  | fuel + 1, l, h1, h, hl => by
    rw [numLevelsLoop]
    split_ifs with hk
    · exact numLevelsLoop_spec hs fuel (l + 1) (by omega) (by rwa [Nat.add_right_comm]) (Or.inr (by simpa using hk))
    · exact ⟨h1, by omega, hl⟩

theorem numLevels_spec {s n : Nat} (hs : 2 ≤ s) :
    1 ≤ numLevels s n ∧ numKeys s (numLevels s n) n ≤ 1 ∧ (numLevels s n = 1 ∨ 1 < numKeys s (numLevels s n - 1) n) :=
  numLevelsLoop_spec hs n 1 le_rfl
    ((Nat.lt_two_pow_self (n := n)).le.trans (Nat.pow_le_pow_right (by omega) (by omega))) (Or.inl rfl)

end Tg.S
