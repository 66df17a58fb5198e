import Verif.Lemmas.Exact
import Mathlib.Algebra.Order.AbsoluteValue.Basic
/-! The ray cast: independent of the direction of a segment for any arithmetic; in exact arithmetic it classifies the point. -/
namespace Tg.S

set_option linter.unusedSectionVars false

section order
variable {α : Type*} [LinearOrder α]

theorem rect_swap (s : Seg α) : (⟨s.b, s.a⟩ : Seg α).rect = s.rect := by
  simp [Seg.rect, min_comm, max_comm]

theorem pteq_comm (a b : Pt α) : pteq a b = pteq b a := by
  rw [Bool.eq_iff_iff, pteq_iff, pteq_iff, eq_comm]

/-- For a horizontal segment the order of its ends does not matter. -/
theorem raycastMid_flat (A : Arith α) (r : Rect α) (a b p : Pt α) (h : a.y = b.y) (hp : p.y = a.y) (hr : r.lo.y = r.hi.y) :
    raycastMid A r a b p = if pteq p a || pteq p b then .on else if a.x = b.x then .out
      else if p.x < r.lo.x ∨ p.x > r.hi.x then .out else .on := by
  unfold raycastMid
  by_cases h1 : (pteq p a || pteq p b) = true
  · rw [if_pos h1, if_pos h1]
  rw [if_neg h1, if_neg h1]
  by_cases h2 : a.x = b.x
  · rw [if_pos ⟨h, h2⟩, if_pos h2]
  rw [if_neg (fun h => h2 h.2), if_neg h2]
  by_cases h3 : p.x < r.lo.x ∨ p.x > r.hi.x
  · rw [if_neg (fun hh => hh.2.2 h3), if_neg (fun h => h2 h.1), if_pos h3]
    have hcol : collinear A a b p = true := by
      unfold collinear
      rw [if_neg (mt (feq_iff _ _).1 h2), if_pos ((feq_iff _ _).2 h), feq_iff, hp]
    rw [if_pos hcol]
    rcases h3 with h3 | h3
    · rw [if_pos h3, if_pos hr]
    · by_cases h4 : p.x < r.lo.x
      · rw [if_pos h4, if_pos hr]
      · rw [if_neg h4, if_pos h3]
  · rw [if_pos ⟨h, hp.trans h, h3⟩, if_neg h3]

theorem raycast_swap (A : Arith α) (s : Seg α) (p : Pt α) : raycast A ⟨s.b, s.a⟩ p = raycast A s p := by
  unfold raycast
  rw [rect_swap]
  dsimp only
  by_cases h1 : p.y < s.rect.lo.y ∨ p.y > s.rect.hi.y
  · rw [if_pos h1, if_pos h1]
  rw [if_neg h1, if_neg h1]
  congr 2
  rcases lt_trichotomy s.b.y s.a.y with h | h | h
  · rw [if_pos h, if_neg (not_lt.2 h.le)]
  · have e1 : s.rect.lo.y = s.a.y := by simp [Seg.rect, h]
    have e2 : s.rect.hi.y = s.a.y := by simp [Seg.rect, h]
    rw [not_or, not_lt, gt_iff_lt, not_lt, e1, e2] at h1
    have hp : p.y = s.a.y := le_antisymm h1.2 h1.1
    rw [if_neg (by rw [h]; exact lt_irrefl _), if_neg (by rw [h]; exact lt_irrefl _),
      raycastMid_flat A _ _ _ _ h (hp.trans h.symm) (e1.trans e2.symm), raycastMid_flat A _ _ _ _ h.symm hp (e1.trans e2.symm)]
    rw [Bool.or_comm]
    simp only [eq_comm (a := s.b.x)]
  · rw [if_neg (not_lt.2 h.le), if_pos h]

/-- Once a segment has the point on it, the answer is fixed. -/
theorem pipAll_some (A : Arith α) (p : Pt α) (edge : Bool) : ∀ (l : List (Seg α × Nat)) (i : Nat),
    (pipAll A p edge l (edge, some i)).1 = edge
  | [], i => rfl
  | (s, k) :: l, i => by
    rw [pipAll, pipSlow]
    cases raycast A s p with
    | out => exact pipAll_some A p edge l i
    | in_ => simpa using pipAll_some A p edge l i
    | on => exact pipAll_some A p edge l k

/-- The answer: `edge` if the point is on a segment, otherwise the parity of the crossings. -/
theorem pipAll_none (A : Arith α) (p : Pt α) (edge : Bool) : ∀ (l : List (Seg α × Nat)) (b : Bool),
    (pipAll A p edge l (b, none)).1 = if ∃ x ∈ l, raycast A x.1 p = .on then edge
      else b ^^ decide ((l.countP fun x => raycast A x.1 p = .in_) % 2 = 1)
  | [], b => by simp [pipAll]
  | (s, k) :: l, b => by
    rw [pipAll, pipSlow]
    cases hs : raycast A s p with
    | out =>
      simp only
      rw [pipAll_none A p edge l b]
      simp only [List.mem_cons, exists_eq_or_imp, hs, reduceCtorEq, false_or, List.countP_cons, decide_false, Bool.false_eq_true, ↓reduceIte, add_zero]
    | in_ =>
      simp only [↓reduceIte]
      rw [pipAll_none A p edge l (!b)]
      simp only [List.mem_cons, exists_eq_or_imp, hs, reduceCtorEq, false_or, List.countP_cons, decide_true, ↓reduceIte]
      split_ifs with h
      · rfl
      · rcases Nat.mod_two_eq_zero_or_one (l.countP fun x => raycast A x.1 p = .in_) with h0 | h0
        · have : ((l.countP fun x => raycast A x.1 p = .in_) + 1) % 2 = 1 := by omega
          simp [h0, this]
        · have : ((l.countP fun x => raycast A x.1 p = .in_) + 1) % 2 = 0 := by omega
          simp [h0, this]
    | on =>
      simp only
      rw [pipAll_some]
      simp [hs]

/-- The answer for a list of segments. -/
theorem pipAll_zipIdx (A : Arith α) (p : Pt α) (edge : Bool) (segs : List (Seg α)) :
    (pipAll A p edge segs.zipIdx (false, none)).1 = if ∃ s ∈ segs, raycast A s p = .on then edge
      else decide ((segs.countP fun s => raycast A s p = .in_) % 2 = 1) := by
  rw [pipAll_none]
  have h1 : (∃ x ∈ segs.zipIdx, raycast A x.1 p = .on) ↔ ∃ s ∈ segs, raycast A s p = .on := by
    constructor
    · rintro ⟨⟨s, i⟩, h, h'⟩
      exact ⟨s, List.fst_mem_of_mem_zipIdx h, h'⟩
    · rintro ⟨s, h, h'⟩
      obtain ⟨i, hi, rfl⟩ := List.mem_iff_getElem.1 h
      exact ⟨(segs[i], i), List.mem_zipIdx_iff_getElem?.2 (List.getElem?_eq_getElem hi), h'⟩
  have h2 : (segs.zipIdx.countP fun x => raycast A x.1 p = .in_) = segs.countP fun s => raycast A s p = .in_ := by
    have : segs = segs.zipIdx.map Prod.fst := by rw [List.zipIdx_map_fst]
    conv_rhs => rw [this, List.countP_map]
    rfl
  simp only [h1, h2, Bool.false_xor]

end order

section exact
variable {K : Type*} [Field K] [LinearOrder K] [IsStrictOrderedRing K] [FloorRing K] {ε : K} {ns : List (Pt K) → Nat}

theorem div_le_div_neg {a b c d : K} (hb : b < 0) (hd : d < 0) : a / b ≤ c / d ↔ a * d ≤ c * b := by
  rw [← neg_div_neg_eq a b, ← neg_div_neg_eq c d, div_le_div_iff₀ (by linarith) (by linarith), neg_mul_neg, neg_mul_neg]

/-- The step `ε` is small compared to the segment and the point. -/
def Small (ε : K) (s : Seg K) (p : Pt K) : Prop :=
  ∀ a b : Pt K, (a = s.a ∧ b = s.b ∨ a = s.b ∧ b = s.a) → a.y < b.y →
    ε ≤ b.y - a.y ∧ (p.x ≠ a.x → ε * |b.x - a.x| < (b.y - a.y) * |p.x - a.x|)

theorem crosses_iff {a b p : Pt K} (h : a.y ≤ b.y) :
    Crosses ⟨a, b⟩ p ↔ a.y ≤ p.y ∧ p.y < b.y ∧ (p.x - a.x) * (b.y - a.y) < (p.y - a.y) * (b.x - a.x) := by
  unfold Crosses
  simp only [min_eq_left h, max_eq_right h]
  refine and_congr_right fun h1 => and_congr_right fun h2 => ?_
  have hd : 0 < b.y - a.y := by linarith
  constructor
  · rintro ⟨x, hx, hon⟩
    have := onSeg_cross hon
    simp only at this
    rw [← this]
    exact mul_lt_mul_of_pos_right (by linarith) hd
  · intro hlt
    refine ⟨a.x + (p.y - a.y) / (b.y - a.y) * (b.x - a.x), ?_, ⟨(p.y - a.y) / (b.y - a.y), div_nonneg (by linarith) hd.le,
      (div_le_one hd).2 (by linarith), rfl, ?_⟩⟩
    · rw [div_mul_eq_mul_div, ← sub_lt_iff_lt_add', lt_div_iff₀ hd]
      exact hlt
    · simp only
      field_simp
      ring

theorem exact_collinear (a b p : Pt K) : collinear (exact ε ns) a b p = exactCollinear ε a b p := rfl

/-- `ON` from the middle part. -/
theorem raycastMid_on {a b p : Pt K} (hab : a.y ≤ b.y) (h1 : a.y ≤ p.y) (h2 : p.y ≤ b.y) :
    raycastMid (exact ε ns) (⟨a, b⟩ : Seg K).rect a b p = .on ↔ OnSeg ⟨a, b⟩ p := by
  have hlo : (⟨a, b⟩ : Seg K).rect.lo.y = a.y := min_eq_left hab
  have hhi : (⟨a, b⟩ : Seg K).rect.hi.y = b.y := max_eq_right hab
  unfold raycastMid
  split_ifs with c1 c2 c3 c4 c5 c6 c7 c8
  · simp only [true_iff]
    rw [Bool.or_eq_true, pteq_iff, pteq_iff] at c1
    rcases c1 with rfl | rfl
    · exact onSeg_left _
    · exact onSeg_right _
  · simp only [reduceCtorEq, false_iff]
    intro hon
    obtain ⟨t, -, -, hx, hy⟩ := hon
    apply c1
    rw [Bool.or_eq_true, pteq_iff]
    left
    simp only [c2.1, c2.2, sub_self, mul_zero, add_zero] at hx hy
    exact Pt.ext (hx.trans c2.2.symm) (hy.trans c2.1.symm)
  · simp only [true_iff]
    rw [not_or, not_lt, gt_iff_lt, not_lt] at c3
    exact onSeg_of ⟨c3.2.2.1, c3.2.2.2, hlo.le.trans h1, h2.trans hhi.ge⟩ (by simp [c3.1, c3.2.1])
  · simp only [true_iff]
    refine onSeg_of ⟨?_, ?_, hlo.le.trans h1, h2.trans hhi.ge⟩ (by simp [c4.1, c4.2.1])
    · simp [Seg.rect, c4.1, c4.2.1]
    · simp [Seg.rect, c4.1, c4.2.1]
  · simp only [reduceCtorEq, false_iff]
    exact fun hon => absurd (onSeg_rect hon).1 (not_le.2 c6)
  · -- in line, between the heights, but left of the box: impossible
    exfalso
    have hlt : a.y < b.y := by
      rcases lt_or_eq_of_le hab with h | h
      · exact h
      · exact absurd (hlo.trans (h.trans hhi.symm)) c7
    have hne : a ≠ b := fun h => by rw [h] at hlt; exact lt_irrefl _ hlt
    have hc := (exactCollinear_iff (ε := ε) hne).1 c5
    have hd : 0 < b.y - a.y := by linarith
    have hon : OnSeg ⟨a, b⟩ p := by
      refine ⟨(p.y - a.y) / (b.y - a.y), div_nonneg (by linarith) hd.le, (div_le_one hd).2 (by linarith), ?_, ?_⟩
      · simp only
        field_simp
        linear_combination hc
      · simp only
        field_simp
        ring
    exact absurd (onSeg_rect hon).1 (not_le.2 c6)
  · simp only [reduceCtorEq, false_iff]
    exact fun hon => absurd (onSeg_rect hon).2.1 (not_le.2 c8)
  · simp only [true_iff]
    by_cases hne : a = b
    · exfalso
      apply c2
      rw [hne]
      exact ⟨rfl, rfl⟩
    · exact onSeg_of ⟨not_lt.1 c6, not_lt.1 c8, hlo.le.trans h1, h2.trans hhi.ge⟩ ((exactCollinear_iff (ε := ε) hne).1 c5)
  · have hne : a ≠ b := fun h => by apply c2; rw [h]; exact ⟨rfl, rfl⟩
    constructor
    · intro h
      unfold raycastTail at h
      dsimp only at h
      split_ifs at h
    · intro hon
      exact absurd ((exactCollinear_iff (ε := ε) hne).2 (onSeg_cross hon)) c5

/-- `IN` from the last part. -/
theorem raycastTail_in {a b p : Pt K} (hε : 0 < ε) (hs : Small ε ⟨a, b⟩ p) (hab : a.y ≤ b.y) (h1 : a.y ≤ p.y) (h2 : p.y ≤ b.y)
    (hpa : p ≠ a) (hc : (p.x - a.x) * (b.y - a.y) ≠ (p.y - a.y) * (b.x - a.x)) :
    raycastTail (exact ε ns) a b p = .in_ ↔ Crosses ⟨a, b⟩ p := by
  rw [crosses_iff hab]
  unfold raycastTail
  dsimp only
  rcases eq_or_lt_of_le h2 with e2 | l2
  · -- at the upper end
    have hcond : p.y = a.y ∨ p.y = b.y := .inr e2
    rw [if_pos hcond]
    have hgt : (p.y + ε < a.y ∨ p.y + ε > b.y) := .inr (by linarith)
    rw [show (exact ε ns).next p.y = p.y + ε from rfl, if_pos hgt]
    simp [e2]
  · have hlt : a.y < b.y := lt_of_le_of_lt h1 l2
    have hd : 0 < b.y - a.y := by linarith
    rcases eq_or_lt_of_le h1 with e1 | l1
    · -- at the lower end
      have hcond : p.y = a.y ∨ p.y = b.y := .inl e1.symm
      rw [if_pos hcond]
      obtain ⟨s1, s2⟩ := hs a b (.inl ⟨rfl, rfl⟩) hlt
      rw [show (exact ε ns).next p.y = p.y + ε from rfl, if_neg (show ¬ (p.y + ε < a.y ∨ p.y + ε > b.y) by
        rw [not_or, not_lt, gt_iff_lt, not_lt]; constructor <;> linarith)]
      have hx : p.x ≠ a.x := fun h => hpa (Pt.ext h e1.symm)
      have s2 := s2 hx
      have hR : (a.y ≤ p.y ∧ p.y < b.y ∧ (p.x - a.x) * (b.y - a.y) < (p.y - a.y) * (b.x - a.x)) ↔ p.x < a.x := by
        rw [← e1]
        simp only [le_refl, true_and, sub_self, zero_mul, hlt]
        constructor
        · intro h; by_contra hh; nlinarith
        · intro h; nlinarith
      rw [hR]
      have hsl : (exact ε ns).slopeGe ⟨p.x, p.y + ε⟩ a b = decide ((p.y + ε - a.y) / (p.x - a.x) ≥ (b.y - a.y) / (b.x - a.x)) := rfl
      rw [hsl, ← e1, add_sub_cancel_left]
      by_cases hx2 : a.x > b.x
      · rw [if_pos hx2]
        by_cases c1 : p.x ≥ a.x
        · rw [if_pos c1]; simp [c1]
        · rw [if_neg c1]
          have c1' : p.x < a.x := not_le.1 c1
          by_cases c2 : p.x ≤ b.x
          · rw [if_pos c2]; simp [c1']
          · rw [if_neg c2]
            have : ε / (p.x - a.x) ≥ (b.y - a.y) / (b.x - a.x) := by
              rw [ge_iff_le, div_le_div_neg (by linarith) (by linarith)]
              rw [abs_of_neg (by linarith), abs_of_neg (by linarith)] at s2
              nlinarith
            simp [this, c1']
      · rw [if_neg hx2]
        by_cases c1 : p.x ≥ b.x
        · rw [if_pos c1]
          have : ¬ p.x < a.x := by rw [not_lt]; linarith [not_lt.1 hx2]
          simp [this]
        · rw [if_neg c1]
          by_cases c2 : p.x ≤ a.x
          · rw [if_pos c2]
            simp [lt_of_le_of_ne c2 hx]
          · rw [if_neg c2]
            rw [not_le] at c2
            rw [ge_iff_le, not_le] at c1
            have : ¬ (ε / (p.x - a.x) ≥ (b.y - a.y) / (b.x - a.x)) := by
              rw [ge_iff_le, div_le_div_iff₀ (by linarith) (by linarith), not_le]
              rw [abs_of_pos (by linarith), abs_of_pos (by linarith)] at s2
              nlinarith
            simp [this, c2.le]
    · -- strictly between
      have hcond : ¬ (p.y = a.y ∨ p.y = b.y) := by
        rw [not_or]; exact ⟨l1.ne', l2.ne⟩
      rw [if_neg hcond, if_neg (show ¬ (p.y < a.y ∨ p.y > b.y) by rw [not_or, not_lt, gt_iff_lt, not_lt]; exact ⟨h1, h2⟩)]
      have hsl : (exact ε ns).slopeGe p a b = decide ((p.y - a.y) / (p.x - a.x) ≥ (b.y - a.y) / (b.x - a.x)) := rfl
      rw [hsl]
      simp only [h1, l2, true_and]
      by_cases hx2 : a.x > b.x
      · rw [if_pos hx2]
        by_cases c1 : p.x ≥ a.x
        · rw [if_pos c1]
          have : ¬ (p.x - a.x) * (b.y - a.y) < (p.y - a.y) * (b.x - a.x) := by rw [not_lt]; nlinarith
          simp [this]
        · rw [if_neg c1]
          by_cases c2 : p.x ≤ b.x
          · rw [if_pos c2]
            have : (p.x - a.x) * (b.y - a.y) < (p.y - a.y) * (b.x - a.x) := by nlinarith
            simp [this]
          · rw [if_neg c2]
            rw [ge_iff_le, not_le] at c1
            have : (p.y - a.y) / (p.x - a.x) ≥ (b.y - a.y) / (b.x - a.x) ↔ (p.x - a.x) * (b.y - a.y) < (p.y - a.y) * (b.x - a.x) := by
              rw [ge_iff_le, div_le_div_neg (by linarith) (by linarith), mul_comm (b.y - a.y)]
              exact ⟨fun h => lt_of_le_of_ne h hc, le_of_lt⟩
            by_cases hh : (p.y - a.y) / (p.x - a.x) ≥ (b.y - a.y) / (b.x - a.x)
            · simp [hh, this.1 hh]
            · simp only [hh, decide_false, Bool.false_eq_true, ↓reduceIte, reduceCtorEq, false_iff]
              exact fun h => hh (this.2 h)
      · rw [if_neg hx2]
        have hx3 : a.x ≤ b.x := not_lt.1 hx2
        by_cases c1 : p.x ≥ b.x
        · rw [if_pos c1]
          have : ¬ (p.x - a.x) * (b.y - a.y) < (p.y - a.y) * (b.x - a.x) := by rw [not_lt]; nlinarith
          simp [this]
        · rw [if_neg c1]
          rw [ge_iff_le, not_le] at c1
          by_cases c2 : p.x ≤ a.x
          · rw [if_pos c2]
            have : (p.x - a.x) * (b.y - a.y) < (p.y - a.y) * (b.x - a.x) := by
              refine lt_of_le_of_ne ?_ hc
              nlinarith
            simp [this]
          · rw [if_neg c2]
            rw [not_le] at c2
            have : (p.y - a.y) / (p.x - a.x) ≥ (b.y - a.y) / (b.x - a.x) ↔ (p.x - a.x) * (b.y - a.y) < (p.y - a.y) * (b.x - a.x) := by
              rw [ge_iff_le, div_le_div_iff₀ (by linarith) (by linarith), mul_comm (b.y - a.y)]
              exact ⟨fun h => lt_of_le_of_ne h hc, le_of_lt⟩
            by_cases hh : (p.y - a.y) / (p.x - a.x) ≥ (b.y - a.y) / (b.x - a.x)
            · simp [hh, this.1 hh]
            · simp only [hh, decide_false, Bool.false_eq_true, ↓reduceIte, reduceCtorEq, false_iff]
              exact fun h => hh (this.2 h)

theorem crosses_not_on {s : Seg K} {p : Pt K} (h : Crosses s p) : ¬ OnSeg s p := by
  intro hon
  have key : ∀ a b : Pt K, a.y ≤ b.y → Crosses ⟨a, b⟩ p → OnSeg ⟨a, b⟩ p → False := by
    intro a b hab hc hon
    have := ((crosses_iff hab).1 hc).2.2
    rw [onSeg_cross hon] at this
    exact lt_irrefl _ this
  rcases le_total s.a.y s.b.y with hab | hab
  · exact key _ _ hab h hon
  · refine key s.b s.a hab ?_ (onSeg_swap hon)
    obtain ⟨h1, h2, x, h3, h4⟩ := h
    exact ⟨by rw [min_comm]; exact h1, by rw [max_comm]; exact h2, x, h3, onSeg_swap h4⟩

/-- `IN` from the middle part. -/
theorem raycastMid_in {a b p : Pt K} (hε : 0 < ε) (hs : Small ε ⟨a, b⟩ p) (hab : a.y ≤ b.y) (h1 : a.y ≤ p.y) (h2 : p.y ≤ b.y) :
    raycastMid (exact ε ns) (⟨a, b⟩ : Seg K).rect a b p = .in_ ↔ Crosses ⟨a, b⟩ p := by
  by_cases hon : OnSeg ⟨a, b⟩ p
  · rw [(raycastMid_on hab h1 h2).2 hon]
    simp only [reduceCtorEq, false_iff]
    exact fun h => crosses_not_on h hon
  · have hne := mt (raycastMid_on (ε := ε) (ns := ns) hab h1 h2).1 hon
    revert hne
    unfold raycastMid
    split_ifs with c1 c2 c3 c4 c5 c6 c7 c8
    · simp
    · intro _
      simp only [reduceCtorEq, false_iff]
      rintro ⟨h3, h4, -⟩
      simp only [c2.1, min_self, max_self] at h3 h4
      exact absurd h3 (not_le.2 h4)
    · simp
    · simp
    · intro _
      simp only [reduceCtorEq, false_iff]
      rintro ⟨h3, h4, -⟩
      have e : min a.y b.y = max a.y b.y := c7
      simp only at h3 h4
      rw [e] at h3
      exact absurd h3 (not_le.2 h4)
    · simp
    · intro _
      simp only [reduceCtorEq, false_iff]
      rintro ⟨-, -, x, h3, h4⟩
      have := (onSeg_rect h4).2.1
      simp only at this
      exact absurd (h3.trans_le this) (not_lt.2 c8.le)
    · simp
    · intro _
      have hab' : a ≠ b := fun h => by apply c2; rw [h]; exact ⟨rfl, rfl⟩
      refine raycastTail_in hε hs hab h1 h2 ?_ ?_
      · intro h
        apply c1
        rw [Bool.or_eq_true, pteq_iff]
        exact .inl h
      · exact fun h => c5 ((exactCollinear_iff (ε := ε) hab').2 h)

theorem raycast_low {a b p : Pt K} (hab : a.y ≤ b.y) : raycast (exact ε ns) ⟨a, b⟩ p =
    if p.y < a.y ∨ p.y > b.y then .out
    else if p.x < (⟨a, b⟩ : Seg K).rect.lo.x ∧ p.y ≠ a.y ∧ p.y ≠ b.y then .in_
    else if p.x > (⟨a, b⟩ : Seg K).rect.hi.x ∧ a.y ≠ b.y ∧ (⟨a, b⟩ : Seg K).rect.lo.x ≠ (⟨a, b⟩ : Seg K).rect.hi.x then .out
    else raycastMid (exact ε ns) (⟨a, b⟩ : Seg K).rect a b p := by
  have hlo : (⟨a, b⟩ : Seg K).rect.lo.y = a.y := min_eq_left hab
  have hhi : (⟨a, b⟩ : Seg K).rect.hi.y = b.y := max_eq_right hab
  unfold raycast
  dsimp only
  rw [hlo, hhi, if_neg (not_lt.2 hab)]

theorem raycast_on_low {a b p : Pt K} (hab : a.y ≤ b.y) : raycast (exact ε ns) ⟨a, b⟩ p = .on ↔ OnSeg ⟨a, b⟩ p := by
  have hlo : (⟨a, b⟩ : Seg K).rect.lo.y = a.y := min_eq_left hab
  have hhi : (⟨a, b⟩ : Seg K).rect.hi.y = b.y := max_eq_right hab
  rw [raycast_low hab]
  split_ifs with c1 c2 c3
  · simp only [reduceCtorEq, false_iff]
    intro hon
    have := onSeg_rect hon
    rcases c1 with c1 | c1
    · exact absurd (hlo.symm.le.trans this.2.2.1) (not_le.2 c1)
    · exact absurd (this.2.2.2.trans hhi.le) (not_le.2 c1)
  · simp only [reduceCtorEq, false_iff]
    exact fun hon => absurd (onSeg_rect hon).1 (not_le.2 c2.1)
  · simp only [reduceCtorEq, false_iff]
    exact fun hon => absurd (onSeg_rect hon).2.1 (not_le.2 c3.1)
  · rw [not_or, not_lt, gt_iff_lt, not_lt] at c1
    exact raycastMid_on hab c1.1 c1.2

theorem raycast_in_low {a b p : Pt K} (hε : 0 < ε) (hs : Small ε ⟨a, b⟩ p) (hab : a.y ≤ b.y) :
    raycast (exact ε ns) ⟨a, b⟩ p = .in_ ↔ Crosses ⟨a, b⟩ p := by
  rw [raycast_low hab]
  split_ifs with c1 c2 c3
  · simp only [reduceCtorEq, false_iff]
    rw [crosses_iff hab]
    rintro ⟨h1, h2, -⟩
    rcases c1 with c1 | c1
    · exact absurd h1 (not_le.2 c1)
    · exact absurd h2 (not_lt.2 c1.le)
  · simp only [true_iff]
    rw [not_or, not_lt, gt_iff_lt, not_lt] at c1
    have l1 : a.y < p.y := lt_of_le_of_ne c1.1 (Ne.symm c2.2.1)
    have l2 : p.y < b.y := lt_of_le_of_ne c1.2 c2.2.2
    rw [crosses_iff hab]
    refine ⟨c1.1, l2, ?_⟩
    obtain ⟨h1, h2⟩ := lt_min_iff.1 c2.1
    nlinarith
  · simp only [reduceCtorEq, false_iff]
    rintro ⟨-, -, x, h3, h4⟩
    exact absurd (h3.trans_le (onSeg_rect h4).2.1) (not_lt.2 c3.1.le)
  · rw [not_or, not_lt, gt_iff_lt, not_lt] at c1
    exact raycastMid_in hε hs hab c1.1 c1.2

theorem small_swap {a b p : Pt K} (h : Small ε ⟨a, b⟩ p) : Small ε ⟨b, a⟩ p := fun c d hcd => h c d hcd.symm

theorem crosses_swap {a b p : Pt K} (h : Crosses ⟨a, b⟩ p) : Crosses ⟨b, a⟩ p := by
  obtain ⟨h1, h2, x, h3, h4⟩ := h
  exact ⟨by rw [min_comm]; exact h1, by rw [max_comm]; exact h2, x, h3, onSeg_swap h4⟩

theorem exists_small (s : Seg K) (p : Pt K) : ∃ ε0 > 0, ∀ ε, ε ≤ ε0 → Small ε s p := by
  have key : ∀ a b : Pt K, ∃ ε0 > 0, ∀ ε, ε ≤ ε0 → a.y < b.y →
      ε ≤ b.y - a.y ∧ (p.x ≠ a.x → ε * |b.x - a.x| < (b.y - a.y) * |p.x - a.x|) := by
    intro a b
    by_cases h : a.y < b.y
    · have hd : 0 < b.y - a.y := by linarith
      have hM : 0 ≤ |b.x - a.x| := abs_nonneg _
      by_cases hx : p.x = a.x
      · exact ⟨b.y - a.y, hd, fun ε hε _ => ⟨hε, fun h => absurd hx h⟩⟩
      · have hm : 0 < |p.x - a.x| := abs_pos.2 (sub_ne_zero.2 hx)
        refine ⟨min (b.y - a.y) ((b.y - a.y) * |p.x - a.x| / (|b.x - a.x| + 1)), lt_min hd (by positivity), ?_⟩
        intro ε hε _
        refine ⟨hε.trans (min_le_left _ _), fun _ => ?_⟩
        have h2 := hε.trans (min_le_right _ _)
        rw [le_div_iff₀ (by positivity)] at h2
        by_cases h0 : 0 < ε
        · nlinarith
        · have : 0 < (b.y - a.y) * |p.x - a.x| := by positivity
          nlinarith
    · exact ⟨1, one_pos, fun ε _ h' => absurd h' h⟩
  obtain ⟨e1, h1, h1'⟩ := key s.a s.b
  obtain ⟨e2, h2, h2'⟩ := key s.b s.a
  refine ⟨min e1 e2, lt_min h1 h2, ?_⟩
  rintro ε hε a b (⟨rfl, rfl⟩ | ⟨rfl, rfl⟩) hab
  · exact h1' ε (hε.trans (min_le_left _ _)) hab
  · exact h2' ε (hε.trans (min_le_right _ _)) hab

end exact

end Tg.S
