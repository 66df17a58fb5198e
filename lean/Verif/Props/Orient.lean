import Verif.Lemmas.Orient
import Mathlib.Algebra.Order.Ring.Rat
/-! C41, C42: area, orientation and convexity of a ring, in exact arithmetic. `Spec/Plane` has the shoelace sum and the turns. -/
namespace Tg

open S

variable {K : Type*} [Field K] [LinearOrder K] [IsStrictOrderedRing K]

/-! ### C41  Area and orientation -/

/-- C41. The area is the shoelace area. -/
theorem C41_area {c : List (Pt K)} (h : 3 ≤ c.length) : ringArea c = some (|shoelace c| / 2) := by
  obtain ⟨o, h1, -, h3, -⟩ := orient_ok (pts := c) (by omega)
  rw [ringArea, if_neg (by omega), h1, Option.map_some, h3, cwSum_eq, abs_div, abs_neg, abs_of_pos (show (0 : K) < 2 by norm_num)]

/-- C41. Clockwise exactly if the signed area is negative. -/
theorem C41_clockwise {c : List (Pt K)} (h : 3 ≤ c.length) : ringClockwise c = some (decide (shoelace c < 0)) := by
  obtain ⟨o, h1, h2, -⟩ := orient_ok (pts := c) (by omega)
  rw [ringClockwise, h1, Option.map_some, h2, cwSum_eq]
  simp

/-- C41. Repeating the first point at the end changes nothing. -/
theorem C41_close {c : List (Pt K)} (h : 3 ≤ c.length) : ringArea (closeUp c) = ringArea c ∧ ringClockwise (closeUp c) = ringClockwise c := by
  have hl : 3 ≤ (closeUp c).length := by rw [closeUp, List.length_append]; omega
  have hne : c ≠ [] := by rintro rfl; simp at h
  rw [C41_area h, C41_area hl, C41_clockwise h, C41_clockwise hl, shoelace_close hne]
  exact ⟨rfl, rfl⟩

/-- C41. Going round the other way keeps the area and flips the orientation, if there is any area. -/
theorem C41_reverse {c : List (Pt K)} (h : 3 ≤ c.length) : ringArea c.reverse = ringArea c ∧
    (ringArea c ≠ some 0 → ringClockwise c.reverse = (ringClockwise c).map (!·)) := by
  have hl : 3 ≤ c.reverse.length := by rwa [List.length_reverse]
  rw [C41_area h, C41_area hl, C41_clockwise h, C41_clockwise hl, shoelace_reverse, abs_neg]
  refine ⟨rfl, fun hne => ?_⟩
  have h0 : shoelace c ≠ 0 := fun h0 => hne (by rw [h0]; simp)
  rw [Option.map_some, Option.some.injEq]
  simp only [neg_lt_zero]
  rcases lt_or_gt_of_ne h0 with h1 | h1
  · simp [h1, h1.le]
  · simp [h1, h1.le]

/-- C41. Starting at another vertex changes nothing. -/
theorem C41_rotate {c : List (Pt K)} (h : 3 ≤ c.length) (k : Nat) : ringArea (c.rotate k) = ringArea c ∧ ringClockwise (c.rotate k) = ringClockwise c := by
  have hl : 3 ≤ (c.rotate k).length := by rwa [List.length_rotate]
  rw [C41_area h, C41_area hl, C41_clockwise h, C41_clockwise hl, shoelace_rotate]
  exact ⟨rfl, rfl⟩

/-- C41. Moving the ring changes nothing. -/
theorem C41_translate {c : List (Pt K)} (h : 3 ≤ c.length) (dx dy : K) : ringArea (c.map fun p => ⟨p.x + dx, p.y + dy⟩) = ringArea c ∧
    ringClockwise (c.map fun p => ⟨p.x + dx, p.y + dy⟩) = ringClockwise c := by
  have hl : 3 ≤ (c.map fun p => (⟨p.x + dx, p.y + dy⟩ : Pt K)).length := by rwa [List.length_map]
  rw [C41_area h, C41_area hl, C41_clockwise h, C41_clockwise hl, shoelace_translate]
  exact ⟨rfl, rfl⟩

/-! ### C42  Convexity -/

/-- C42, for a list that is not closed by its last point. Missing from the full statement: rings whose first turn is straight, for which the code takes
left as the direction (`C42_first_straight`). -/
theorem C42_open_partial {c : List (Pt K)} (h : 3 ≤ c.length) {z0 : K} (h0 : (turns c).head? = some z0) (hz : z0 ≠ 0) :
    ringConvex c = some true ↔ (∀ z ∈ turns c, 0 ≤ z) ∨ (∀ z ∈ turns c, z ≤ 0) := by
  obtain ⟨o, h1, -, -, h2⟩ := orient_ok (pts := c) (by omega)
  rw [List.head?_eq_getElem?] at h0
  rw [ringConvex, h1, Option.map_some, Option.some.injEq, h2]
  have hmem : z0 ∈ turns c := List.mem_of_getElem? h0
  constructor
  · intro hall
    have hall := fun z hz => hall z0 z h0 hz
    rcases lt_or_gt_of_ne hz with hneg | hpos
    · exact .inr fun z hzm => not_lt.1 fun hp => hall z hzm (.inr ⟨hneg, hp⟩)
    · exact .inl fun z hzm => not_lt.1 fun hp => hall z hzm (.inl ⟨hpos.le, hp⟩)
  · intro hall z0' z h0' hzm
    rw [h0, Option.some.injEq] at h0'
    subst h0'
    rintro (⟨a, b⟩ | ⟨a, b⟩)
    · rcases hall with hall | hall
      · exact absurd (hall z hzm) (not_le.2 b)
      · exact hz (le_antisymm (hall z0 hmem) a)
    · rcases hall with hall | hall
      · exact absurd (hall z0 hmem) (not_le.2 a)
      · exact absurd (hall z hzm) (not_le.2 b)

/-- C42, for a list closed by its last point. Missing from the full statement: rings whose first turn is straight, as above, and rings that turn the
other way at the start vertex, where the code does not look (`C42_start_vertex`). -/
theorem C42_closed_partial {c : List (Pt K)} (h : 3 ≤ c.length) {z0 zn : K} (h0 : (turns c).head? = some z0) (hz : z0 ≠ 0)
    (hn : (turns c).getLast? = some zn) (hs : 0 ≤ z0 * zn) :
    ringConvex (closeUp c) = some true ↔ (∀ z ∈ turns c, 0 ≤ z) ∨ (∀ z ∈ turns c, z ≤ 0) := by
  have hl : 3 ≤ (closeUp c).length := by rw [closeUp, List.length_append]; omega
  obtain ⟨l, z, e1, e2⟩ := turns_close (c := c) (by omega)
  have hzn : z = zn := by
    rw [e1, List.getLast?_append] at hn
    simpa using hn
  subst hzn
  have hln : l ≠ [] := by
    rintro rfl
    have : (turns c).length = c.length := by
      rw [turns, chainTurns_length, List.length_append, List.length_take]
      omega
    rw [e1] at this
    simp at this
    omega
  have h0' : (turns (closeUp c)).head? = some z0 := by
    rw [e1, List.head?_append_of_ne_nil _ hln] at h0
    rw [e2, List.head?_append_of_ne_nil _ hln, h0]
  rw [C42_open_partial hl h0' hz, e1, e2]
  have hz0 : z0 ∈ l := by
    rw [e1, List.head?_append_of_ne_nil _ hln] at h0
    exact List.mem_of_mem_head? h0
  constructor
  · rintro (hall | hall)
    · refine .inl fun w hw => ?_
      rcases List.mem_append.1 hw with hw | hw
      · exact hall w (List.mem_append_left _ hw)
      · rw [List.mem_singleton] at hw
        subst hw
        have := lt_of_le_of_ne (hall z0 (List.mem_append_left _ hz0)) (Ne.symm hz)
        exact nonneg_of_mul_nonneg_right hs this
    · refine .inr fun w hw => ?_
      rcases List.mem_append.1 hw with hw | hw
      · exact hall w (List.mem_append_left _ hw)
      · rw [List.mem_singleton] at hw
        subst hw
        have := lt_of_le_of_ne (hall z0 (List.mem_append_left _ hz0)) hz
        by_contra hcon
        exact absurd hs (not_le.2 (mul_neg_of_neg_of_pos this (not_le.1 hcon)))
  · rintro (hall | hall)
    · refine .inl fun w hw => ?_
      rcases List.mem_append.1 hw with hw | hw
      · exact hall w (List.mem_append_left _ hw)
      · simp at hw
        rw [hw]
    · refine .inr fun w hw => ?_
      rcases List.mem_append.1 hw with hw | hw
      · exact hall w (List.mem_append_left _ hw)
      · simp at hw
        rw [hw]

/-- C42, exactly what the code computes: no turn is opposite to the first one, a straight first turn counting as left. For a closed list this leaves
out the turn at the start vertex, see `turns_close`. -/
theorem C42_what {c : List (Pt K)} (h : 2 ≤ c.length) {z0 : K} (h0 : (turns c).head? = some z0) :
    ringConvex c = some true ↔ (0 ≤ z0 → ∀ z ∈ turns c, 0 ≤ z) ∧ (z0 < 0 → ∀ z ∈ turns c, z ≤ 0) := by
  obtain ⟨o, h1, -, -, h2⟩ := orient_ok (pts := c) h
  rw [List.head?_eq_getElem?] at h0
  rw [ringConvex, h1, Option.map_some, Option.some.injEq, h2]
  constructor
  · intro hall
    have hall := fun z hz => hall z0 z h0 hz
    exact ⟨fun hp z hzm => not_lt.1 fun hn => hall z hzm (.inl ⟨hp, hn⟩), fun hn z hzm => not_lt.1 fun hp => hall z hzm (.inr ⟨hn, hp⟩)⟩
  · rintro ⟨ha, hb⟩ z0' z h0' hzm
    rw [h0, Option.some.injEq] at h0'
    subst h0'
    rintro (⟨a, b⟩ | ⟨a, b⟩)
    · exact absurd (ha a z hzm) (not_le.2 b)
    · exact absurd (hb a z hzm) (not_le.2 b)

/-! ### Witnesses -/

/-- Four points, counter-clockwise, the first one a reflex vertex. -/
def S.dart : List (Pt ℚ) := [⟨1, 1⟩, ⟨0, 4⟩, ⟨0, 0⟩, ⟨4, 0⟩]

/-- The full statement of C42 fails: a ring that is not convex at its start vertex is taken for convex, and no longer if it starts elsewhere. -/
theorem C42_start_vertex : turns dart = [4, 16, 4, -8] ∧ ringConvex (closeUp dart) = some true ∧ ringConvex (closeUp (dart.rotate 1)) = some false := by
  refine ⟨?_, ?_, ?_⟩ <;> decide +kernel

/-- The full statement of C42 fails: a clockwise square with a point in the middle of its first side is taken for concave. -/
theorem C42_first_straight : (∀ z ∈ turns ([⟨0, 0⟩, ⟨0, 2⟩, ⟨0, 4⟩, ⟨4, 4⟩, ⟨4, 0⟩] : List (Pt ℚ)), z ≤ 0) ∧
    ringConvex (closeUp ([⟨0, 0⟩, ⟨0, 2⟩, ⟨0, 4⟩, ⟨4, 4⟩, ⟨4, 0⟩] : List (Pt ℚ))) = some false := by
  refine ⟨?_, ?_⟩ <;> decide +kernel

/-- The hypotheses of C41 and C42 hold for a square; its area is 16, it is counter-clockwise and convex. -/
example : ringArea ([⟨0, 0⟩, ⟨4, 0⟩, ⟨4, 4⟩, ⟨0, 4⟩] : List (Pt ℚ)) = some 16 ∧ ringClockwise ([⟨0, 0⟩, ⟨4, 0⟩, ⟨4, 4⟩, ⟨0, 4⟩] : List (Pt ℚ)) = some false ∧
    turns ([⟨0, 0⟩, ⟨4, 0⟩, ⟨4, 4⟩, ⟨0, 4⟩] : List (Pt ℚ)) = [16, 16, 16, 16] ∧ ringConvex (closeUp ([⟨0, 0⟩, ⟨4, 0⟩, ⟨4, 4⟩, ⟨0, 4⟩] : List (Pt ℚ))) = some true := by
  refine ⟨?_, ?_, ?_, ?_⟩ <;> decide +kernel

end Tg
