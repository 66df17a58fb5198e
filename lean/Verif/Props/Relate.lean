import Verif.Lemmas.Relate
import Verif.Props.Orient
/-!
C47, C48, C49: a ring against segments, rings and lines, with exact arithmetic. As in C26, `ε` is the step to the next number in the point test, and
the statements hold for all steps that are small enough. The conditions on the index are those of C22 and C26.
-/
namespace Tg

open S

variable {K : Type*} [Field K] [LinearOrder K] [IsStrictOrderedRing K] [FloorRing K]

/-- The search of the ring finds all segments: not one of the rings of `C22_open_ring_missed`. -/
def S.SearchOk (e : Env) (pts : List (Pt K)) (ix : BitVec 32) (r : Ring K K) : Prop :=
  (segments pts true).length < pts.length ∨ pts.length % spreadOf e ix = 0 ∨ r.index = none

theorem S.SearchOk.weaken {e : Env} {pts : List (Pt K)} {ix : BitVec 32} {r : Ring K K} (h : SearchOk e pts ix r) :
    (segments pts true).length < pts.length ∨ pts.length % spreadOf e ix = 0 ∨ r.index = none ∨ r.ystripes ≠ none := by
  rcases h with h | h | h
  exacts [.inl h, .inr (.inl h), .inr (.inr (.inl h))]

/-! ### C47  Ring and segment -/

/-- C47. With edges allowed the answer is whether a point of the segment is in the closed region of the ring. -/
theorem C47_ring_intersects_segment (ns : List (Pt K) → Nat) {e : Env} (he : e.Ok) {pts : List (Pt K)} (h3 : 3 ≤ pts.length) (ix : BitVec 32) (seg : Seg K) :
    ∃ ε₀ > 0, ∀ ε, 0 < ε → ε ≤ ε₀ → ∀ r : Ring K K, newIx Ix.exact (exact ε ns) e pts true ix = some r → SearchOk e pts ix r →
      TopOk r (segments pts true) seg.a → TopOk r (segments pts true) seg.b →
      ∃ b, ringXSeg Ix.exact (exact ε ns) r seg true = some b ∧ (b = true ↔ ∃ w, OnSeg seg w ∧ InRegion (segments pts true) w) := by
  obtain ⟨ε₀, h0, h⟩ := pipAt_all he ns h3 ix [seg.a, seg.b]
  refine ⟨ε₀, h0, fun ε hε hle r hr hc ta tb => ?_⟩
  have hp := h ε hε hle r hr hc.weaken (by simp [ta, tb])
  exact ringXSeg_iff he h3 hr hc (hp seg.a (by simp)) (hp seg.b (by simp))

/-! ### C48  Segment within a ring -/

/-- C48, edges not allowed and the ring not flagged convex: the answer is whether all of the segment is inside. -/
theorem C48_contains_segment_partial (ns : List (Pt K) → Nat) {e : Env} (he : e.Ok) {pts : List (Pt K)} (h3 : 3 ≤ pts.length) (ix : BitVec 32) (seg : Seg K)
    (R : RArith K) (cw : Bool) :
    ∃ ε₀ > 0, ∀ ε, 0 < ε → ε ≤ ε₀ → ∀ r : Ring K K, newIx Ix.exact (exact ε ns) e pts true ix = some r → SearchOk e pts ix r →
      TopOk r (segments pts true) seg.a → TopOk r (segments pts true) seg.b →
      ∃ b, ringHasSeg Ix.exact (exact ε ns) R false cw r seg false = some b ∧ (b = true ↔ ∀ w, OnSeg seg w → Inside (segments pts true) w) := by
  obtain ⟨ε₀, h0, h⟩ := pipAt_all he ns h3 ix [seg.a, seg.b]
  refine ⟨ε₀, h0, fun ε hε hle r hr hc ta tb => ?_⟩
  have hp := h ε hε hle r hr hc.weaken (by simp [ta, tb])
  exact ringHasSeg_inside he h3 hr hc (hp seg.a (by simp)) (hp seg.b (by simp)) R cw

/-- C48, the ring flagged convex: right if the region is convex, as only the ends are looked at. The flag alone does not imply that, see
`C48_convex_wrong`. -/
theorem C48_convex_partial (ns : List (Pt K) → Nat) {e : Env} (he : e.Ok) {pts : List (Pt K)} (h3 : 3 ≤ pts.length) (ix : BitVec 32) (seg : Seg K)
    (R : RArith K) (cw : Bool) :
    ∃ ε₀ > 0, ∀ ε, 0 < ε → ε ≤ ε₀ → ∀ r : Ring K K, newIx Ix.exact (exact ε ns) e pts true ix = some r → SearchOk e pts ix r →
      TopOk r (segments pts true) seg.a → TopOk r (segments pts true) seg.b →
      ((∀ p q w, InRegion (segments pts true) p → InRegion (segments pts true) q → OnSeg ⟨p, q⟩ w → InRegion (segments pts true) w) →
        ∃ b, ringHasSeg Ix.exact (exact ε ns) R true cw r seg true = some b ∧ (b = true ↔ ∀ w, OnSeg seg w → InRegion (segments pts true) w)) ∧
      ((∀ p q w, Inside (segments pts true) p → Inside (segments pts true) q → OnSeg ⟨p, q⟩ w → Inside (segments pts true) w) →
        ∃ b, ringHasSeg Ix.exact (exact ε ns) R true cw r seg false = some b ∧ (b = true ↔ ∀ w, OnSeg seg w → Inside (segments pts true) w)) := by
  obtain ⟨ε₀, h0, h⟩ := pipAt_all he ns h3 ix [seg.a, seg.b]
  refine ⟨ε₀, h0, fun ε hε hle r hr hc ta tb => ?_⟩
  have hp := h ε hε hle r hr hc.weaken (by simp [ta, tb])
  constructor
  · intro hconv
    obtain ⟨b, h1, h2⟩ := ringHasSeg_convex he h3 hr (hp seg.a (by simp)) (hp seg.b (by simp)) R cw true
    refine ⟨b, h1, ?_⟩
    rw [h2, if_pos rfl]
    exact ⟨fun h w hw => hconv _ _ w h.1 h.2 hw, fun h => ⟨h _ (onSeg_left seg), h _ (onSeg_right seg)⟩⟩
  · intro hconv
    obtain ⟨b, h1, h2⟩ := ringHasSeg_convex he h3 hr (hp seg.a (by simp)) (hp seg.b (by simp)) R cw false
    refine ⟨b, h1, ?_⟩
    rw [h2, if_neg (by simp)]
    exact ⟨fun h w hw => hconv _ _ w h.1 h.2 hw, fun h => ⟨h _ (onSeg_left seg), h _ (onSeg_right seg)⟩⟩

/-- C48, edges allowed, the ring not flagged convex and at most one end on the boundary. A segment that is inside is found to be; and if the answer is
true, then all points are in the region, unless both ends are inside and the segment has a vertex of the ring on it. Missing from the full statement:
both ends on the boundary (`C48_corner_wrong`), vertices of the ring on the segment (`C48_vertex_wrong`), and the answer false for some segments that touch
the boundary from the inside (`C48_touch_wrong`). -/
theorem C48_edges_partial (ns : List (Pt K) → Nat) {e : Env} (he : e.Ok) {pts : List (Pt K)} (h3 : 3 ≤ pts.length) (ix : BitVec 32) (seg : Seg K)
    (R : RArith K) (cw : Bool) (hends : ¬ (OnBoundary (segments pts true) seg.a ∧ OnBoundary (segments pts true) seg.b)) :
    ∃ ε₀ > 0, ∀ ε, 0 < ε → ε ≤ ε₀ → ∀ r : Ring K K, newIx Ix.exact (exact ε ns) e pts true ix = some r → SearchOk e pts ix r →
      TopOk r (segments pts true) seg.a → TopOk r (segments pts true) seg.b →
      ∃ b, ringHasSeg Ix.exact (exact ε ns) R false cw r seg true = some b ∧ ((∀ w, OnSeg seg w → Inside (segments pts true) w) → b = true) ∧
        (b = true → OnBoundary (segments pts true) seg.a ∨ OnBoundary (segments pts true) seg.b ∨ (∀ v ∈ pts, ¬ OnSeg seg v) →
          ∀ w, OnSeg seg w → InRegion (segments pts true) w) := by
  obtain ⟨ε₀, h0, h⟩ := pipAt_all he ns h3 ix [seg.a, seg.b]
  refine ⟨ε₀, h0, fun ε hε hle r hr hc ta tb => ?_⟩
  have hp := h ε hε hle r hr hc.weaken (by simp [ta, tb])
  exact ringHasSeg_region he h3 hr hc (hp seg.a (by simp)) (hp seg.b (by simp)) R cw hends

/-! ### C49  Ring and ring, ring and line -/

theorem S.ring_not_empty {f : Ix K K} {pts : List (Pt K)} {closed : Bool} {sp : Nat} {r : Ring K K} (h : RingOk f pts closed sp r) :
    ringEmpty r = (closed && decide (pts.length < 3) || decide (pts.length < 2)) := by
  rw [ringEmpty, h.closed_eq, h.npoints_eq]

theorem S.ring_rect_valid {f : Ix K K} {pts : List (Pt K)} {closed : Bool} {sp : Nat} {r : Ring K K} (h : RingOk f pts closed sp r) (h2 : 2 ≤ pts.length) :
    r.rect.Valid := by
  match pts, h2 with
  | q :: _, h2 =>
    have := h.rect_has h2 q (by simp)
    exact ⟨this.1.trans this.2.1, this.2.2.1.trans this.2.2.2⟩

/-- C49. With edges allowed, a ring and a line intersect exactly if the line has a point in the closed region of the ring. -/
theorem C49_ring_intersects_line (ns : List (Pt K) → Nat) {e₁ e₂ : Env} (he₁ : e₁.Ok) (he₂ : e₂.Ok) {pa pb : List (Pt K)} (h3 : 3 ≤ pa.length)
    (h2 : 2 ≤ pb.length) (ix₁ ix₂ : BitVec 32) :
    ∃ ε₀ > 0, ∀ ε, 0 < ε → ε ≤ ε₀ → ∀ a b : Ring K K, newIx Ix.exact (exact ε ns) e₁ pa true ix₁ = some a → newIx Ix.exact (exact ε ns) e₂ pb false ix₂ = some b →
      SearchOk e₁ pa ix₁ a → (∀ p ∈ pb, TopOk a (segments pa true) p) →
      ∃ ans, ringXLine Ix.exact (exact ε ns) a b true = some ans ∧ (ans = true ↔ ∃ w, (∃ s ∈ edges pb, OnSeg s w) ∧ InRegion (segments pa true) w) := by
  obtain ⟨ε₀, h0, h⟩ := pipAt_all he₁ ns h3 ix₁ pb
  refine ⟨ε₀, h0, fun ε hε hle a b ha hb hc ht => ?_⟩
  have hp := h ε hε hle a ha hc.weaken ht
  obtain ⟨a1, -⟩ := newIx_some Ix.exact_lawful he₁ ha
  obtain ⟨b1, -⟩ := newIx_some Ix.exact_lawful he₂ hb
  obtain ⟨l, hl, hcl, hl3, hmem⟩ := ring_chain h3
  have hsegs : segments pb false = edges pb := by rw [segments]; simp
  unfold ringXLine
  rw [ring_not_empty a1, ring_not_empty b1, decide_eq_false (by omega : ¬ pa.length < 3), decide_eq_false (by omega : ¬ pa.length < 2),
    decide_eq_false (by omega : ¬ pb.length < 2)]
  simp only [Bool.and_false, Bool.or_self, Bool.false_eq_true, if_false, Bool.false_and]
  by_cases hx : a.rect.intersects b.rect = true
  · rw [hx]
    simp only [Bool.not_true, Bool.false_eq_true, if_false]
    obtain ⟨ans, g1, g2⟩ := anyXSeg_iff he₁ h3 ha hc b1 hp
    refine ⟨ans, g1, ?_⟩
    rw [g2, hsegs]
    rfl
  · have hx' : a.rect.intersects b.rect = false := by simpa using hx
    rw [hx']
    refine ⟨false, rfl, iff_of_false (by simp) ?_⟩
    rintro ⟨w, ⟨s, hs, w1⟩, w2⟩
    apply hx
    rw [C20_intersects _ _ (ring_rect_valid a1 (by omega)) (ring_rect_valid b1 (by omega))]
    rw [hl] at w2
    refine ⟨w, region_rect hcl (fun v hv => a1.rect_has (by omega) v ((hmem v).1 hv)) w2, ?_⟩
    rw [← hsegs] at hs
    obtain ⟨k1, k2⟩ := seg_mem_pts hs
    have k1 := b1.rect_has h2 _ k1
    have k2 := b1.rect_has h2 _ k2
    have k3 := onSeg_rect w1
    exact ⟨(le_min k1.1 k2.1).trans k3.1, k3.2.1.trans (max_le k1.2.1 k2.2.1), (le_min k1.2.2.1 k2.2.2.1).trans k3.2.2.1,
      k3.2.2.2.trans (max_le k1.2.2.2 k2.2.2.2)⟩

/-- C49. With edges allowed, two rings intersect exactly if their closed regions have a point in common. -/
theorem C49_ring_intersects_ring (ns : List (Pt K) → Nat) {e₁ e₂ : Env} (he₁ : e₁.Ok) (he₂ : e₂.Ok) {pa pb : List (Pt K)} (h3 : 3 ≤ pa.length)
    (h3' : 3 ≤ pb.length) (ix₁ ix₂ : BitVec 32) :
    ∃ ε₀ > 0, ∀ ε, 0 < ε → ε ≤ ε₀ → ∀ a b : Ring K K, newIx Ix.exact (exact ε ns) e₁ pa true ix₁ = some a → newIx Ix.exact (exact ε ns) e₂ pb true ix₂ = some b →
      SearchOk e₁ pa ix₁ a → SearchOk e₂ pb ix₂ b → (∀ p ∈ pb, TopOk a (segments pa true) p) → (∀ p ∈ pa, TopOk b (segments pb true) p) →
      ∃ ans, ringXRing Ix.exact (exact ε ns) exactR a b true = some ans ∧
        (ans = true ↔ ∃ w, InRegion (segments pa true) w ∧ InRegion (segments pb true) w) := by
  obtain ⟨ε₁, p1, k1⟩ := pipAt_all he₁ ns h3 ix₁ pb
  obtain ⟨ε₂, p2, k2⟩ := pipAt_all he₂ ns h3' ix₂ pa
  refine ⟨min ε₁ ε₂, lt_min p1 p2, fun ε hε hle a b ha hb hca hcb hta htb => ?_⟩
  have q1 := k1 ε hε (hle.trans (min_le_left _ _)) a ha hca.weaken hta
  have q2 := k2 ε hε (hle.trans (min_le_right _ _)) b hb hcb.weaken htb
  obtain ⟨a1, -⟩ := newIx_some Ix.exact_lawful he₁ ha
  obtain ⟨b1, -⟩ := newIx_some Ix.exact_lawful he₂ hb
  obtain ⟨l, hl, hcl, hl3, hmem⟩ := ring_chain h3
  obtain ⟨m, hm, hcm, hm3, hmem'⟩ := ring_chain h3'
  have al : ∀ v ∈ l, a.rect.Has v := fun v hv => a1.rect_has (by omega) v ((hmem v).1 hv)
  have bm : ∀ v ∈ m, b.rect.Has v := fun v hv => b1.rect_has (by omega) v ((hmem' v).1 hv)
  have al' : ∀ T : Rect K, (∀ v ∈ l, T.Has v) → a.rect.Le T := fun T h => a1.rect_least (by omega) T fun v hv => h v ((hmem v).2 hv)
  have bm' : ∀ T : Rect K, (∀ v ∈ m, T.Has v) → b.rect.Le T := fun T h => b1.rect_least (by omega) T fun v hv => h v ((hmem' v).2 hv)
  unfold ringXRing
  rw [ring_not_empty a1, ring_not_empty b1, decide_eq_false (by omega : ¬ pa.length < 3), decide_eq_false (by omega : ¬ pa.length < 2),
    decide_eq_false (by omega : ¬ pb.length < 3), decide_eq_false (by omega : ¬ pb.length < 2)]
  simp only [Bool.and_false, Bool.or_self, Bool.false_eq_true, if_false]
  by_cases hx : a.rect.intersects b.rect = true
  · rw [hx]
    simp only [Bool.not_true, Bool.false_eq_true, if_false]
    split_ifs with harea
    · obtain ⟨ans, g1, g2⟩ := anyXSeg_iff he₂ h3' hb hcb a1 q2
      refine ⟨ans, g1, ?_⟩
      rw [g2, hl, hm, common_iff hcm hcl (by rintro rfl; simp at hm3) bm bm' al (le_of_lt harea)]
      exact ⟨fun ⟨w, w1, w2⟩ => ⟨w, w2, w1⟩, fun ⟨w, w1, w2⟩ => ⟨w, w2, w1⟩⟩
    · obtain ⟨ans, g1, g2⟩ := anyXSeg_iff he₁ h3 ha hca b1 q1
      refine ⟨ans, g1, ?_⟩
      rw [g2, hl, hm, common_iff hcl hcm (by rintro rfl; simp at hl3) al al' bm (not_lt.1 harea)]
  · have hx' : a.rect.intersects b.rect = false := by simpa using hx
    rw [hx']
    refine ⟨false, rfl, iff_of_false (by simp) ?_⟩
    rintro ⟨w, w1, w2⟩
    apply hx
    rw [C20_intersects _ _ (ring_rect_valid a1 (by omega)) (ring_rect_valid b1 (by omega))]
    rw [hl] at w1
    rw [hm] at w2
    exact ⟨w, region_rect hcl al w1, region_rect hcm bm w2⟩

/-! ### Witnesses -/

/-- The functions on lists of points, with the flags that the code computes. -/
def S.segMeets (pts : List (Pt ℚ)) (seg : Seg ℚ) (edge : Bool) : Option Bool :=
  (newIx Ix.exact arithQ Env.initial pts true 0#32).bind fun r => ringXSeg Ix.exact arithQ r seg edge
def S.segWithin (pts : List (Pt ℚ)) (seg : Seg ℚ) (edge : Bool) : Option Bool :=
  (newIx Ix.exact arithQ Env.initial pts true 0#32).bind fun r => (ringConvex pts).bind fun cv => (ringClockwise pts).bind fun cw =>
    ringHasSeg Ix.exact arithQ exactR cv cw r seg edge

/-- A ring in the form of a U. -/
def S.ushape : List (Pt ℚ) := [⟨0, 0⟩, ⟨10, 0⟩, ⟨10, 10⟩, ⟨7, 10⟩, ⟨7, 3⟩, ⟨3, 3⟩, ⟨3, 10⟩, ⟨0, 10⟩, ⟨0, 0⟩]

/-- Wrong for C48: between two corners everything counts as covered. The middle of this segment is outside. -/
theorem C48_corner_wrong : segWithin ushape ⟨⟨3, 10⟩, ⟨7, 10⟩⟩ true = some true ∧ OnSeg (⟨⟨3, 10⟩, ⟨7, 10⟩⟩ : Seg ℚ) ⟨5, 10⟩ ∧
    ¬ InRegion (segments ushape true) ⟨5, 10⟩ := by
  refine ⟨by decide +kernel, (exactOnSeg_iff 1 _ _).1 (by decide +kernel), ?_⟩
  rw [← regionB_iff]
  decide +kernel

/-- Wrong for C48: both ends are inside, the segment leaves the ring through one vertex and comes back through another. -/
theorem C48_vertex_wrong : let pts : List (Pt ℚ) := [⟨0, 0⟩, ⟨10, 0⟩, ⟨10, 9⟩, ⟨7, 5⟩, ⟨5, 0⟩, ⟨3, 5⟩, ⟨0, 9⟩, ⟨0, 0⟩]
    segWithin pts ⟨⟨1, 5⟩, ⟨9, 5⟩⟩ true = some true ∧ Inside (segments pts true) ⟨1, 5⟩ ∧ Inside (segments pts true) ⟨9, 5⟩ ∧
    OnSeg (⟨⟨1, 5⟩, ⟨9, 5⟩⟩ : Seg ℚ) ⟨5, 5⟩ ∧ ¬ InRegion (segments pts true) ⟨5, 5⟩ := by
  refine ⟨by decide +kernel, ?_, ?_, (exactOnSeg_iff 1 _ _).1 (by decide +kernel), ?_⟩
  · rw [← insideB_iff]; decide +kernel
  · rw [← insideB_iff]; decide +kernel
  · rw [← regionB_iff]; decide +kernel

/-- Wrong for C48: a ring that is flagged convex and is not (`C42_start_vertex`). The ends are inside, the middle is outside. -/
theorem C48_convex_wrong : segWithin (closeUp dart) ⟨⟨1/4, 2⟩, ⟨2, 1/4⟩⟩ false = some true ∧ Inside (segments (closeUp dart) true) ⟨1/4, 2⟩ ∧
    Inside (segments (closeUp dart) true) ⟨2, 1/4⟩ ∧ OnSeg (⟨⟨1/4, 2⟩, ⟨2, 1/4⟩⟩ : Seg ℚ) ⟨9/8, 9/8⟩ ∧ ¬ InRegion (segments (closeUp dart) true) ⟨9/8, 9/8⟩ := by
  refine ⟨by decide +kernel, ?_, ?_, (exactOnSeg_iff 1 _ _).1 (by decide +kernel), ?_⟩
  · rw [← insideB_iff]; decide +kernel
  · rw [← insideB_iff]; decide +kernel
  · rw [← regionB_iff]; decide +kernel

/-- Wrong for C48: a segment that stays in the region and on its way runs along an edge of the ring, and the answer is false. -/
theorem C48_touch_wrong : segWithin ushape ⟨⟨0, 3⟩, ⟨8, 3⟩⟩ true = some false ∧
    ∀ w, OnSeg (⟨⟨0, 3⟩, ⟨8, 3⟩⟩ : Seg ℚ) w → InRegion (segments ushape true) w := by
  refine ⟨by decide +kernel, ?_⟩
  have hs : segments ushape true = [⟨⟨0, 0⟩, ⟨10, 0⟩⟩, ⟨⟨10, 0⟩, ⟨10, 10⟩⟩, ⟨⟨10, 10⟩, ⟨7, 10⟩⟩, ⟨⟨7, 10⟩, ⟨7, 3⟩⟩, ⟨⟨7, 3⟩, ⟨3, 3⟩⟩, ⟨⟨3, 3⟩, ⟨3, 10⟩⟩,
      ⟨⟨3, 10⟩, ⟨0, 10⟩⟩, ⟨⟨0, 10⟩, ⟨0, 0⟩⟩] := by decide +kernel
  rw [hs]
  rintro ⟨x, y⟩ hw
  have hr := onSeg_rect hw
  simp only [Seg.rect, min_self, max_self] at hr
  obtain ⟨h1, h2, h3, h4⟩ := hr
  obtain rfl : y = 3 := le_antisymm h4 h3
  have h1 : 0 ≤ x := (le_min le_rfl (by norm_num)).trans h1
  have h2 : x ≤ 8 := h2.trans (max_le (by norm_num) le_rfl)
  rw [← hs]
  by_cases hb : OnBoundary (segments ushape true) ⟨x, 3⟩
  · exact .inl hb
  · have hb' := hb
    rw [← boundaryB_iff] at hb'
    rw [hs] at hb hb' ⊢
    have hx : (0 < x ∧ x < 3) ∨ 7 < x := by
      by_contra hx
      rw [not_or, not_and_or, not_lt, not_lt, not_lt] at hx
      apply hb
      rcases hx.1 with g | g
      · exact ⟨⟨⟨0, 10⟩, ⟨0, 0⟩⟩, by simp, 7/10, by norm_num, by norm_num, by simp; linarith, by norm_num⟩
      · exact ⟨⟨⟨7, 3⟩, ⟨3, 3⟩⟩, by simp, (7 - x) / 4, by linarith [hx.2], by linarith, by simp; ring, by norm_num⟩
    rw [← regionB_iff, Bool.eq_false_iff.2 hb', insideB, Bool.eq_false_iff.2 hb']
    rcases hx with ⟨g1, g2⟩ | g
    · norm_num [crossB, List.countP_cons]
      rw [if_neg (by linarith), if_pos (by linarith), if_pos (by linarith), if_pos (by linarith)]
    · norm_num [crossB, List.countP_cons]
      rw [if_neg (by linarith), if_neg (by linarith), if_neg (by linarith), if_pos (by linarith)]

/-- With edges not allowed `tg_ring_intersects_segment` is no test for a point inside: this segment joins the tips of a V and has no point inside. -/
theorem C47_no_edges_wrong : let pts : List (Pt ℚ) := [⟨0, 0⟩, ⟨10, 0⟩, ⟨10, 10⟩, ⟨5, 3⟩, ⟨0, 10⟩, ⟨0, 0⟩]
    segMeets pts ⟨⟨0, 10⟩, ⟨10, 10⟩⟩ false = some true ∧ ∀ w, OnSeg (⟨⟨0, 10⟩, ⟨10, 10⟩⟩ : Seg ℚ) w → ¬ Inside (segments pts true) w := by
  refine ⟨by decide +kernel, fun w hw hin => ?_⟩
  have h := inside_rect (l := ([⟨0, 0⟩, ⟨10, 0⟩, ⟨10, 10⟩, ⟨5, 3⟩, ⟨0, 10⟩, ⟨0, 0⟩] : List (Pt ℚ))) (r := ⟨⟨0, 0⟩, ⟨10, 10⟩⟩) rfl (by
    intro v hv
    simp only [List.mem_cons, List.not_mem_nil, or_false] at hv
    rcases hv with rfl | rfl | rfl | rfl | rfl | rfl <;> (refine ⟨?_, ?_, ?_, ?_⟩ <;> norm_num)) hin
  have := onSeg_rect hw
  have h1 := this.2.2.1
  have h2 := h.2.2.2
  simp only [Seg.rect, min_self] at h1
  linarith

/-- Cases of C47 to C49: a segment that passes through two edges, one outside, one within; and a ring within another, in both orders. -/
example : segMeets ushape ⟨⟨-1, 1⟩, ⟨11, 1⟩⟩ true = some true ∧ segMeets ushape ⟨⟨4, 5⟩, ⟨6, 9⟩⟩ true = some false ∧
    segWithin ushape ⟨⟨1, 1⟩, ⟨9, 2⟩⟩ false = some true ∧ segWithin ushape ⟨⟨1, 5⟩, ⟨9, 5⟩⟩ false = some false := by
  refine ⟨?_, ?_, ?_, ?_⟩ <;> decide +kernel

example : let big : List (Pt ℚ) := [⟨0, 0⟩, ⟨10, 0⟩, ⟨10, 10⟩, ⟨0, 10⟩, ⟨0, 0⟩]
    let small : List (Pt ℚ) := [⟨4, 4⟩, ⟨6, 4⟩, ⟨5, 6⟩, ⟨4, 4⟩]
    let x := fun a b => (newIx Ix.exact arithQ Env.initial a true 0#32).bind fun a => (newIx Ix.exact arithQ Env.initial b true 0#32).bind fun b =>
      ringXRing Ix.exact arithQ exactR a b true
    x big small = some true ∧ x small big = some true ∧ x ushape [⟨4, 5⟩, ⟨6, 5⟩, ⟨5, 9⟩, ⟨4, 5⟩] = some false := by
  refine ⟨?_, ?_, ?_⟩ <;> decide +kernel

end Tg
