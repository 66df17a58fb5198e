import Verif.Lemmas.LineTouch
import Verif.Props.PointRel
/-! Property C63: `touches` of two lines. -/
namespace Tg
open S

variable {K : Type*} [Field K] [LinearOrder K] [IsStrictOrderedRing K] [FloorRing K]

/-- C63. Two lines that meet only at single points, and pass through their own ends only at their ends, touch if and only if they meet and their interiors do
not. -/
theorem C63_exact (ε : K) (ns : List (Pt K) → Nat) (fuel : Nat) (s t : Series K) (xa xb : Atom K K) (ha : AShape.Is ε ns (.line s) xa)
    (hb : AShape.Is ε ns (.line t) xb) (rs : NoRepeat s.pts) (rt : NoRepeat t.pts) (es : EndsOnce s.pts) (et : EndsOnce t.pts) (no : NoOverlap s.pts t.pts) :
    ∃ r, geoTouches ⟨Ix.exact, exact ε ns, exactR, fuel⟩ (.atom xb) (.atom xa) = some r ∧
      (r = true ↔ (∃ w, (AShape.line s).Has w ∧ (AShape.line t).Has w) ∧ ∀ w, ¬ ((AShape.line s).Inner w ∧ (AShape.line t).Inner w)) := by
  match xa, xb, ha, hb with
  | .line a, .line b, ha, hb =>
    obtain ⟨r, h1, h2⟩ := lineTouches_pairs (P := ⟨Ix.exact, exact ε ns, exactR, fuel⟩) rfl rfl ha.1 hb.1 ha.2 hb.2
    refine ⟨r, ?_, ?_⟩
    · rw [geoTouches, atomTouchesGeo.eq_2 _ _ _ (by simp), someGeo]
      exact h1
    rw [h2]
    refine and_congr_right fun _ => ?_
    constructor
    · rintro h w ⟨⟨⟨u, hu, w1⟩, n1, n2⟩, ⟨v, hv, w2⟩, n3, n4⟩
      obtain ⟨i, hi⟩ := List.mem_iff_getElem?.1 hu
      obtain ⟨j, hj⟩ := List.mem_iff_getElem?.1 hv
      rcases (anyTouching_iff es et rs rt no hi hj w1 w2).1 (h u i v j hi hj ⟨w, w1, w2⟩) with (h | h) | (h | h)
      exacts [n1 h, n2 h, n3 h, n4 h]
    · rintro h u i v j hi hj ⟨w, w1, w2⟩
      rw [anyTouching_iff es et rs rt no hi hj w1 w2]
      by_contra hn
      simp only [IsEnd, not_or] at hn
      exact h w ⟨⟨⟨u, List.mem_of_getElem? hi, w1⟩, hn.1.1, hn.1.2⟩, ⟨v, List.mem_of_getElem? hj, w2⟩, hn.2.1, hn.2.2⟩

/-- C63. Whatever the lines: if the answer is true, then a point of both is the start or the end of one. -/
theorem C63_sound (ε : K) (ns : List (Pt K) → Nat) (fuel : Nat) (s t : Series K) (xa xb : Atom K K) (ha : AShape.Is ε ns (.line s) xa)
    (hb : AShape.Is ε ns (.line t) xb) (h : geoTouches ⟨Ix.exact, exact ε ns, exactR, fuel⟩ (.atom xb) (.atom xa) = some true) :
    ∃ w, (AShape.line s).Has w ∧ (AShape.line t).Has w ∧ (IsEnd s.pts w ∨ IsEnd t.pts w) := by
  match xa, xb, ha, hb, h with
  | .line a, .line b, ha, hb, h =>
    obtain ⟨r, h1, h2⟩ := lineTouches_pairs (P := ⟨Ix.exact, exact ε ns, exactR, fuel⟩) rfl rfl ha.1 hb.1 ha.2 hb.2
    rw [geoTouches, atomTouchesGeo.eq_2 _ _ _ (by simp), someGeo] at h
    have hr : r = true := Option.some.inj (h1.symm.trans h)
    obtain ⟨⟨w, ⟨u, hu, w1⟩, ⟨v, hv, w2⟩⟩, hall⟩ := h2.1 hr
    obtain ⟨i, hi⟩ := List.mem_iff_getElem?.1 hu
    obtain ⟨j, hj⟩ := List.mem_iff_getElem?.1 hv
    have hat := hall u i v j hi hj ⟨w, w1, w2⟩
    rw [anyTouching] at hat
    simp only [Bool.or_eq_true, Bool.and_eq_true, beq_iff_eq] at hat
    rcases hat with ((⟨rfl, h⟩ | ⟨hi', h⟩) | ⟨rfl, h⟩) | ⟨hj', h⟩
    · exact ⟨_, ⟨u, hu, onSeg_left u⟩, ⟨v, hv, segTouches0_covers h⟩, .inl (.inl (edges_head hi))⟩
    · exact ⟨_, ⟨u, hu, onSeg_right u⟩, ⟨v, hv, segTouches0_covers h⟩, .inl (.inr (edges_last hi hi'))⟩
    · exact ⟨_, ⟨u, hu, segTouches0_covers h⟩, ⟨v, hv, onSeg_left v⟩, .inr (.inl (edges_head hj))⟩
    · exact ⟨_, ⟨u, hu, segTouches0_covers h⟩, ⟨v, hv, onSeg_right v⟩, .inr (.inr (edges_last hj hj'))⟩

/-! ### The hypotheses are needed -/

/-- A line and its first half: their interiors meet, and the answer is true. From the second half on, and for a piece from the middle, it is false. -/
theorem C63_needs_no_overlap :
    ((lineQ [⟨0, 0⟩, ⟨10, 0⟩]).bind fun a => (lineQ [⟨0, 0⟩, ⟨5, 0⟩]).bind fun b => geoTouches parQ a b) = some true ∧
    ((lineQ [⟨0, 0⟩, ⟨10, 0⟩]).bind fun a => (lineQ [⟨5, 0⟩, ⟨15, 0⟩]).bind fun b => geoTouches parQ a b) = some false ∧
    ((lineQ [⟨0, 0⟩, ⟨10, 0⟩]).bind fun a => (lineQ [⟨2, 0⟩, ⟨5, 0⟩]).bind fun b => geoTouches parQ a b) = some false ∧
    ((lineQ [⟨0, 0⟩, ⟨10, 0⟩]).bind fun a => (lineQ [⟨0, 0⟩, ⟨10, 0⟩]).bind fun b => geoTouches parQ a b) = some false := by
  refine ⟨?_, ?_, ?_, ?_⟩ <;> decide +kernel

/-- A line that comes back to its start and goes on: the other line meets it there only, and the answer is false. -/
theorem C63_needs_ends_once :
    ((lineQ [⟨0, 0⟩, ⟨4, 0⟩, ⟨4, 4⟩, ⟨-4, -4⟩]).bind fun a => (lineQ [⟨-3, 3⟩, ⟨3, -3⟩]).bind fun b => geoTouches parQ a b) = some false ∧
    ((lineQ [⟨0, 0⟩, ⟨4, 0⟩, ⟨4, 4⟩]).bind fun a => (lineQ [⟨-3, 3⟩, ⟨3, -3⟩]).bind fun b => geoTouches parQ a b) = some true := by
  refine ⟨?_, ?_⟩ <;> decide +kernel

/-- A line with its first point twice: it touches the other line there, and the answer is false. Without the second copy of the point it is true. -/
theorem C63_needs_no_repeat :
    ((lineQ [⟨5, 0⟩, ⟨5, 0⟩, ⟨5, 5⟩]).bind fun a => (lineQ [⟨0, 0⟩, ⟨10, 0⟩]).bind fun b => geoTouches parQ a b) = some false ∧
    ((lineQ [⟨5, 0⟩, ⟨5, 5⟩]).bind fun a => (lineQ [⟨0, 0⟩, ⟨10, 0⟩]).bind fun b => geoTouches parQ a b) = some true := by
  refine ⟨?_, ?_⟩ <;> decide +kernel

/-! ### The hypotheses are met -/

/-- Segments of the plane with one point in common: the second has another direction. -/
theorem S.noOverlap_cross {s t : Seg K} (h : (s.b.x - s.a.x) * (t.b.y - t.a.y) ≠ (s.b.y - s.a.y) * (t.b.x - t.a.x)) {u v : Pt K} (h1 : OnSeg s u) (h2 : OnSeg t u)
    (h3 : OnSeg s v) (h4 : OnSeg t v) : u = v := by
  obtain ⟨a, -, -, a1, a2⟩ := h1
  obtain ⟨b, -, -, b1, b2⟩ := h2
  obtain ⟨c, -, -, c1, c2⟩ := h3
  obtain ⟨d, -, -, d1, d2⟩ := h4
  have e1 : (a - c) * (s.b.x - s.a.x) = (b - d) * (t.b.x - t.a.x) := by linear_combination b1 - a1 + c1 - d1
  have e2 : (a - c) * (s.b.y - s.a.y) = (b - d) * (t.b.y - t.a.y) := by linear_combination b2 - a2 + c2 - d2
  have : (a - c) * ((s.b.x - s.a.x) * (t.b.y - t.a.y) - (s.b.y - s.a.y) * (t.b.x - t.a.x)) = 0 := by
    linear_combination (t.b.y - t.a.y) * e1 - (t.b.x - t.a.x) * e2
  rcases mul_eq_zero.1 this with k | k
  · have : a = c := by linarith
    exact Pt.ext (by rw [a1, c1, this]) (by rw [a2, c2, this])
  · exact absurd (by linarith) h

/-- A corner, and a line that ends on it. -/
def S.cornerS : Series ℚ := ⟨Env.initial, 0#32, [⟨0, 0⟩, ⟨10, 0⟩, ⟨10, 10⟩]⟩
def S.stopS : Series ℚ := ⟨Env.initial, 0#32, [⟨3, 7⟩, ⟨5, 0⟩]⟩

theorem S.corner_stop : NoRepeat cornerS.pts ∧ NoRepeat stopS.pts ∧ EndsOnce cornerS.pts ∧ EndsOnce stopS.pts ∧ NoOverlap cornerS.pts stopS.pts := by
  refine ⟨?_, ?_, ?_, ?_, ?_⟩
  · intro s hs
    simp only [cornerS, edges, List.mem_cons, List.not_mem_nil, or_false] at hs
    rcases hs with rfl | rfl <;> simp
  · intro s hs
    simp only [stopS, edges, List.mem_cons, List.not_mem_nil, or_false] at hs
    subst hs; simp
  · rintro i s w hi ⟨τ, t0, t1, h1, h2⟩ hw
    simp only [cornerS, edges, IsEnd, List.head?_cons, List.getLast?_cons_cons, List.getLast?_singleton, Option.some.injEq, List.length_cons,
      List.length_nil] at hi hw ⊢
    match i, hi with
    | 0, hi =>
      simp only [List.getElem?_cons_zero, Option.some.injEq] at hi
      subst hi
      rcases hw with rfl | rfl
      · exact .inl ⟨rfl, rfl⟩
      · norm_num at h2
    | 1, hi =>
      simp only [List.getElem?_cons_succ, List.getElem?_cons_zero, Option.some.injEq] at hi
      subst hi
      rcases hw with rfl | rfl
      · norm_num at h1
      · exact .inr ⟨rfl, rfl⟩
    | (n + 2), hi => simp at hi
  · rintro i s w hi - hw
    simp only [stopS, edges, IsEnd, List.head?_cons, List.getLast?_cons_cons, List.getLast?_singleton, Option.some.injEq, List.length_cons,
      List.length_nil] at hi hw ⊢
    match i, hi with
    | 0, _ => rcases hw with h | h <;> simp [h]
    | (n + 1), hi => simp at hi
  · intro s hs t ht u v
    simp only [cornerS, stopS, edges, List.mem_cons, List.not_mem_nil, or_false] at hs ht
    subst ht
    rcases hs with rfl | rfl <;> exact noOverlap_cross (by norm_num)

/-- They touch. -/
example (ε : ℚ) (ns : List (Pt ℚ) → Nat) (fuel : Nat) (xa xb : Atom ℚ ℚ) (ha : AShape.Is ε ns (.line cornerS) xa) (hb : AShape.Is ε ns (.line stopS) xb) :
    geoTouches ⟨Ix.exact, exact ε ns, exactR, fuel⟩ (.atom xb) (.atom xa) = some true := by
  obtain ⟨r1, r2, e1, e2, no⟩ := corner_stop
  obtain ⟨r, h1, h2⟩ := C63_exact ε ns fuel cornerS stopS xa xb ha hb r1 r2 e1 e2 no
  rw [h1, Option.some.injEq, h2]
  have on : OnSeg (⟨⟨0, 0⟩, ⟨10, 0⟩⟩ : Seg ℚ) ⟨5, 0⟩ := ⟨1 / 2, by norm_num, by norm_num, by norm_num, by norm_num⟩
  refine ⟨⟨⟨5, 0⟩, ⟨_, by simp [cornerS, edges], on⟩, ⟨⟨⟨3, 7⟩, ⟨5, 0⟩⟩, by simp [stopS, edges], ⟨1, by norm_num, by norm_num, by norm_num, by norm_num⟩⟩⟩, ?_⟩
  rintro w ⟨⟨⟨u, hu, τ, t0, t1, k1, k2⟩, -, -⟩, ⟨v, hv, σ, s0, s1, k3, k4⟩, n1, n2⟩
  simp only [cornerS, stopS, edges, List.mem_cons, List.not_mem_nil, or_false] at hu hv
  subst hv
  rcases hu with rfl | rfl
  · simp only at k2 k3 k4
    have : σ = 1 := by linarith
    subst this
    exact n2 (by simp only [stopS, List.getLast?_cons_cons, List.getLast?_singleton, Option.some.injEq]; exact Pt.ext (by rw [k3]; norm_num) (by rw [k4]; norm_num))
  · simp only at k1 k3
    linarith

end Tg
