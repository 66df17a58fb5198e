import Verif.Model.Measure
import Verif.Spec.Measure
import Verif.Lemmas.Isoperimetric
import Verif.Lemmas.SeriesApi
import Mathlib.Analysis.Real.Pi.Bounds
/-!
C73: the perimeter of a ring and the length of a line, and the score of Polsby and Popper, in exact arithmetic. "A perfect circle has a score of 1 and all
other shapes will be smaller" (tg.c:14622): for rings by the isoperimetric inequality, in `Lemmas/Isoperimetric`. For a line the area is the one of the line
closed with a segment, and the length does not have that segment; the score can be above 1 and is below 2.
-/
namespace Tg

open S Spec

namespace S
variable {β : Type*} [LinearOrder β]

theorem length_euclid (a b : Pt ℝ) : length Ops.real a b = euclid a b := by
  unfold length euclid Ops.real
  dsimp only
  ring_nf

theorem perimeterLoop_ok {pts : List (Pt ℝ)} {cl : Bool} : ∀ (k i : Nat) (acc : ℝ), i + k = (segments pts cl).length →
    perimeterLoop Ops.real (pts ++ pts.take 1) k i acc = some (acc + (((segments pts cl).drop i).map fun s => euclid s.a s.b).sum)
  | 0, i, acc, h => by rw [perimeterLoop, List.drop_of_length_le (by omega)]; simp
  | k + 1, i, acc, h => by
    have hi : i < (segments pts cl).length := by omega
    have hs := segAt_eq pts cl hi
    rw [List.getElem?_eq_getElem hi, segAt] at hs
    rw [perimeterLoop]
    split at hs
    · rename_i a b e1 e2
      rw [e1, e2]
      dsimp only
      rw [perimeterLoop_ok (cl := cl) k (i + 1) _ (by omega), List.drop_eq_getElem_cons hi, List.map_cons, List.sum_cons, ← Option.some.inj hs, length_euclid]
      show some (acc + euclid a b + _) = some (acc + (euclid a b + _))
      rw [add_assoc]
    · cases hs

theorem segments_nil_of_empty {pts : List (Pt ℝ)} {cl : Bool} (h : (cl = true ∧ pts.length < 3) ∨ pts.length < 2) : segments pts cl = [] := by
  unfold segments
  cases cl with
  | false =>
    have : pts.length < 2 := by simpa using h
    match pts, this with
    | [], _ => rfl
    | [_], _ => rfl
  | true =>
    have : pts.length < 3 := by
      rcases h with h | h
      · exact h.2
      · omega
    simp [this]

variable {f : Ix ℝ β} {A : Arith ℝ} {pts : List (Pt ℝ)} {cl : Bool} {ix dflt n : Nat} {ring : Ring ℝ β}

theorem ringEmpty_iff (hk : RingOk f pts cl n ring) : ringEmpty ring = true ↔ (cl = true ∧ pts.length < 3) ∨ pts.length < 2 := by
  unfold ringEmpty
  rw [hk.closed_eq, hk.npoints_eq]
  simp

theorem perimeter_ok (hk : RingOk f pts cl n ring) : ringPerimeter Ops.real ring = some (perimeter pts cl) := by
  unfold ringPerimeter
  split_ifs with he
  · rw [perimeter, segments_nil_of_empty ((ringEmpty_iff hk).1 he)]; rfl
  · rw [hk.points_eq, hk.nsegs_eq, perimeterLoop_ok (cl := cl) _ 0 0 (by omega)]
    simp [perimeter]

theorem shoelace_small : ∀ {pts : List (Pt ℝ)}, pts.length < 3 → shoelace pts = 0
  | [], _ => by simp [shoelace, closeUp, edges]
  | [a], _ => by simp [shoelace, closeUp, edges]
  | [a, b], _ => by simp [shoelace, closeUp, edges]
  | _ :: _ :: _ :: _, h => by simp at h; omega

theorem area_ok (hk : RingOk f pts cl n ring) : seriesArea ring = some (|shoelace pts| / 2) := by
  unfold seriesArea
  split_ifs with he
  · have h3 : pts.length < 3 := by
      rcases (ringEmpty_iff hk).1 he with h | h
      · exact h.2
      · omega
    rw [shoelace_small h3]
    simp
  · have h2 : 2 ≤ pts.length := by
      by_contra hc
      exact he ((ringEmpty_iff hk).2 (.inr (by omega)))
    rw [hk.points_eq, hk.npoints_eq, List.take_left]
    obtain ⟨o, h1, -, h3, -⟩ := orient_ok h2
    rw [h1, Option.map_some, h3, cwSum_eq, abs_div, abs_neg, abs_of_pos (show (0 : ℝ) < 2 by norm_num)]

theorem score_ok (hk : RingOk f pts cl n ring) :
    ringScore ring = some (polsbyPopper (|shoelace pts| / 2) (perimeter pts cl)) := by
  unfold ringScore
  rw [perimeter_ok hk, area_ok hk]
  dsimp only
  congr 1
  unfold polsbyPopper
  have hpi := Real.pi_pos.ne'
  split_ifs with h
  · field_simp
    ring
  · have h0 : 0 ≤ perimeter pts cl := List.sum_nonneg (by simp only [List.mem_map]; rintro _ ⟨v, -, rfl⟩; exact Real.sqrt_nonneg _)
    have : perimeter pts cl = 0 := le_antisymm (not_lt.1 h) h0
    rw [this]
    simp

theorem perimeter_open (pts : List (Pt ℝ)) : perimeter pts false = Iso.plen pts := by simp [perimeter, segments, Iso.plen, euclid]; rfl

theorem cw_closeUp (pts : List (Pt ℝ)) : Iso.cw (closeUp pts) = - shoelace pts := cwSum_eq pts

theorem edges_concat : ∀ (l : List (Pt ℝ)) (a b : Pt ℝ), l.getLast? = some a → edges (l ++ [b]) = edges l ++ [⟨a, b⟩]
  | [], _, _, h => by simp at h
  | [p], a, b, h => by simp at h; subst h; rfl
  | p :: q :: l, a, b, h => by
    have := edges_concat (q :: l) a b (by simpa using h)
    simp only [List.cons_append, edges] at this ⊢
    rw [this]

theorem closeUp_last {pts : List (Pt ℝ)} {a : Pt ℝ} (ha : pts.head? = some a) : (closeUp pts).head? = some a ∧ (closeUp pts).getLast? = some a := by
  cases pts with
  | nil => simp at ha
  | cons p l => simp at ha; subst ha; exact ⟨rfl, by simp only [closeUp, List.take_succ_cons, List.take_zero, List.getLast?_concat]⟩

theorem perimeter_closed {pts : List (Pt ℝ)} (h3 : 3 ≤ pts.length) : perimeter pts true = Iso.plen (closeUp pts) := by
  unfold perimeter segments Iso.plen
  simp only [Bool.not_true, Bool.false_eq_true, if_false, show ¬ pts.length < 3 by omega]
  split_ifs with h
  · match pts, h3 with
    | p :: l, _ =>
      simp only [List.head?_cons] at h
      rw [closeUp, List.take_succ_cons, List.take_zero, edges_concat _ p p h]
      simp [euclid, Iso.seglen]
      rfl
  · simp [closeUp, euclid]
    rfl

theorem score_bound {a p : ℝ} {k : ℝ} (ha : 0 ≤ a) (hk : 0 < k) (hp : 0 ≤ p) (h : 0 < p → 4 * Real.pi * a < k * p ^ 2) : 0 ≤ polsbyPopper a p ∧ polsbyPopper a p < k := by
  have hpi := Real.pi_pos
  refine ⟨by unfold polsbyPopper; positivity, ?_⟩
  unfold polsbyPopper
  rcases hp.eq_or_lt with rfl | hp
  · simpa using hk
  · rw [div_lt_iff₀ (by positivity)]
    have : k * (Real.pi * (p / (2 * Real.pi)) ^ 2) = k * p ^ 2 / (4 * Real.pi) := by field_simp; ring
    rw [this, lt_div_iff₀ (by positivity)]
    linarith [h hp]

end S

variable {β : Type*} [LinearOrder β] {f : Ix ℝ β} {A : Arith ℝ} {pts : List (Pt ℝ)} {cl : Bool} {ix dflt n : Nat} {ring : Ring ℝ β}

/-- C73. `tg_ring_perimeter` and `tg_line_length` are the sum of the lengths of the segments; nothing behind the points is read. -/
theorem C73_perimeter (hf : f.Lawful) (hn : 2 ≤ n) (h : seriesNew f A pts cl ix dflt n = some ring) :
    ringPerimeter Ops.real ring = some (perimeter pts cl) ∧ lineLength Ops.real ring = some (perimeter pts cl) :=
  ⟨perimeter_ok (seriesNew_some hf hn h).1, perimeter_ok (seriesNew_some hf hn h).1⟩

/-- C73. The score is the area over the area of the disk with the same perimeter, and 0 if the perimeter is 0 (a quotient by 0 is 0 here). -/
theorem C73_score (hf : f.Lawful) (hn : 2 ≤ n) (h : seriesNew f A pts cl ix dflt n = some ring) :
    ringScore ring = some (polsbyPopper (|shoelace pts| / 2) (perimeter pts cl)) ∧ lineScore ring = ringScore ring :=
  ⟨score_ok (seriesNew_some hf hn h).1, rfl⟩

/-- C73. The score of every ring, also one that meets itself, is at least 0 and less than 1. -/
theorem C73_ring_less_than_one (hf : f.Lawful) (hn : 2 ≤ n) (h : seriesNew f A pts true ix dflt n = some ring) :
    ∃ score, ringScore ring = some score ∧ 0 ≤ score ∧ score < 1 := by
  refine ⟨_, (C73_score hf hn h).1, score_bound (by positivity) one_pos ?_ fun hp => ?_⟩
  · exact List.sum_nonneg (by simp only [List.mem_map]; rintro _ ⟨v, -, rfl⟩; exact Real.sqrt_nonneg _)
  · have h3 : 3 ≤ pts.length := by
      by_contra hc
      rw [perimeter, segments_nil_of_empty (.inl ⟨rfl, by omega⟩)] at hp
      simp at hp
    rw [perimeter_closed h3] at hp ⊢
    cases ha : pts.head? with
    | none => rw [List.head?_eq_none_iff] at ha; subst ha; simp at h3
    | some a =>
      have := Iso.closed (closeUp_last ha).1 (closeUp_last ha).2 hp
      rw [cw_closeUp, abs_neg] at this
      linarith

/-- C73. The score of every line is at least 0 and less than 2. -/
theorem C73_line_less_than_two (hf : f.Lawful) (hn : 2 ≤ n) (h : seriesNew f A pts false ix dflt n = some ring) :
    ∃ score, lineScore ring = some score ∧ 0 ≤ score ∧ score < 2 := by
  refine ⟨_, (C73_score hf hn h).1, score_bound (by positivity) two_pos ?_ fun hp => ?_⟩
  · exact List.sum_nonneg (by simp only [List.mem_map]; rintro _ ⟨v, -, rfl⟩; exact Real.sqrt_nonneg _)
  · rw [perimeter_open] at hp ⊢
    match pts, hp with
    | [], hp => simp [Iso.plen, edges] at hp
    | a :: l, hp =>
      obtain ⟨b, hb⟩ : ∃ b, (a :: l).getLast? = some b := ⟨_, List.getLast?_eq_some_getLast (by simp)⟩
      have := Iso.chord (a := a) rfl hb hp
      have e : Iso.cw (a :: l) + cwTerm ⟨b, a⟩ = - shoelace (a :: l) := by
        rw [← cw_closeUp, closeUp, List.take_succ_cons, List.take_zero, Iso.cw, Iso.cw, edges_concat _ b a hb]
        simp
      rw [e, abs_neg] at this
      linarith

/-- C73. The score of a line can be above 1: `(0,0) (1,1) (2,0)` has the score `π / 2`. -/
theorem C73_line_above_one (hf : f.Lawful) (hn : 2 ≤ n) (h : seriesNew f A [⟨0, 0⟩, ⟨1, 1⟩, ⟨2, 0⟩] false ix dflt n = some ring) :
    lineScore ring = some (Real.pi / 2) ∧ 1 < Real.pi / 2 := by
  refine ⟨?_, by have := Real.pi_gt_three; linarith⟩
  show ringScore ring = _
  rw [(C73_score hf hn h).1]
  congr 1
  have hs : shoelace ([⟨0, 0⟩, ⟨1, 1⟩, ⟨2, 0⟩] : List (Pt ℝ)) = -2 := by simp [shoelace, closeUp, edges]
  have hp : perimeter ([⟨0, 0⟩, ⟨1, 1⟩, ⟨2, 0⟩] : List (Pt ℝ)) false = 2 * √2 := by
    simp [perimeter, segments, edges, euclid]
    norm_num
    ring
  rw [hs, hp]
  unfold polsbyPopper
  have hpi := Real.pi_pos.ne'
  have : √2 ^ 2 = (2 : ℝ) := Real.sq_sqrt (by norm_num)
  rw [div_pow, mul_pow, this]
  norm_num
  field_simp
  norm_num

/-- The unit square has the score `π / 4`; the rings and lines of the theorems exist. -/
example (hf : f.Lawful) : ∃ ring, seriesNew f A [⟨0, 0⟩, ⟨1, 0⟩, ⟨1, 1⟩, ⟨0, 1⟩, ⟨0, 0⟩] true 1 1 16 = some ring ∧ ringScore ring = some (Real.pi / 4) := by
  obtain ⟨ring, h, -⟩ := seriesNew_ok (f := f) hf A ([⟨0, 0⟩, ⟨1, 0⟩, ⟨1, 1⟩, ⟨0, 1⟩, ⟨0, 0⟩] : List (Pt ℝ)) true (ix := 1) (dflt := 1) (ixspread := 16)
    (by norm_num) (by decide)
  refine ⟨ring, h, ?_⟩
  rw [(C73_score hf (by norm_num) h).1]
  congr 1
  have hs : shoelace ([⟨0, 0⟩, ⟨1, 0⟩, ⟨1, 1⟩, ⟨0, 1⟩, ⟨0, 0⟩] : List (Pt ℝ)) = 2 := by simp [shoelace, closeUp, edges]; norm_num
  have hp : perimeter ([⟨0, 0⟩, ⟨1, 0⟩, ⟨1, 1⟩, ⟨0, 1⟩, ⟨0, 0⟩] : List (Pt ℝ)) true = 4 := by
    simp [perimeter, segments, edges, euclid]
    norm_num
  rw [hs, hp]
  unfold polsbyPopper
  have hpi := Real.pi_pos.ne'
  field_simp
  norm_num

example (hf : f.Lawful) : ∃ ring, seriesNew f A [⟨0, 0⟩, ⟨1, 1⟩, ⟨2, 0⟩] false 1 1 16 = some ring := by
  obtain ⟨ring, h, -⟩ := seriesNew_ok (f := f) hf A ([⟨0, 0⟩, ⟨1, 1⟩, ⟨2, 0⟩] : List (Pt ℝ)) false (ix := 1) (dflt := 1) (ixspread := 16)
    (by norm_num) (by decide)
  exact ⟨ring, h⟩

end Tg
