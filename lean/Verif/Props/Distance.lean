import Verif.Model.Distance
import Verif.Spec.Distance
import Verif.Props.Nearest
import Verif.Props.Float32
import Mathlib.Tactic.Linarith
import Mathlib.Tactic.Ring
import Mathlib.Tactic.FieldSimp
/-!
C69: the distances. In exact arithmetic they are the least distances between points, so that the iteration over segments by distance (C29) delivers them by
their true distance. With doubles it delivers them in the order of the computed distances.
-/
namespace Tg

open S Spec

/-- C69. `tg_point_distance_point` is the distance. -/
theorem C69_point_point (p q : Pt ℝ) : ptDist Ops.real p q = euclid p q := by
  unfold ptDist euclid Ops.real
  dsimp only
  ring_nf

theorem S.clamp_least {e m g t : ℝ} (he : 0 ≤ e) (h0 : 0 ≤ t) (h1 : t ≤ 1) (hg : g = clamp01 (if e ≠ 0 then m / e else 0)) (hm : e = 0 → m = 0) :
    g * g * e - 2 * g * m ≤ t * t * e - 2 * t * m := by
  have key : 0 ≤ (t - g) * (g * e - m) := by
    rcases he.eq_or_lt with h | h
    · rw [hm h.symm, ← h]; simp
    · rw [if_pos h.ne'] at hg
      unfold clamp01 at hg
      have hq : m / e * e = m := div_mul_cancel₀ _ h.ne'
      rcases le_total (m / e) 0 with k | k
      · rw [max_eq_right k, min_eq_left (by norm_num)] at hg
        subst hg
        have : m ≤ 0 := by nlinarith
        nlinarith
      · rw [max_eq_left k] at hg
        rcases le_total (m / e) 1 with k1 | k1
        · rw [min_eq_left k1] at hg
          rw [hg, hq]; simp
        · rw [min_eq_right k1] at hg
          subst hg
          have : e ≤ m := by nlinarith
          nlinarith
  nlinarith [mul_nonneg (mul_self_nonneg (t - g)) he]

/-- C69. `tg_point_distance_segment` is the least distance to a point of the segment. -/
theorem C69_point_segment (p : Pt ℝ) (s : Seg ℝ) : IsLeast {d | ∃ q, OnSeg s q ∧ d = euclid p q} (ptSegDist Ops.real p s) := by
  obtain ⟨px, py⟩ := p
  obtain ⟨⟨ax, ay⟩, ⟨bx, by'⟩⟩ := s
  set g := clamp01 (if (bx - ax) * (bx - ax) + (by' - ay) * (by' - ay) ≠ 0 then
    ((px - ax) * (bx - ax) + (py - ay) * (by' - ay)) / ((bx - ax) * (bx - ax) + (by' - ay) * (by' - ay)) else (0 : ℝ)) with hg
  have g0 : 0 ≤ g := le_min (le_max_right _ _) (by norm_num)
  have g1 : g ≤ 1 := min_le_right _ _
  have hd : ptSegDist Ops.real ⟨px, py⟩ ⟨⟨ax, ay⟩, ⟨bx, by'⟩⟩ = euclid ⟨px, py⟩ ⟨ax + g * (bx - ax), ay + g * (by' - ay)⟩ := by
    unfold ptSegDist euclid Ops.real
    dsimp only
    rw [← hg, ← pow_two, ← pow_two]
  refine ⟨⟨_, ⟨g, g0, g1, rfl, rfl⟩, hd⟩, ?_⟩
  rintro _ ⟨⟨x, y⟩, ⟨t, t0, t1, hx, hy⟩, rfl⟩
  dsimp only at hx hy
  rw [hd, hx, hy]
  unfold euclid
  refine Real.sqrt_le_sqrt ?_
  dsimp only
  have := clamp_least (m := (px - ax) * (bx - ax) + (py - ay) * (by' - ay)) (e := (bx - ax) * (bx - ax) + (by' - ay) * (by' - ay))
    (add_nonneg (mul_self_nonneg _) (mul_self_nonneg _)) t0 t1 hg (by
      intro h
      have h1 : bx - ax = 0 := by nlinarith [mul_self_nonneg (bx - ax), mul_self_nonneg (by' - ay)]
      have h2 : by' - ay = 0 := by nlinarith [mul_self_nonneg (bx - ax), mul_self_nonneg (by' - ay)]
      rw [h1, h2]; ring)
  nlinarith

/-- The distance of (4, 8) to the segment from (0, 0) to (1, 4) is that to its end, 5; that of (0, 7) to the segment from (-1, 2) to (3, 2) is 5 too. -/
example : ptSegDist Ops.real ⟨4, 8⟩ ⟨⟨0, 0⟩, ⟨1, 4⟩⟩ = 5 ∧ ptSegDist Ops.real ⟨0, 7⟩ ⟨⟨-1, 2⟩, ⟨3, 2⟩⟩ = 5 := by
  constructor <;> norm_num [ptSegDist, Ops.real, clamp01, Real.sqrt_eq_iff_mul_self_eq]

theorem S.gap_le {a1 a2 b1 b2 x y : ℝ} (h1 : a1 ≤ x) (h2 : x ≤ a2) (h3 : b1 ≤ y) (h4 : y ≤ b2) : max (max a1 b1 - min a2 b2) 0 ≤ |x - y| := by
  refine max_le ?_ (abs_nonneg _)
  have l := le_abs_self (x - y)
  have n := neg_abs_le (x - y)
  have z := abs_nonneg (x - y)
  rcases max_choice a1 b1 with e | e <;> rcases min_choice a2 b2 with e' | e' <;> rw [e, e'] <;> linarith

theorem S.gap_ex {a1 a2 b1 b2 : ℝ} (ha : a1 ≤ a2) (hb : b1 ≤ b2) :
    ∃ x y, a1 ≤ x ∧ x ≤ a2 ∧ b1 ≤ y ∧ y ≤ b2 ∧ |x - y| = max (max a1 b1 - min a2 b2) 0 := by
  rcases le_or_gt (max a1 b1) (min a2 b2) with h | h
  · refine ⟨max a1 b1, max a1 b1, le_max_left _ _, h.trans (min_le_left _ _), le_max_right _ _, h.trans (min_le_right _ _), ?_⟩
    rw [max_eq_right (a := max a1 b1 - min a2 b2) (by linarith)]; simp
  · rcases le_total a2 b1 with k | k
    · refine ⟨a2, b1, ha, le_rfl, le_rfl, hb, ?_⟩
      rw [max_eq_right (ha.trans k), min_eq_left (k.trans hb), max_eq_left (by linarith), abs_of_nonpos (by linarith)]; ring
    · have k2 : b2 ≤ a1 := by
        by_contra c
        rw [not_le] at c
        exact absurd (max_le (le_min ha c.le) (le_min k hb)) (not_le.2 h)
      exact ⟨a1, b2, le_rfl, ha, hb, le_rfl, by
        rw [max_eq_left (hb.trans k2), min_eq_right (k2.trans ha), max_eq_left (by linarith), abs_of_nonneg (by linarith)]⟩

/-- C69. `tg_rect_distance_rect` is the least distance of a point of one rectangle to a point of the other. -/
theorem C69_rect_rect {a b : Rect ℝ} (ha : a.Valid) (hb : b.Valid) :
    IsLeast {d | ∃ q q', a.Has q ∧ b.Has q' ∧ d = euclid q q'} (rectDist Ops.real a b) := by
  have hd : rectDist Ops.real a b = √((max (max a.lo.x b.lo.x - min a.hi.x b.hi.x) 0) ^ 2 + (max (max a.lo.y b.lo.y - min a.hi.y b.hi.y) 0) ^ 2) := by
    unfold rectDist Ops.real
    dsimp only
    rw [← pow_two, ← pow_two]
  constructor
  · obtain ⟨x, x', h1, h2, h3, h4, h5⟩ := gap_ex ha.1 hb.1
    obtain ⟨y, y', k1, k2, k3, k4, k5⟩ := gap_ex ha.2 hb.2
    refine ⟨⟨x, y⟩, ⟨x', y'⟩, ⟨h1, h2, k1, k2⟩, ⟨h3, h4, k3, k4⟩, ?_⟩
    rw [hd, ← h5, ← k5, sq_abs, sq_abs]; rfl
  · rintro _ ⟨q, q', ⟨h1, h2, h3, h4⟩, ⟨k1, k2, k3, k4⟩, rfl⟩
    rw [hd]
    unfold euclid
    refine Real.sqrt_le_sqrt ?_
    have e1 := gap_le h1 h2 k1 k2
    have e2 := gap_le h3 h4 k3 k4
    rw [← sq_abs (q.x - q'.x), ← sq_abs (q.y - q'.y)]
    have z1 : 0 ≤ max (max a.lo.x b.lo.x - min a.hi.x b.hi.x) 0 := le_max_right _ _
    have z2 : 0 ≤ max (max a.lo.y b.lo.y - min a.hi.y b.hi.y) 0 := le_max_right _ _
    exact add_le_add (pow_le_pow_left₀ z1 e1 2) (pow_le_pow_left₀ z2 e2 2)

/-- C69. `tg_point_distance_rect` is the least distance to a point of the rectangle. -/
theorem C69_point_rect (p : Pt ℝ) {r : Rect ℝ} (hr : r.Valid) : IsLeast {d | ∃ q, r.Has q ∧ d = euclid p q} (ptRectDist Ops.real p r) := by
  have h := C69_rect_rect (a := ⟨p, p⟩) (b := r) ⟨le_rfl, le_rfl⟩ hr
  have e : ∀ q : Pt ℝ, (⟨p, p⟩ : Rect ℝ).Has q → q = p := fun q ⟨h1, h2, h3, h4⟩ => by
    obtain ⟨x, y⟩ := q
    obtain ⟨px, py⟩ := p
    simp only at h1 h2 h3 h4
    rw [le_antisymm h1 h2, le_antisymm h3 h4]
  refine ⟨?_, ?_⟩
  · obtain ⟨q, q', h1, h2, h3⟩ := h.1
    rw [e q h1] at h3
    exact ⟨q', h2, h3⟩
  · rintro _ ⟨q, h1, rfl⟩
    exact h.2 ⟨p, q, ⟨le_rfl, le_rfl, le_rfl, le_rfl⟩, h1, rfl⟩

/-- C69. In exact arithmetic the segments of a ring or line come in the order of their distance to a point, if the callbacks of
`tg_ring_nearest_segment` return these distances and the rectangles of the index enclose the segments. As in C29 indexed rings that are not closed by their
last point are excepted. -/
theorem C69_nearest {β : Type*} [LinearOrder β] {f : Ix ℝ β} (hf : f.Lawful) {A : Arith ℝ} {e : Env} (he : e.Ok) {pts : List (Pt ℝ)} {closed : Bool}
    {ix : BitVec 32} {ring : Ring ℝ β} (h : newIx f A e pts closed ix = some ring)
    (hc : (segments pts closed).length < pts.length ∨ pts.length % spreadOf e ix = 0 ∨ ring.index = none)
    (ht : f.Tight (segments pts closed)) (p : Pt ℝ) :
    ∃ (l : List (Seg ℝ × Nat)) (N : Nat), l.Perm (segments pts closed).zipIdx ∧
      l.Pairwise (fun a b => ∀ q', OnSeg b.1 q' → ∃ q, OnSeg a.1 q ∧ euclid p q ≤ euclid p q') ∧
      ∀ (σ : Type) (iter : Seg ℝ → ℝ → Nat → σ → σ × Bool) (st : σ) (fuel : Nat), N ≤ fuel →
        ringNearest (fun _ => true) f ring (some fun r _ => (ptRectDist Ops.real p r, 0)) (fun s _ => (ptSegDist Ops.real p s, 0)) iter fuel st =
          some (visit (fun x : Seg ℝ × Nat => iter x.1 (ptSegDist Ops.real p x.1) x.2) l st, true) := by
  obtain ⟨l, N, h1, h2, h3⟩ := C29_order_partial hf he h hc ht (ptRectDist Ops.real p) (ptSegDist Ops.real p) (fun r r' hr => by
      refine Real.sqrt_le_sqrt (add_le_add ?_ ?_)
      · refine mul_self_le_mul_self (le_max_right _ _) (max_le_max (sub_le_sub (max_le_max le_rfl hr.1) (min_le_min le_rfl hr.2.1)) le_rfl)
      · refine mul_self_le_mul_self (le_max_right _ _) (max_le_max (sub_le_sub (max_le_max le_rfl hr.2.2.1) (min_le_min le_rfl hr.2.2.2)) le_rfl))
    (fun r s _ ha hb => by
      obtain ⟨q, ⟨t, t0, t1, hx, hy⟩, hq⟩ := (C69_point_segment p s).1
      rw [hq]
      refine (C69_point_rect p ⟨ha.1.trans ha.2.1, ha.2.2.1.trans ha.2.2.2⟩).2 ⟨q, ?_, rfl⟩
      obtain ⟨a1, a2, a3, a4⟩ := ha
      obtain ⟨b1, b2, b3, b4⟩ := hb
      refine ⟨?_, ?_, ?_, ?_⟩
      · rw [hx]; nlinarith
      · rw [hx]; nlinarith
      · rw [hy]; nlinarith
      · rw [hy]; nlinarith)
  refine ⟨l, N, h1, h2.imp ?_, h3⟩
  intro a b hab q' hq'
  obtain ⟨q, h1, h2⟩ := (C69_point_segment p a.1).1
  exact ⟨q, h1, by rw [← h2]; exact hab.trans ((C69_point_segment p b.1).2 ⟨q', hq', rfl⟩)⟩

/-! ### Doubles -/

/-- What overflows keeps the order and the sign, as with the infinities of IEEE 754. -/
structure S.Fp.Saturates (F : Fp) : Prop where
  mono : Monotone F.fl
  odd : ∀ x, F.fl (-x) = -F.fl x

variable {F : Fp} (hF : Spec.Double.Rounding F.rnd) (hs : F.Saturates) {sq : ℚ → ℚ} (hsq : Monotone sq)
include hs hsq

theorem S.ieee_rect_mono (p : Pt ℚ) {r r' : Rect ℚ} (h : r'.Le r) : ptRectDist (F.ops sq) p r ≤ ptRectDist (F.ops sq) p r' := by
  refine hsq (hs.mono (add_le_add (hs.mono ?_) (hs.mono ?_)))
  · exact mul_self_le_mul_self (le_max_right _ _) (max_le_max (hs.mono (sub_le_sub (max_le_max le_rfl h.1) (min_le_min le_rfl h.2.1))) le_rfl)
  · exact mul_self_le_mul_self (le_max_right _ _) (max_le_max (hs.mono (sub_le_sub (max_le_max le_rfl h.2.2.1) (min_le_min le_rfl h.2.2.2))) le_rfl)

include hF

omit hsq in
/-- One coordinate: the point of the segment stays between the ends, and the difference is at least that to the rectangle. -/
theorem S.ieee_gap {k : ℤ} (h1 : -400 ≤ k) (h2 : k ≤ 400) {a b g p lo hi : ℚ} (ha : OnGrid k a) (hb : OnGrid k b) (g0 : 0 ≤ g) (g1 : g ≤ 1)
    (la : lo ≤ a) (ah : a ≤ hi) (lb : lo ≤ b) (bh : b ≤ hi) :
    F.mul (max (F.sub (max p lo) (min p hi)) 0) (max (F.sub (max p lo) (min p hi)) 0) ≤
      F.mul (F.sub p (F.add a (F.mul g (F.sub b a)))) (F.sub p (F.add a (F.mul g (F.sub b a)))) := by
  obtain ⟨e, -⟩ := grid_sub hF h1 h2 hb ha
  rw [e]
  have fa : F.fl a = a := Ex.fl hF (grid_ex ha) (by norm_num) (by omega) (by omega)
  have fb : F.fl b = b := Ex.fl hF (grid_ex hb) (by norm_num) (by omega) (by omega)
  have f0 : F.fl 0 = 0 := F.fl_zero hF
  have fd : F.fl (b - a) = b - a := e
  generalize hq : F.add a (F.mul g (b - a)) = q
  have hlo : lo ≤ q ∧ q ≤ hi := by
    have up : ∀ {x y : ℚ}, F.fl x = x → x ≤ y → x ≤ F.fl y := fun h h' => by have := hs.mono h'; rwa [h] at this
    have dn : ∀ {x y : ℚ}, F.fl x = x → y ≤ x → F.fl y ≤ x := fun h h' => by have := hs.mono h'; rwa [h] at this
    rw [← hq]
    rcases le_total a b with h | h
    · have m0 : 0 ≤ F.mul g (b - a) := up f0 (mul_nonneg g0 (by linarith))
      have m1 : F.mul g (b - a) ≤ b - a := dn fd (by nlinarith)
      exact ⟨la.trans (up fa (by linarith)), (dn fb (by linarith)).trans bh⟩
    · have m0 : F.mul g (b - a) ≤ 0 := dn f0 (by nlinarith)
      have m1 : b - a ≤ F.mul g (b - a) := up fd (by nlinarith)
      exact ⟨lb.trans (up fb (by linarith)), (dn fa (by linarith)).trans ah⟩
  suffices hx : max (F.sub (max p lo) (min p hi)) 0 ≤ |F.sub p q| by
    have := mul_self_le_mul_self (le_max_right _ _) hx
    rw [abs_mul_abs_self] at this
    exact hs.mono this
  refine max_le ?_ (abs_nonneg _)
  have hn : F.sub q p = -F.sub p q := by
    unfold Fp.sub
    rw [← hs.odd]
    ring_nf
  have l1 := le_abs_self (F.sub p q)
  have l2 := neg_le_abs (F.sub p q)
  rw [← hn] at l2
  have z := abs_nonneg (F.sub p q)
  have f0' : ∀ {x : ℚ}, x ≤ 0 → F.fl x ≤ 0 := fun h => by have := hs.mono h; rwa [f0] at this
  rcases max_choice p lo with e1 | e1 <;> rcases min_choice p hi with e2 | e2 <;> rw [e1, e2]
  · exact (f0' (by linarith)).trans z
  · exact (hs.mono (by linarith)).trans l1
  · exact (hs.mono (by linarith)).trans l2
  · exact (f0' (by linarith)).trans z

omit hs hsq in
theorem S.neg_in {q : ℚ} (hq : InR q) : F.fl (-q) = -F.fl q := by
  have hq' : InR (-q) := by unfold InR; rwa [abs_neg]
  have key : ∀ x y : F64, ∀ q, 1 ≤ Double.mag x → Spec.Double.Rounds q x → Spec.Double.Rounds (-q) y → Spec.Double.val y = -Spec.Double.val x := by
    intro x y q hb hx hy
    obtain ⟨d, e, -, hd⟩ := Double.rounds_near hb hx
    obtain ⟨x', m, n⟩ := Double.mk_mag (Double.mag x) (by have := Double.finite_lt hx.2.1; omega) (!Spec.Double.neg x)
    have hsg : Double.sg (!Spec.Double.neg x) = -Double.sg (Spec.Double.neg x) := Double.sg_ne (by simp)
    rw [Double.near_only (x := x') (y := y) (d := d) (by rw [m]; exact hd) (by omega) ((Double.finite_mag x').2 (by rw [m]; exact Double.finite_lt hx.2.1))
      (by rw [n, hsg, neg_mul, ← e]; exact hy), Double.val_mag, Double.val_mag, m, n, hsg, neg_mul]
  unfold Fp.fl
  by_cases hx : 1 ≤ Double.mag (F.rnd q)
  · exact key _ _ q hx (hF q hq) (hF _ hq')
  · by_cases hy : 1 ≤ Double.mag (F.rnd (-q))
    · have := key _ (F.rnd q) (-q) hy (hF _ hq') (by rw [neg_neg]; exact hF q hq)
      rw [this, neg_neg]
    · rw [Double.val_mag, Double.val_mag, show Double.mag (F.rnd q) = 0 from by omega, show Double.mag (F.rnd (-q)) = 0 from by omega, Double.U_zero]
      simp

/-- C69. With doubles, and indexes in floats, the segments with fixed-point coordinates come in the order of the distances that `tg_point_distance_segment`
computes: the rounded distances of rectangles are lower bounds of the rounded distances of what is inside. -/
theorem C69_ieee_nearest {r : ℚ → ℚ} (hr : Spec.Float32.Rounding r) {k : ℤ} (h1 : -125 ≤ k) (h2 : k ≤ 102) {A : Arith ℚ} {e : Env} (he : e.Ok)
    {pts : List (Pt ℚ)} (hp : ∀ p ∈ pts, GridPt k p) {closed : Bool} {ix : BitVec 32} {ring : Ring ℚ ℚ} (h : newIx (F.ix32 r) A e pts closed ix = some ring)
    (hc : (segments pts closed).length < pts.length ∨ pts.length % spreadOf e ix = 0 ∨ ring.index = none) (p : Pt ℚ) :
    ∃ (l : List (Seg ℚ × Nat)) (N : Nat), l.Perm (segments pts closed).zipIdx ∧
      l.Pairwise (fun a b => ptSegDist (F.ops sq) p a.1 ≤ ptSegDist (F.ops sq) p b.1) ∧
      ∀ (σ : Type) (iter : Seg ℚ → ℚ → Nat → σ → σ × Bool) (st : σ) (fuel : Nat), N ≤ fuel →
        ringNearest (fun _ => true) (F.ix32 r) ring (some fun r _ => (ptRectDist (F.ops sq) p r, 0)) (fun s _ => (ptSegDist (F.ops sq) p s, 0)) iter fuel st =
          some (visit (fun x : Seg ℚ × Nat => iter x.1 (ptSegDist (F.ops sq) p x.1) x.2) l st, true) := by
  have hg : ∀ s ∈ segments pts closed, GridSeg k s := fun s hs => ⟨hp _ (seg_mem_pts hs).1, hp _ (seg_mem_pts hs).2⟩
  refine C29_order_partial (C68_lawful hF hr) he h hc ((C68_fits hF hr h1 h2).tight hg) (ptRectDist (F.ops sq) p) (ptSegDist (F.ops sq) p)
    (fun r r' hr => ieee_rect_mono hs hsq p hr) (fun r s hs' ha hb => ?_)
  have g0 : ∀ f : ℚ, 0 ≤ clamp01 f := fun f => le_min (le_max_right _ _) (by norm_num)
  have g1 : ∀ f : ℚ, clamp01 f ≤ 1 := fun f => min_le_right _ _
  have := hg s hs'
  exact hsq (hs.mono (add_le_add
    (ieee_gap hF hs (by omega) (by omega) this.1.1 this.2.1 (g0 _) (g1 _) ha.1 ha.2.1 hb.1 hb.2.1)
    (ieee_gap hF hs (by omega) (by omega) this.1.2 this.2.2 (g0 _) (g1 _) ha.2.2.1 ha.2.2.2 hb.2.2.1 hb.2.2.2)))

omit hF hs hsq in
/-- A ring that meets the hypotheses. -/
example (r : ℚ → ℚ) : Env.initial.Ok ∧ (∀ p ∈ (boxPts 0 0 10 10 : List (Pt ℚ)), GridPt 0 p) ∧
    (∃ ring, newIx (F.ix32 r) F.arith Env.initial (boxPts 0 0 10 10) true 0#32 = some ring) ∧ (segments (boxPts 0 0 10 10 : List (Pt ℚ)) true).length = 4 :=
  ⟨⟨by decide, by decide⟩, by simpa using box_grid (x0 := 0) (y0 := 0) (x1 := 10) (y1 := 10) (by norm_num),
    newIx_small' (F.ix32 r) (by show 5 < _; decide) F.arith, by decide +kernel⟩

omit hF hs hsq in
/-- There is such arithmetic. -/
example : ∃ F : Fp, Spec.Double.Rounding F.rnd ∧ F.Saturates := by
  obtain ⟨rnd, h, -⟩ := Double.exists_rounding
  obtain ⟨pinf, p1, p2⟩ := Double.mk_mag (2047 * 2 ^ 52) (by norm_num) false
  obtain ⟨ninf, n1, n2⟩ := Double.mk_mag (2047 * 2 ^ 52) (by norm_num) true
  have bound : ∀ q, InR q → |Spec.Double.val (rnd q)| ≤ Double.U (2047 * 2 ^ 52) / 2 ^ 1074 := fun q hq => by
    rw [Double.val_mag, Double.sg_abs, abs_of_nonneg (div_nonneg (Nat.cast_nonneg _) Double.K_pos.le)]
    exact div_le_div_of_nonneg_right (Double.U_cast_le (Double.finite_lt (h q hq).2.1).le) Double.K_pos.le
  have vp : Spec.Double.val pinf = Double.U (2047 * 2 ^ 52) / 2 ^ 1074 := by rw [Double.val_mag, p1, p2]; simp [Double.sg]
  have vn : Spec.Double.val ninf = -(Double.U (2047 * 2 ^ 52) / 2 ^ 1074) := by rw [Double.val_mag, n1, n2, Double.sg, if_pos rfl, neg_one_mul]
  have T0 : (0 : ℚ) ≤ Double.U (2047 * 2 ^ 52) / 2 ^ 1074 := div_nonneg (Nat.cast_nonneg _) Double.K_pos.le
  generalize (Double.U (2047 * 2 ^ 52) / 2 ^ 1074 : ℚ) = T at bound vp vn T0
  classical
  let F0 : Fp := ⟨rnd, fun _ => 0, fun _ => 32⟩
  let F : Fp := ⟨fun q => if InR q then rnd q else if 0 < q then pinf else ninf, fun _ => 0, fun _ => 32⟩
  have e1 : ∀ q, InR q → F.fl q = F0.fl q := fun q hq => by show Spec.Double.val (if InR q then _ else _) = _; rw [if_pos hq]; rfl
  have e2 : ∀ q, ¬ InR q → 0 < q → F.fl q = T := fun q hq h0 => by
    show Spec.Double.val (if InR q then _ else _) = _; rw [if_neg hq, if_pos h0, vp]
  have e3 : ∀ q, ¬ InR q → q ≤ 0 → F.fl q = -T := fun q hq h0 => by
    show Spec.Double.val (if InR q then _ else _) = _; rw [if_neg hq, if_neg (not_lt.2 h0), vn]
  refine ⟨F, fun q hq => ?_, fun a b hab => ?_, fun q => ?_⟩
  · show Spec.Double.Rounds q (if InR q then _ else _)
    rw [if_pos (show InR q from hq)]
    exact h q hq
  · have lo : ∀ q, -T ≤ F.fl q ∧ F.fl q ≤ T := fun q => by
      by_cases hq : InR q
      · rw [e1 q hq]; exact abs_le.1 (bound q hq)
      · rcases le_or_gt q 0 with h0 | h0
        · rw [e3 q hq h0]; constructor <;> linarith
        · rw [e2 q hq h0]; constructor <;> linarith
    by_cases ha : InR a
    · by_cases hb : InR b
      · rw [e1 a ha, e1 b hb]; exact F0.fl_mono h ha hb hab
      · rcases le_or_gt b 0 with h0 | h0
        · refine absurd ?_ hb
          unfold InR at ha ⊢
          rw [abs_of_nonpos h0]
          rw [abs_of_nonpos (hab.trans h0)] at ha
          linarith
        · rw [e2 b hb h0]; exact (lo a).2
    · rcases le_or_gt a 0 with h0 | h0
      · rw [e3 a ha h0]; exact (lo b).1
      · have hb : ¬ InR b := fun hb => ha (by
          unfold InR at hb ⊢
          rw [abs_of_pos h0]
          rw [abs_of_pos (h0.trans_le hab)] at hb
          linarith)
        rw [e2 a ha h0, e2 b hb (h0.trans_le hab)]
  · by_cases hq : InR q
    · rw [e1 q hq, e1 (-q) (by unfold InR; rwa [abs_neg])]
      exact neg_in (F := F0) h hq
    · have hq' : ¬ InR (-q) := by unfold InR; rwa [abs_neg]
      rcases lt_trichotomy q 0 with h0 | h0 | h0
      · rw [e3 q hq h0.le, e2 (-q) hq' (by linarith), neg_neg]
      · exact absurd (h0 ▸ inR_zero) hq
      · rw [e2 q hq h0, e3 (-q) hq' (by linarith)]

end Tg
