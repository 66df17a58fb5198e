import Mathlib.Analysis.SpecialFunctions.Trigonometric.Deriv
import Mathlib.Analysis.Calculus.Deriv.MeanValue
import Mathlib.Analysis.Calculus.Deriv.Inv
import Mathlib.Analysis.SpecialFunctions.Pow.Real
import Verif.Lemmas.Orient
/-!
The isoperimetric inequality for polygons, after P. Lax: a chain of segments, closed with a segment from its end to its start, has a signed area of less
than the square of its length by `2 π`. Along the chain `y ^ 2 * cot` takes the place of an integral of `y' ^ 2 - y ^ 2`.
-/
namespace Tg.S.Iso

open Real

/-- One segment: `s0` is the length before it, `y0` the height of its start, `(e, d)` its direction, `h` its length. -/
theorem step {c s0 h y0 d e : ℝ} (hc : 0 < c) (h0 : 0 < c * s0) (h1 : c * (s0 + h) < π) (hh : 0 ≤ h) (hp : e ^ 2 + d ^ 2 = h ^ 2) :
    c * (e * (y0 + (y0 + d))) ≤ h - c * ((y0 + d) ^ 2 * (cos (c * (s0 + h)) / sin (c * (s0 + h))) - y0 ^ 2 * (cos (c * s0) / sin (c * s0))) -
      c ^ 2 * (h * d ^ 2) / 12 := by
  rcases hh.eq_or_lt with rfl | hh
  · have hd : d = 0 := by nlinarith [sq_nonneg e, sq_nonneg d]
    have he : e = 0 := by nlinarith [sq_nonneg e, sq_nonneg d]
    subst hd he
    simp
  obtain ⟨a, rfl⟩ : ∃ a, e = a * h := ⟨e / h, by field_simp⟩
  obtain ⟨b, rfl⟩ : ∃ b, d = b * h := ⟨d / h, by field_simp⟩
  have hab : a ^ 2 + b ^ 2 = 1 := by
    have : (a ^ 2 + b ^ 2 - 1) * h ^ 2 = 0 := by linarith
    rcases mul_eq_zero.1 this with h | h
    · linarith
    · exact absurd h (by positivity)
  let G : ℝ → ℝ := fun t => b ^ 2 * t - c ^ 2 * (y0 ^ 2 * t + y0 * b * t ^ 2 + b ^ 2 * t ^ 3 / 3) - c * ((y0 + b * t) ^ 2 * (cos (c * (s0 + t)) / sin (c * (s0 + t))))
  have hsin : ∀ t ∈ Set.Icc 0 h, 0 < sin (c * (s0 + t)) := fun t ht => by
    refine sin_pos_of_pos_of_lt_pi ?_ ?_
    · nlinarith [ht.1]
    · have : c * t ≤ c * h := by nlinarith [ht.2]
      nlinarith
  have hder : ∀ t ∈ Set.Icc 0 h, HasDerivAt G ((b - c * (y0 + b * t) * (cos (c * (s0 + t)) / sin (c * (s0 + t)))) ^ 2) t := fun t ht => by
    have hs := (hsin t ht).ne'
    have d1 : HasDerivAt (fun t : ℝ => c * (s0 + t)) c t := by simpa using ((hasDerivAt_id t).const_add s0).const_mul c
    have d2 := d1.cos.div d1.sin hs
    have d3 : HasDerivAt (fun t : ℝ => y0 + b * t) b t := by simpa using ((hasDerivAt_id t).const_mul b).const_add y0
    have d4 := ((d3.pow 2).mul d2).const_mul c
    have d5 : HasDerivAt (fun t : ℝ => b ^ 2 * t) (b ^ 2) t := by simpa using (hasDerivAt_id t).const_mul (b ^ 2)
    have d6 : HasDerivAt (fun t : ℝ => c ^ 2 * (y0 ^ 2 * t + y0 * b * t ^ 2 + b ^ 2 * t ^ 3 / 3)) (c ^ 2 * (y0 + b * t) ^ 2) t := by
      have e1 := (hasDerivAt_id t).const_mul (y0 ^ 2)
      have e2 := (hasDerivAt_pow 2 t).const_mul (y0 * b)
      have e3 := ((hasDerivAt_pow 3 t).const_mul (b ^ 2)).div_const 3
      have := ((e1.add e2).add e3).const_mul (c ^ 2)
      refine this.congr_deriv ?_
      push_cast
      ring
    refine ((d5.sub d6).sub d4).congr_deriv ?_
    simp only [Pi.pow_apply, Pi.div_apply]
    generalize sin (c * (s0 + t)) = S at *
    generalize cos (c * (s0 + t)) = C at *
    field_simp
    push_cast
    ring_nf
  have hmono : MonotoneOn G (Set.Icc 0 h) := by
    refine monotoneOn_of_deriv_nonneg (convex_Icc 0 h) (fun t ht => (hder t ht).continuousAt.continuousWithinAt)
      (fun t ht => (hder t (interior_subset ht)).differentiableAt.differentiableWithinAt) fun t ht => ?_
    rw [(hder t (interior_subset ht)).deriv]
    exact sq_nonneg _
  have hG := hmono (Set.left_mem_Icc.2 hh.le) (Set.right_mem_Icc.2 hh.le) hh.le
  simp only [G, add_zero, mul_zero] at hG
  have hsq := mul_nonneg hh.le (sq_nonneg (c * (y0 + (y0 + b * h)) / 2 - a))
  have ha : a ^ 2 = 1 - b ^ 2 := by linarith
  generalize cos (c * (s0 + h)) / sin (c * (s0 + h)) = k1 at *
  generalize cos (c * s0) / sin (c * s0) = k0 at *
  have e1 : h * (c * (y0 + (y0 + b * h)) / 2 - a) ^ 2 = h * c ^ 2 * (y0 + (y0 + b * h)) ^ 2 / 4 - c * (a * h * (y0 + (y0 + b * h))) + h * (1 - b ^ 2) := by
    rw [← ha]; ring
  rw [e1] at hsq
  nlinarith

/-- The length of a chain, the end of its height, twice its area, and what is left over. -/
noncomputable def len (l : List (ℝ × ℝ)) : ℝ := (l.map fun v => √(v.1 ^ 2 + v.2 ^ 2)).sum
def rise (l : List (ℝ × ℝ)) : ℝ := (l.map Prod.snd).sum
def area2 : ℝ → List (ℝ × ℝ) → ℝ
  | _, [] => 0
  | y, v :: l => v.1 * (y + (y + v.2)) + area2 (y + v.2) l
noncomputable def gap (l : List (ℝ × ℝ)) : ℝ := (l.map fun v => √(v.1 ^ 2 + v.2 ^ 2) * v.2 ^ 2).sum

theorem len_nonneg (l : List (ℝ × ℝ)) : 0 ≤ len l := List.sum_nonneg (by simp only [List.mem_map]; rintro _ ⟨v, -, rfl⟩; exact sqrt_nonneg _)

theorem gap_nonneg (l : List (ℝ × ℝ)) : 0 ≤ gap l := List.sum_nonneg (by
  simp only [List.mem_map]; rintro _ ⟨v, -, rfl⟩; exact mul_nonneg (sqrt_nonneg _) (sq_nonneg _))

theorem chain {c : ℝ} (hc : 0 < c) : ∀ (l : List (ℝ × ℝ)) (s y : ℝ), 0 < c * s → c * (s + len l) < π →
    c * area2 y l ≤ len l - c * ((y + rise l) ^ 2 * (cos (c * (s + len l)) / sin (c * (s + len l))) - y ^ 2 * (cos (c * s) / sin (c * s))) - c ^ 2 * gap l / 12
  | [], s, y, _, _ => by simp [area2, len, rise, gap]
  | v :: l, s, y, h0, h1 => by
    have hv : 0 ≤ √(v.1 ^ 2 + v.2 ^ 2) := sqrt_nonneg _
    have e1 : len (v :: l) = √(v.1 ^ 2 + v.2 ^ 2) + len l := by simp [len]
    have e2 : rise (v :: l) = v.2 + rise l := by simp [rise]
    have e3 : gap (v :: l) = √(v.1 ^ 2 + v.2 ^ 2) * v.2 ^ 2 + gap l := by simp [gap]
    have hl := len_nonneg l
    rw [e1] at h1
    have a1 := step (c := c) (s0 := s) (h := √(v.1 ^ 2 + v.2 ^ 2)) (y0 := y) (d := v.2) (e := v.1) hc h0
      (lt_of_le_of_lt (by nlinarith) h1) hv (sq_sqrt (by positivity)).symm
    have a2 := chain hc l (s + √(v.1 ^ 2 + v.2 ^ 2)) (y + v.2) (by nlinarith) (by rwa [add_assoc])
    rw [area2, e1, e2, e3, mul_add]
    rw [add_assoc s, add_assoc y] at a2
    linarith

/-- A chain that ends at the height of its start. -/
theorem chain_zero (l : List (ℝ × ℝ)) (h0 : rise l = 0) (hl : 0 < len l) : π * area2 0 l ≤ len l ^ 2 - π ^ 2 * gap l / (24 * len l) := by
  have hg := gap_nonneg l
  have hpi := pi_pos
  refine le_of_forall_pos_le_add fun η hη => ?_
  obtain ⟨δ, d0, d1, d2⟩ : ∃ δ, 0 < δ ∧ 2 * δ ≤ len l ∧ 2 * δ * len l ≤ η :=
    ⟨min (len l / 2) (η / (2 * len l)), lt_min (by positivity) (by positivity), by linarith [min_le_left (len l / 2) (η / (2 * len l))], by
      have := min_le_right (len l / 2) (η / (2 * len l))
      rw [le_div_iff₀ (by positivity)] at this
      linarith⟩
  have hc : 0 < π / (len l + 2 * δ) := by positivity
  have := chain hc l δ 0 (by positivity) (by rw [div_mul_eq_mul_div, div_lt_iff₀ (by positivity)]; nlinarith)
  rw [h0, zero_add] at this
  norm_num at this
  set c := π / (len l + 2 * δ) with hcdef
  have hcm : c * (len l + 2 * δ) = π := by rw [hcdef]; field_simp
  have hc2 : π ≤ c * (2 * len l) := by rw [← hcm]; exact mul_le_mul_of_nonneg_left (by linarith) hc.le
  have k1 : c * area2 0 l * (len l + 2 * δ) ≤ (len l - c ^ 2 * gap l / 12) * (len l + 2 * δ) := mul_le_mul_of_nonneg_right this (by positivity)
  have k2 : c * area2 0 l * (len l + 2 * δ) = π * area2 0 l := by rw [← hcm]; ring
  have k3 : (len l - c ^ 2 * gap l / 12) * (len l + 2 * δ) = len l ^ 2 + 2 * δ * len l - c * π * gap l / 12 := by rw [← hcm]; ring
  rw [k2, k3] at k1
  have k4 : π ^ 2 * gap l / (24 * len l) ≤ c * π * gap l / 12 := by
    rw [div_le_div_iff₀ (by positivity) (by norm_num)]
    have := mul_le_mul_of_nonneg_right hc2 (mul_nonneg hpi.le hg)
    nlinarith
  linarith

theorem area2_flat : ∀ (l : List (ℝ × ℝ)), (∀ v ∈ l, v.2 = 0) → area2 0 l = 0
  | [], _ => rfl
  | v :: l, h => by rw [area2, h v (by simp)]; simpa using area2_flat l fun w hw => h w (by simp [hw])

theorem chain_lt (l : List (ℝ × ℝ)) (h0 : rise l = 0) (hl : 0 < len l) : π * area2 0 l < len l ^ 2 := by
  have h := chain_zero l h0 hl
  have hg := gap_nonneg l
  rcases hg.eq_or_lt with hz | hz
  · have : ∀ v ∈ l, v.2 = 0 := by
      intro v hv
      by_contra hc
      have hpos : 0 < √(v.1 ^ 2 + v.2 ^ 2) * v.2 ^ 2 := by positivity
      have : √(v.1 ^ 2 + v.2 ^ 2) * v.2 ^ 2 ≤ gap l := List.single_le_sum (by
        simp only [List.mem_map]; rintro _ ⟨v, -, rfl⟩; exact mul_nonneg (sqrt_nonneg _) (sq_nonneg _)) _ (List.mem_map.2 ⟨v, hv, rfl⟩)
      linarith
    rw [area2_flat l this]
    simp only [mul_zero]
    positivity
  · have hpi := pi_pos
    have : 0 < π ^ 2 * gap l / (24 * len l) := by positivity
    linarith

/-! ### Chains of points -/

/-- The length of a segment, and of a chain of points. -/
noncomputable def seglen (s : Seg ℝ) : ℝ := √((s.a.x - s.b.x) ^ 2 + (s.a.y - s.b.y) ^ 2)
noncomputable def plen (l : List (Pt ℝ)) : ℝ := ((edges l).map seglen).sum
/-- The sum over a chain that is minus twice the area, if it is closed. -/
noncomputable def cw (l : List (Pt ℝ)) : ℝ := ((edges l).map cwTerm).sum

theorem seglen_nonneg (s : Seg ℝ) : 0 ≤ seglen s := sqrt_nonneg _

theorem plen_nonneg (l : List (Pt ℝ)) : 0 ≤ plen l := List.sum_nonneg (by simp only [List.mem_map]; rintro _ ⟨v, -, rfl⟩; exact sqrt_nonneg _)

theorem plen_cons (a b : Pt ℝ) (l : List (Pt ℝ)) : plen (a :: b :: l) = seglen ⟨a, b⟩ + plen (b :: l) := by simp [plen, edges]

theorem cw_cons (a b : Pt ℝ) (l : List (Pt ℝ)) : cw (a :: b :: l) = cwTerm ⟨a, b⟩ + cw (b :: l) := by simp [cw, edges]

/-- The coordinates of the frame with the origin `o` and the first axis `(u, v)`. -/
def fx (o : Pt ℝ) (u v : ℝ) (p : Pt ℝ) : ℝ := u * (p.x - o.x) + v * (p.y - o.y)
def fy (o : Pt ℝ) (u v : ℝ) (p : Pt ℝ) : ℝ := u * (p.y - o.y) - v * (p.x - o.x)

/-- The steps of a chain in a frame. -/
def incs (o : Pt ℝ) (u v : ℝ) (l : List (Pt ℝ)) : List (ℝ × ℝ) := (edges l).map fun s => (fx o u v s.b - fx o u v s.a, fy o u v s.b - fy o u v s.a)

theorem incs_cons (o : Pt ℝ) (u v : ℝ) (a b : Pt ℝ) (l : List (Pt ℝ)) :
    incs o u v (a :: b :: l) = (fx o u v b - fx o u v a, fy o u v b - fy o u v a) :: incs o u v (b :: l) := by simp [incs, edges]

theorem len_incs {o : Pt ℝ} {u v : ℝ} (h : u ^ 2 + v ^ 2 = 1) (l : List (Pt ℝ)) : len (incs o u v l) = plen l := by
  rw [len, incs, plen, List.map_map]
  congr 1
  refine List.map_congr_left fun s _ => ?_
  simp only [Function.comp, seglen, fx, fy]
  congr 1
  have : (s.a.x - s.b.x) ^ 2 + (s.a.y - s.b.y) ^ 2 = (u ^ 2 + v ^ 2) * ((s.a.x - s.b.x) ^ 2 + (s.a.y - s.b.y) ^ 2) := by rw [h, one_mul]
  rw [this]
  ring

theorem rise_incs (o : Pt ℝ) (u v : ℝ) : ∀ (l : List (Pt ℝ)) (a b : Pt ℝ), l.head? = some a → l.getLast? = some b → rise (incs o u v l) = fy o u v b - fy o u v a
  | [], _, _, h, _ => by simp at h
  | [p], a, b, h, h' => by
    simp only [List.head?_cons, List.getLast?_singleton, Option.some.injEq] at h h'
    subst h h'
    simp [rise, incs, edges]
  | p :: q :: l, a, b, h, h' => by
    simp only [List.head?_cons, Option.some.injEq] at h
    subst h
    have ih := rise_incs o u v (q :: l) q b rfl (by simpa using h')
    rw [incs_cons, rise, List.map_cons, List.sum_cons]
    rw [rise] at ih
    rw [ih]
    ring

theorem area2_incs {o : Pt ℝ} {u v : ℝ} (h1 : u ^ 2 + v ^ 2 = 1) : ∀ (l : List (Pt ℝ)) (a b : Pt ℝ), l.head? = some a → l.getLast? = some b →
    area2 (fy o u v a) (incs o u v l) = cw l + (fx o u v b * fy o u v b - b.x * b.y + o.x * b.y - o.y * b.x) -
      (fx o u v a * fy o u v a - a.x * a.y + o.x * a.y - o.y * a.x)
  | [], _, _, h, _ => by simp at h
  | [p], a, b, h, h' => by
    simp only [List.head?_cons, List.getLast?_singleton, Option.some.injEq] at h h'
    subst h h'
    simp [area2, incs, edges, cw]
  | p :: q :: l, a, b, h, h' => by
    simp only [List.head?_cons, Option.some.injEq] at h
    subst h
    have ih := area2_incs (o := o) h1 (q :: l) q b rfl (by simpa using h')
    rw [incs_cons, area2, cw_cons, add_sub_cancel, ih]
    simp only [fx, fy, cwTerm]
    have e : v ^ 2 = 1 - u ^ 2 := by linarith
    ring_nf
    rw [e]
    ring

/-- A frame in which two points have the same height. -/
theorem exists_frame (a b : Pt ℝ) : ∃ u v : ℝ, u ^ 2 + v ^ 2 = 1 ∧ fy a u v b = 0 := by
  by_cases h : (b.x - a.x) ^ 2 + (b.y - a.y) ^ 2 = 0
  · have hy : b.y - a.y = 0 := by nlinarith [sq_nonneg (b.x - a.x), sq_nonneg (b.y - a.y)]
    exact ⟨1, 0, by norm_num, by simp [fy, hy]⟩
  · have hp : 0 < (b.x - a.x) ^ 2 + (b.y - a.y) ^ 2 := lt_of_le_of_ne (by positivity) (Ne.symm h)
    have hs : √((b.x - a.x) ^ 2 + (b.y - a.y) ^ 2) ^ 2 = (b.x - a.x) ^ 2 + (b.y - a.y) ^ 2 := sq_sqrt hp.le
    have hn : √((b.x - a.x) ^ 2 + (b.y - a.y) ^ 2) ≠ 0 := (sqrt_pos.2 hp).ne'
    refine ⟨(b.x - a.x) / √((b.x - a.x) ^ 2 + (b.y - a.y) ^ 2), (b.y - a.y) / √((b.x - a.x) ^ 2 + (b.y - a.y) ^ 2), ?_, ?_⟩
    · rw [div_pow, div_pow, hs, ← add_div, div_self h]
    · simp only [fy]
      ring

/-- The frame turned over: heights and areas with the other sign. -/
theorem area2_neg : ∀ (l : List (ℝ × ℝ)) (y : ℝ), area2 (-y) (l.map fun v => (v.1, -v.2)) = -area2 y l
  | [], _ => by simp [area2]
  | v :: l, y => by
    have := area2_neg l (y + v.2)
    rw [List.map_cons, area2, area2]
    dsimp only
    rw [← neg_add, this]
    ring

theorem len_neg (l : List (ℝ × ℝ)) : len (l.map fun v => (v.1, -v.2)) = len l := by simp [len, Function.comp_def]

theorem rise_neg : ∀ l : List (ℝ × ℝ), rise (l.map fun v => (v.1, -v.2)) = -rise l
  | [] => by simp [rise]
  | v :: l => by
    have := rise_neg l
    simp only [rise, List.map_cons, List.sum_cons] at this ⊢
    rw [this]
    ring

/-- A chain and the segment from its end to its start. -/
theorem chord {l : List (Pt ℝ)} {a b : Pt ℝ} (ha : l.head? = some a) (hb : l.getLast? = some b) (hl : 0 < plen l) :
    π * |cw l + cwTerm ⟨b, a⟩| < plen l ^ 2 := by
  obtain ⟨u, v, h1, h2⟩ := exists_frame a b
  have e0 : fy a u v a = 0 := by simp [fy]
  have hr := rise_incs a u v l a b ha hb
  rw [h2, e0, sub_zero] at hr
  have har := area2_incs (o := a) h1 l a b ha hb
  rw [e0, h2] at har
  have hle := len_incs (o := a) h1 l
  have e1 : cw l + cwTerm ⟨b, a⟩ = area2 0 (incs a u v l) := by
    rw [har]
    simp only [cwTerm]
    ring
  have k1 := chain_lt (incs a u v l) hr (by rw [hle]; exact hl)
  have k2 := chain_lt ((incs a u v l).map fun v => (v.1, -v.2)) (by rw [rise_neg, hr, neg_zero]) (by rw [len_neg, hle]; exact hl)
  have k3 := area2_neg (incs a u v l) 0
  rw [neg_zero] at k3
  rw [k3, len_neg, hle] at k2
  rw [hle] at k1
  rw [e1]
  rcases abs_cases (area2 0 (incs a u v l)) with ⟨h, -⟩ | ⟨h, -⟩ <;> rw [h]
  · exact k1
  · exact k2

/-- A chain can be cut at any length. -/
theorem cut : ∀ (l : List (Pt ℝ)) (a b : Pt ℝ) (t : ℝ), l.head? = some a → l.getLast? = some b → 0 ≤ t → t ≤ plen l →
    ∃ (m : Pt ℝ) (l1 l2 : List (Pt ℝ)), l1.head? = some a ∧ l1.getLast? = some m ∧ l2.head? = some m ∧ l2.getLast? = some b ∧
      plen l1 = t ∧ plen l2 = plen l - t ∧ cw l1 + cw l2 = cw l
  | [], _, _, _, h, _, _, _ => by simp at h
  | [p], a, b, t, h, h', t0, t1 => by
    simp only [List.head?_cons, List.getLast?_singleton, Option.some.injEq] at h h'
    subst h h'
    have hp : plen [p] = 0 := by simp [plen, edges]
    rw [hp] at t1 ⊢
    have : t = 0 := le_antisymm t1 t0
    subst this
    exact ⟨p, [p], [p], rfl, rfl, rfl, rfl, hp, by rw [hp, sub_zero], by simp [cw, edges]⟩
  | p :: q :: l, a, b, t, h, h', t0, t1 => by
    simp only [List.head?_cons, Option.some.injEq] at h
    subst h
    have hs := seglen_nonneg ⟨p, q⟩
    have hq : (q :: l).getLast? = some b := by simpa using h'
    rcases le_or_gt t (seglen ⟨p, q⟩) with ht | ht
    · obtain ⟨k, k0, k1, hk⟩ : ∃ k : ℝ, 0 ≤ k ∧ k ≤ 1 ∧ k * seglen ⟨p, q⟩ = t := by
        rcases hs.eq_or_lt with h | h
        · exact ⟨0, le_rfl, zero_le_one, by rw [zero_mul]; linarith⟩
        · exact ⟨t / seglen ⟨p, q⟩, div_nonneg t0 hs, (div_le_one h).2 ht, by field_simp⟩
      have d1 : seglen ⟨p, ⟨p.x + k * (q.x - p.x), p.y + k * (q.y - p.y)⟩⟩ = k * seglen ⟨p, q⟩ := by
        simp only [seglen]
        rw [show (p.x - (p.x + k * (q.x - p.x))) ^ 2 + (p.y - (p.y + k * (q.y - p.y))) ^ 2 = k ^ 2 * ((p.x - q.x) ^ 2 + (p.y - q.y) ^ 2) by ring,
          sqrt_mul (sq_nonneg k), sqrt_sq k0]
      have d2 : seglen ⟨⟨p.x + k * (q.x - p.x), p.y + k * (q.y - p.y)⟩, q⟩ = (1 - k) * seglen ⟨p, q⟩ := by
        simp only [seglen]
        rw [show (p.x + k * (q.x - p.x) - q.x) ^ 2 + (p.y + k * (q.y - p.y) - q.y) ^ 2 = (1 - k) ^ 2 * ((p.x - q.x) ^ 2 + (p.y - q.y) ^ 2) by ring,
          sqrt_mul (sq_nonneg _), sqrt_sq (by linarith)]
      refine ⟨⟨p.x + k * (q.x - p.x), p.y + k * (q.y - p.y)⟩, [p, ⟨p.x + k * (q.x - p.x), p.y + k * (q.y - p.y)⟩],
        ⟨p.x + k * (q.x - p.x), p.y + k * (q.y - p.y)⟩ :: q :: l, rfl, rfl, rfl, by simpa using h', ?_, ?_, ?_⟩
      · rw [plen_cons, d1, hk]
        simp [plen, edges]
      · rw [plen_cons, plen_cons, d2, ← hk]
        ring
      · rw [cw_cons, cw_cons, cw_cons]
        simp only [cw, edges, List.map_nil, List.sum_nil, cwTerm]
        ring
    · rw [plen_cons] at t1
      obtain ⟨m, l1, l2, b1, b2, b3, b4, b5, b6, b7⟩ := cut (q :: l) q b (t - seglen ⟨p, q⟩) rfl hq (by linarith) (by linarith)
      cases l1 with
      | nil => simp at b1
      | cons r l1 =>
        simp only [List.head?_cons, Option.some.injEq] at b1
        subst b1
        refine ⟨m, p :: r :: l1, l2, rfl, by simpa using b2, b3, b4, ?_, ?_, ?_⟩
        · rw [plen_cons, b5]; ring
        · rw [b6, plen_cons]; ring
        · rw [cw_cons, cw_cons, ← b7]; ring

/-- The isoperimetric inequality for a closed chain. -/
theorem closed {l : List (Pt ℝ)} {a : Pt ℝ} (ha : l.head? = some a) (hb : l.getLast? = some a) (hl : 0 < plen l) : 2 * π * |cw l| < plen l ^ 2 := by
  obtain ⟨m, l1, l2, b1, b2, b3, b4, b5, b6, b7⟩ := cut l a a (plen l / 2) ha hb (by linarith) (by linarith)
  have k1 := chord b1 b2 (by rw [b5]; linarith)
  have k2 := chord b3 b4 (by rw [b6]; linarith)
  rw [b5] at k1
  rw [b6] at k2
  have e : cw l = (cw l1 + cwTerm ⟨m, a⟩) + (cw l2 + cwTerm ⟨a, m⟩) := by
    rw [← b7]
    simp only [cwTerm]
    ring
  have h3 := abs_add_le (cw l1 + cwTerm ⟨m, a⟩) (cw l2 + cwTerm ⟨a, m⟩)
  rw [← e] at h3
  have := mul_le_mul_of_nonneg_left h3 pi_pos.le
  nlinarith

end Tg.S.Iso
