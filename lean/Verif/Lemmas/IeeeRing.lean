import Verif.Lemmas.Ieee
import Verif.Lemmas.TwinShape
import Verif.Model.IeeeOrient
/-! With doubles and fixed-point coordinates: stripes, orientation and convexity of rings. -/
set_option linter.unusedSectionVars false
namespace Tg.S

open Tg.Spec.Double Tg.Double

variable {F : Fp} (hF : F.Ok) {k : ℤ} (h1 : -400 ≤ k) (h2 : k ≤ 400)
include hF h1 h2

/-! ### Stripes -/

omit h1 h2 in
theorem fl_nat {n : ℕ} (hn : n < 2 ^ 31) : F.fl n = n := by
  have := F.fl_int0 hF (n := (n : ℤ)) (by rw [abs_of_nonneg (by omega)]; omega)
  simpa using this

theorem grid_zero : OnGrid k 0 := ⟨0, by norm_num, by simp⟩

theorem height_pos {lo hi : ℚ} (hlo : OnGrid k lo) (hhi : OnGrid k hi) (h : lo < hi) : F.sub hi lo = hi - lo ∧ 2 ^ k ≤ hi - lo ∧ hi - lo ≤ 2 ^ 25 * 2 ^ k := by
  obtain ⟨e, x⟩ := grid_sub hF h1 h2 hhi hlo
  have hp : 0 < hi - lo := sub_pos.2 h
  refine ⟨e, ?_, ?_⟩
  · have := x.le_abs hp.ne'
    rwa [abs_of_pos hp] at this
  · have := x.abs_le
    rw [abs_of_pos hp] at this
    push_cast at this
    exact this

/-- The position of a height in the ring, between 0 and 1. -/
theorem ratio_grid {lo hi : ℚ} (hlo : OnGrid k lo) (hhi : OnGrid k hi) (h : lo < hi) {y y' : ℚ} (hy : lo ≤ y) (hyy : y ≤ y') (hy' : y' ≤ hi) :
    0 ≤ F.div (F.sub y lo) (F.sub hi lo) ∧ F.div (F.sub y lo) (F.sub hi lo) ≤ F.div (F.sub y' lo) (F.sub hi lo) ∧
      F.div (F.sub y' lo) (F.sub hi lo) ≤ 1 := by
  obtain ⟨e, p1, p2⟩ := height_pos hF h1 h2 hlo hhi h
  have hp : 0 < hi - lo := sub_pos.2 h
  have big : (2 : ℚ) ^ 25 * 2 ^ k ≤ 2 ^ 1020 := by
    rw [← two_split, ← zpow_natCast]
    exact zpow_le_zpow_right₀ (by norm_num) (by push_cast; omega)
  have inr : ∀ z, lo ≤ z → z ≤ hi → InR (z - lo) := fun z z1 z2 => inR_of (by
    rw [abs_of_nonneg (sub_nonneg.2 z1)]
    exact ((sub_le_sub_right z2 lo).trans p2).trans big)
  have b : ∀ z, lo ≤ z → z ≤ hi → 0 ≤ F.sub z lo ∧ F.sub z lo ≤ hi - lo := fun z z1 z2 => by
    refine ⟨F.fl_nonneg hF (inr z z1 z2) (sub_nonneg.2 z1), ?_⟩
    rw [← e]
    exact F.fl_mono hF (inr z z1 z2) (inr hi h.le le_rfl) (sub_le_sub_right z2 lo)
  have m : F.sub y lo ≤ F.sub y' lo := F.fl_mono hF (inr _ hy (hyy.trans hy')) (inr _ (hy.trans hyy) hy') (sub_le_sub_right hyy lo)
  clear big
  have b1 := b y hy (hyy.trans hy')
  have b2 := b y' (hy.trans hyy) hy'
  have q : ∀ z, 0 ≤ z → z ≤ hi - lo → 0 ≤ z / (hi - lo) ∧ z / (hi - lo) ≤ 1 ∧ InR (z / (hi - lo)) := fun z z1 z2 => by
    have a := div_nonneg z1 hp.le
    have c : z / (hi - lo) ≤ 1 := (div_le_one hp).2 z2
    refine ⟨a, c, inR_small ?_⟩
    rw [abs_of_nonneg a]
    exact c.trans (one_le_pow₀ (by norm_num))
  rw [e]
  unfold Fp.div
  simp only [if_neg hp.ne']
  obtain ⟨q1, q2, q3⟩ := q _ b1.1 b1.2
  obtain ⟨r1, r2, r3⟩ := q _ b2.1 b2.2
  refine ⟨F.fl_nonneg hF q3 q1, F.fl_mono hF q3 r3 (div_le_div_of_nonneg_right m hp.le), ?_⟩
  have := F.fl_mono hF r3 inR_one r2
  rwa [F.fl_one hF] at this

omit h1 h2 in
/-- The number of the stripe, from the position. -/
theorem pos_grid {n : ℕ} (hn : n < 2 ^ 31) {t t' : ℚ} (h0 : 0 ≤ t) (ht : t ≤ t') (h1' : t' ≤ 1) :
    0 ≤ F.mul t (F.fl n) ∧ F.mul t (F.fl n) ≤ F.mul t' (F.fl n) ∧ F.mul t' (F.fl n) ≤ n := by
  rw [fl_nat hF hn]
  have hn' : (n : ℚ) ≤ 2 ^ 31 := by exact_mod_cast hn.le
  have n0 : (0 : ℚ) ≤ n := Nat.cast_nonneg n
  have inr : ∀ z, 0 ≤ z → z ≤ 1 → InR (z * n) := fun z z1 z2 => inR_small (by
    rw [abs_of_nonneg (mul_nonneg z1 n0)]
    nlinarith)
  refine ⟨F.fl_nonneg hF (inr t h0 (ht.trans h1')) (mul_nonneg h0 n0),
    F.fl_mono hF (inr t h0 (ht.trans h1')) (inr t' (h0.trans ht) h1') (mul_le_mul_of_nonneg_right ht n0), ?_⟩
  have : F.fl (t' * n) ≤ F.fl (n : ℚ) := F.fl_mono hF (inr t' (h0.trans ht) h1') (inR_small (by rw [abs_of_nonneg n0]; linarith))
    (mul_le_of_le_one_left n0 h1')
  rwa [fl_nat hF hn] at this

theorem stripe_eq {lo hi : ℚ} (hlo : OnGrid k lo) (hhi : OnGrid k hi) (h : lo < hi) {n : ℕ} (hn : n < 2 ^ 31) {y : ℚ} (hy : lo ≤ y) (hy' : y ≤ hi) :
    F.stripe lo hi n y = some ⌊F.mul (F.div (F.sub y lo) (F.sub hi lo)) (F.fl n)⌋ := by
  obtain ⟨e, p1, p2⟩ := height_pos hF h1 h2 hlo hhi h
  obtain ⟨r1, -, r3⟩ := ratio_grid hF h1 h2 hlo hhi h hy le_rfl hy'
  obtain ⟨s1, -, s3⟩ := pos_grid hF hn r1 le_rfl r3
  unfold Fp.stripe
  dsimp only
  rw [if_neg (by rw [e]; exact (sub_pos.2 h).ne')]
  have ht : truncInt (F.mul (F.div (F.sub y lo) (F.sub hi lo)) (F.fl n)) = ⌊F.mul (F.div (F.sub y lo) (F.sub hi lo)) (F.fl n)⌋ := by
    unfold truncInt
    rw [if_pos s1]
  rw [ht]
  have f0 : 0 ≤ ⌊F.mul (F.div (F.sub y lo) (F.sub hi lo)) (F.fl n)⌋ := Int.floor_nonneg.2 s1
  have f1 : ⌊F.mul (F.div (F.sub y lo) (F.sub hi lo)) (F.fl n)⌋ ≤ n := by
    rw [← Int.floor_natCast (R := ℚ) n]
    exact Int.floor_mono s3
  rw [if_pos ⟨by omega, by omega⟩]

theorem ieee_law : Ag.StripeLaw (OnGrid k) (fun n => 32 ≤ n ∧ n < 2 ^ 31) F.arith where
  ok lo hi n hlo hhi h hn := by
    refine ⟨fun y a b => ⟨_, stripe_eq hF h1 h2 hlo hhi h hn.2 a b⟩, fun y j a b e => ?_, fun y y' j j' a b c e e' => ?_⟩
    · rw [show F.arith.stripe = F.stripe from rfl, stripe_eq hF h1 h2 hlo hhi h hn.2 a b] at e
      cases e
      obtain ⟨r1, -, r3⟩ := ratio_grid hF h1 h2 hlo hhi h a le_rfl b
      exact Int.floor_nonneg.2 (pos_grid hF hn.2 r1 le_rfl r3).1
    · rw [show F.arith.stripe = F.stripe from rfl, stripe_eq hF h1 h2 hlo hhi h hn.2 a (b.trans c)] at e
      rw [show F.arith.stripe = F.stripe from rfl, stripe_eq hF h1 h2 hlo hhi h hn.2 (a.trans b) c] at e'
      cases e
      cases e'
      obtain ⟨r1, r2, r3⟩ := ratio_grid hF h1 h2 hlo hhi h a b c
      exact Int.floor_mono (pos_grid hF hn.2 r1 r2 r3).2.1
  top lo hi n hlo hhi h hn := by
    show F.stripe lo hi n hi = _
    rw [stripe_eq hF h1 h2 hlo hhi h hn.2 h.le le_rfl]
    obtain ⟨e, p1, p2⟩ := height_pos hF h1 h2 hlo hhi h
    have hp : 0 < hi - lo := sub_pos.2 h
    have : F.div (F.sub hi lo) (F.sub hi lo) = 1 := by
      rw [e]
      unfold Fp.div
      rw [if_neg hp.ne', div_self hp.ne', F.fl_one hF]
    rw [this]
    unfold Fp.mul
    rw [one_mul, fl_nat hF hn.2, fl_nat hF hn.2, Int.floor_natCast]
  lt lo hi n y j hlo hhi h hn hy a b e := by
    rw [show F.arith.stripe = F.stripe from rfl, stripe_eq hF h1 h2 hlo hhi h hn.2 a b.le] at e
    cases e
    rw [Int.floor_lt]
    obtain ⟨e, p1, p2⟩ := height_pos hF h1 h2 hlo hhi h
    obtain ⟨e2, -⟩ := grid_sub hF h1 h2 hy hlo
    have q1 := (height_pos hF h1 h2 hy hhi b).2.1
    obtain ⟨r1, -, r3⟩ := ratio_grid hF h1 h2 hlo hhi h a le_rfl b.le
    have hp : 0 < hi - lo := sub_pos.2 h
    have hw : (0 : ℚ) < 2 ^ k := zpow_pos (by norm_num) _
    generalize (2 : ℚ) ^ k = w at p1 p2 q1 hw
    have d1 : (y - lo) / (hi - lo) ≤ 1 - 1 / 2 ^ 25 := by
      rw [div_le_iff₀ hp]
      linarith
    have d0 : 0 ≤ (y - lo) / (hi - lo) := div_nonneg (sub_nonneg.2 a) hp.le
    have d2 : F.div (F.sub y lo) (F.sub hi lo) ≤ 1 - 1 / 2 ^ 25 := by
      rw [e, e2]
      unfold Fp.div
      rw [if_neg hp.ne']
      have fe : F.fl (1 - 1 / 2 ^ 25) = 1 - 1 / 2 ^ 25 := by
        have := F.fl_int hF (n := 2 ^ 25 - 1) (j := -25) (by norm_num) (by norm_num) (by norm_num)
        norm_num at this ⊢
        exact this
      rw [← fe]
      exact F.fl_mono hF (inR_small (by rw [abs_of_nonneg d0]; linarith)) (inR_small (by norm_num)) d1
    generalize F.div (F.sub y lo) (F.sub hi lo) = t at *
    rw [fl_nat hF hn.2]
    have n1 : (n : ℚ) ≤ 2 ^ 31 := by exact_mod_cast hn.2.le
    have n0 : (32 : ℚ) ≤ n := by exact_mod_cast hn.1
    have fe : F.fl ((n : ℚ) - 1 / 2 ^ 20) = (n : ℚ) - 1 / 2 ^ 20 := by
      have := F.fl_int hF (n := (n : ℤ) * 2 ^ 20 - 1) (j := -20) (by rw [abs_le]; constructor <;> omega) (by norm_num) (by norm_num)
      have e : (((n : ℤ) * 2 ^ 20 - 1 : ℤ) : ℚ) * 2 ^ (-20 : ℤ) = (n : ℚ) - 1 / 2 ^ 20 := by
        push_cast
        rw [zpow_neg]
        norm_num
        ring
      rwa [e] at this
    have : F.mul t n ≤ (n : ℚ) - 1 / 2 ^ 20 := by
      rw [← fe]
      refine F.fl_mono hF (inR_small ?_) (inR_small ?_) ?_
      · rw [abs_of_nonneg (mul_nonneg r1 (by linarith))]
        nlinarith
      · rw [abs_of_nonneg (by norm_num; linarith)]
        linarith
      · nlinarith
    push_cast
    linarith
  flat lo n y hlo := by
    show F.stripe lo lo n y = none
    unfold Fp.stripe
    dsimp only
    rw [if_pos (by unfold Fp.sub; rw [sub_self, F.fl_zero hF])]

/-! ### Convexity -/

theorem zCross_grid {t : Pt ℚ × Pt ℚ × Pt ℚ} (ha : GridPt k t.1) (hb : GridPt k t.2.1) (hc : GridPt k t.2.2) : F.zCross t = zCross t := by
  unfold Fp.zCross zCross
  obtain ⟨e1, x1⟩ := grid_sub hF h1 h2 hb.1 ha.1
  obtain ⟨e2, x2⟩ := grid_sub hF h1 h2 hc.2 hb.2
  obtain ⟨e3, x3⟩ := grid_sub hF h1 h2 hb.2 ha.2
  obtain ⟨e4, x4⟩ := grid_sub hF h1 h2 hc.1 hb.1
  obtain ⟨m1, y1⟩ := diff_mul hF h1 h2 x1 x2
  obtain ⟨m2, y2⟩ := diff_mul hF h1 h2 x3 x4
  rw [e1, e2, e3, e4, m1, m2, (prod_sub hF h1 h2 y1 y2).1]

/-- The coordinates are multiples of `2 ^ k` by integers up to `M`. -/
def PtEx (M : ℤ) (k : ℤ) (p : Pt ℚ) : Prop := Ex M k p.x ∧ Ex M k p.y

/-- The same state; the sum, after `i` steps, if it is asked for. -/
structure OSim (k M : ℤ) (c : Prop) (i : Nat) (s t : OState ℚ) : Prop where
  dir : s.dir = t.dir
  concave : s.concave = t.concave
  sum : c → s.cwc = t.cwc ∧ Ex (i * (4 * M ^ 2)) (k + k) t.cwc

/-- The points of a step. -/
structure TripIn (k M : ℤ) (c : Prop) (t : Pt ℚ × Pt ℚ × Pt ℚ) : Prop where
  pa : GridPt k t.1
  pb : GridPt k t.2.1
  pc : GridPt k t.2.2
  sum : c → PtEx M k t.1 ∧ PtEx M k t.2.1

/-- One term of the sum. -/
theorem term_grid {M : ℤ} (h0 : 0 ≤ M) (hM : 4 * M ^ 2 ≤ 2 ^ 53) {a b : Pt ℚ} (ha : PtEx M k a) (hb : PtEx M k b) :
    F.mul (F.sub b.x a.x) (F.add b.y a.y) = (b.x - a.x) * (b.y + a.y) ∧ Ex (4 * M ^ 2) (k + k) ((b.x - a.x) * (b.y + a.y)) := by
  have m1 : M + M ≤ 2 ^ 53 := by nlinarith
  have e1 := hb.1.sub ha.1
  have e2 := hb.2.add ha.2
  have e3 : Ex (4 * M ^ 2) (k + k) ((b.x - a.x) * (b.y + a.y)) := (e1.mul e2).mono (by nlinarith)
  unfold Fp.mul Fp.sub Fp.add
  rw [e1.fl hF m1 (by omega) (by omega), e2.fl hF m1 (by omega) (by omega), e3.fl hF hM (by omega) (by omega)]
  exact ⟨rfl, e3⟩

theorem clock_sim {M : ℤ} (h0 : 0 ≤ M) {c : Prop} {i n : Nat} (hi : i < n) (hn : c → n * (4 * M ^ 2) ≤ 2 ^ 53) {s t : OState ℚ} (h : OSim k M c i s t)
    {x : Pt ℚ × Pt ℚ × Pt ℚ} (hx : TripIn k M c x) : OSim k M c (i + 1) (F.clock s x) (t.clock x) := by
  refine ⟨h.dir, h.concave, fun hc => ?_⟩
  obtain ⟨q1, q2⟩ := h.sum hc
  have hn := hn hc
  have p0 : 0 ≤ 4 * M ^ 2 := by positivity
  have hM : 4 * M ^ 2 ≤ 2 ^ 53 := by
    refine le_trans ?_ hn
    exact le_mul_of_one_le_left p0 (by omega)
  obtain ⟨r1, r2⟩ := term_grid hF h1 h2 h0 hM (hx.sum hc).1 (hx.sum hc).2
  have e : Ex (((i + 1 : ℕ) : ℤ) * (4 * M ^ 2)) (k + k) ((t.clock x).cwc) := (q2.add r2).mono (by push_cast; linarith)
  refine ⟨?_, e⟩
  show F.fl (s.cwc + F.mul (F.sub x.2.1.x x.1.x) (F.add x.2.1.y x.1.y)) = t.cwc + _
  rw [r1, q1]
  refine e.fl hF (le_trans ?_ hn) (by omega) (by omega)
  exact mul_le_mul_of_nonneg_right (by omega) p0

theorem conc_sim {M : ℤ} {c : Prop} {i : Nat} {s t : OState ℚ} (h : OSim k M c i s t) {x : Pt ℚ × Pt ℚ × Pt ℚ} (hx : TripIn k M c x) :
    OSim k M c i (F.conc s x).1 (t.conc x).1 ∧ (F.conc s x).2 = (t.conc x).2 := by
  unfold Fp.conc OState.conc
  rw [zCross_grid hF h1 h2 hx.pa hx.pb hx.pc, h.dir]
  dsimp only
  split_ifs <;> exact ⟨⟨by first | rfl | exact h.dir, by first | rfl | exact h.concave, h.sum⟩, rfl⟩

/-- The two results of a loop. -/
def LoopSim (k M : ℤ) (c : Prop) (n : Nat) (r r' : Option (OState ℚ × Nat)) : Prop :=
  match r, r' with
  | none, none => True
  | some (s, i), some (t, j) => i = j ∧ i ≤ n ∧ OSim k M c i s t
  | _, _ => False

theorem convexLoop_sim {M : ℤ} (h0 : 0 ≤ M) {c : Prop} {n : Nat} (hn : c → n * (4 * M ^ 2) ≤ 2 ^ 53) {gather : Nat → Option (Pt ℚ × Pt ℚ × Pt ℚ)}
    (hg : ∀ i x, gather i = some x → TripIn k M c x) : ∀ (m i : Nat) (s t : OState ℚ), i + m ≤ n → OSim k M c i s t →
    LoopSim k M c n (F.convexLoop gather m i s) (convexLoop gather m i t)
  | 0, i, s, t, hi, h => ⟨rfl, hi, h⟩
  | m + 1, i, s, t, hi, h => by
    rw [Fp.convexLoop, convexLoop]
    cases hx : gather i with
    | none => trivial
    | some x =>
      dsimp only
      obtain ⟨c1, c2⟩ := conc_sim hF h1 h2 (clock_sim hF h1 h2 h0 (by omega) hn h (hg i x hx)) (hg i x hx)
      generalize F.conc (F.clock s x) x = u at c1 c2
      generalize (t.clock x).conc x = v at c1 c2
      obtain ⟨u, b⟩ := u
      obtain ⟨v, b'⟩ := v
      obtain rfl : b = b' := c2
      cases b with
      | true => exact ⟨rfl, by omega, c1⟩
      | false => exact convexLoop_sim h0 hn hg m (i + 1) u v (by omega) c1

theorem concaveLoop_sim {M : ℤ} (h0 : 0 ≤ M) {c : Prop} {n : Nat} (hn : c → n * (4 * M ^ 2) ≤ 2 ^ 53) {gather : Nat → Option (Pt ℚ × Pt ℚ × Pt ℚ)}
    (hg : ∀ i x, gather i = some x → TripIn k M c x) : ∀ (m i : Nat) (s t : OState ℚ), i + m ≤ n → OSim k M c i s t →
    LoopSim k M c n (F.concaveLoop gather m i s) (concaveLoop gather m i t)
  | 0, i, s, t, hi, h => ⟨rfl, hi, h⟩
  | m + 1, i, s, t, hi, h => by
    rw [Fp.concaveLoop, concaveLoop]
    cases hx : gather i with
    | none => trivial
    | some x => exact concaveLoop_sim h0 hn hg m (i + 1) _ _ (by omega) (clock_sim hF h1 h2 h0 (by omega) hn h (hg i x hx))

omit hF h1 h2 in
theorem gatherNoWrap_in {M : ℤ} {c : Prop} {pts : List (Pt ℚ)} (hp : ∀ p ∈ pts, GridPt k p) (hc : c → ∀ p ∈ pts, PtEx M k p) (i : Nat)
    (x : Pt ℚ × Pt ℚ × Pt ℚ) (h : gatherNoWrap pts i = some x) : TripIn k M c x := by
  unfold gatherNoWrap at h
  split at h
  · rename_i a b d ea eb ed
    cases h
    have ma := List.mem_of_getElem? ea
    have mb := List.mem_of_getElem? eb
    exact ⟨hp _ ma, hp _ mb, hp _ (List.mem_of_getElem? ed), fun h => ⟨hc h _ ma, hc h _ mb⟩⟩
  · cases h

omit hF h1 h2 in
theorem gatherWrap_in {M : ℤ} {c : Prop} {pts : List (Pt ℚ)} (hp : ∀ p ∈ pts, GridPt k p) (hc : c → ∀ p ∈ pts, PtEx M k p) (i : Nat)
    (x : Pt ℚ × Pt ℚ × Pt ℚ) (h : gatherWrap pts i = some x) : TripIn k M c x := by
  unfold gatherWrap at h
  dsimp only at h
  split at h
  · rename_i a b d ea eb ed
    cases h
    have ma := List.mem_of_getElem? ea
    have mb := List.mem_of_getElem? eb
    exact ⟨hp _ ma, hp _ mb, hp _ (List.mem_of_getElem? ed), fun h => ⟨hc h _ ma, hc h _ mb⟩⟩
  · cases h

theorem last_sim {M : ℤ} (h0 : 0 ≤ M) {c : Prop} {n : Nat} (hn : c → n * (4 * M ^ 2) ≤ 2 ^ 53) {i : Nat} (hi : i ≤ n) {s t : OState ℚ} (h : OSim k M c i s t) :
    (!s.concave) = (!t.concave) ∧
      (c → (⟨!s.concave, decide (s.cwc > 0), |F.div s.cwc 2|⟩ : Orient ℚ) = ⟨!t.concave, decide (t.cwc > 0), |t.cwc / 2|⟩) := by
  refine ⟨by rw [h.concave], fun hc => ?_⟩
  obtain ⟨e, n', b1, b2⟩ := h.sum hc
  have hn := hn hc
  have : F.div t.cwc 2 = t.cwc / 2 := by
    unfold Fp.div
    rw [if_neg (by norm_num)]
    have : Ex (i * (4 * M ^ 2)) (k + k - 1) (t.cwc / 2) := ⟨n', b1, by rw [b2, zpow_sub_one₀ (by norm_num)]; ring⟩
    refine this.fl hF (le_trans ?_ hn) (by omega) (by omega)
    exact mul_le_mul_of_nonneg_right (by omega) (by positivity)
  rw [h.concave, e, this]

theorem orient_sim {M : ℤ} (h0 : 0 ≤ M) {c : Prop} {pts : List (Pt ℚ)} (hp : ∀ p ∈ pts, GridPt k p) (hc : c → ∀ p ∈ pts, PtEx M k p)
    (hn : c → pts.length * (4 * M ^ 2) ≤ 2 ^ 53) :
    match F.orient pts, orient pts with
    | none, none => True
    | some a, some b => a.convex = b.convex ∧ (c → a = b)
    | _, _ => False := by
  unfold Fp.orient orient
  dsimp only
  by_cases hl : pts.length < 2
  · simp [hl]
  simp only [hl, if_false]
  have g1 := gatherNoWrap_in hp hc
  have g2 := gatherWrap_in hp hc
  have l1 := convexLoop_sim hF h1 h2 h0 hn g1 (pts.length - 3) 0 ⟨0, 0, false⟩ ⟨0, 0, false⟩ (by omega)
    ⟨rfl, rfl, fun _ => ⟨rfl, 0, by simp, by simp⟩⟩
  generalize F.convexLoop (gatherNoWrap pts) (pts.length - 3) 0 ⟨0, 0, false⟩ = r at l1
  generalize convexLoop (gatherNoWrap pts) (pts.length - 3) 0 ⟨0, 0, false⟩ = r' at l1
  rcases r with - | ⟨s, i⟩ <;> rcases r' with - | ⟨t, j⟩ <;> try exact l1.elim
  · trivial
  obtain ⟨rfl, hi, l1⟩ := l1
  dsimp only
  have l2 := convexLoop_sim hF h1 h2 h0 hn g2 (pts.length - i) i s t (by omega) l1
  generalize F.convexLoop (gatherWrap pts) (pts.length - i) i s = r at l2
  generalize convexLoop (gatherWrap pts) (pts.length - i) i t = r' at l2
  rcases r with - | ⟨s, i⟩ <;> rcases r' with - | ⟨t, j⟩ <;> try exact l2.elim
  · trivial
  obtain ⟨rfl, hi, l2⟩ := l2
  dsimp only
  by_cases hi3 : pts.length - 3 < i
  · rw [show pts.length - 3 - i = 0 by omega]
    dsimp only [Fp.concaveLoop, concaveLoop]
    have l4 := concaveLoop_sim hF h1 h2 h0 hn g2 (pts.length - i) i s t (by omega) l2
    generalize F.concaveLoop (gatherWrap pts) (pts.length - i) i s = r at l4
    generalize concaveLoop (gatherWrap pts) (pts.length - i) i t = r' at l4
    rcases r with - | ⟨s, i⟩ <;> rcases r' with - | ⟨t, j⟩ <;> try exact l4.elim
    · trivial
    obtain ⟨rfl, hi, l4⟩ := l4
    exact last_sim hF h1 h2 h0 hn hi l4
  have l3 := concaveLoop_sim hF h1 h2 h0 hn g1 (pts.length - 3 - i) i s t (by omega) l2
  generalize F.concaveLoop (gatherNoWrap pts) (pts.length - 3 - i) i s = r at l3
  generalize concaveLoop (gatherNoWrap pts) (pts.length - 3 - i) i t = r' at l3
  rcases r with - | ⟨s, i⟩ <;> rcases r' with - | ⟨t, j⟩ <;> try exact l3.elim
  · trivial
  obtain ⟨rfl, hi, l3⟩ := l3
  dsimp only
  have l4 := concaveLoop_sim hF h1 h2 h0 hn g2 (pts.length - i) i s t (by omega) l3
  generalize F.concaveLoop (gatherWrap pts) (pts.length - i) i s = r at l4
  generalize concaveLoop (gatherWrap pts) (pts.length - i) i t = r' at l4
  rcases r with - | ⟨s, i⟩ <;> rcases r' with - | ⟨t, j⟩ <;> try exact l4.elim
  · trivial
  obtain ⟨rfl, hi, l4⟩ := l4
  exact last_sim hF h1 h2 h0 hn hi l4

/-- The flag `convex` of a ring is exact. -/
theorem ringConvex_grid {pts : List (Pt ℚ)} (hp : ∀ p ∈ pts, GridPt k p) : F.ringConvex pts = ringConvex pts := by
  have := orient_sim hF h1 h2 (M := 0) le_rfl (c := False) hp (fun h => h.elim) (fun h => h.elim)
  unfold Fp.ringConvex ringConvex
  generalize F.orient pts = a at this
  generalize orient pts = b at this
  cases a <;> cases b <;> first | rfl | exact this.elim | exact congrArg some this.1

/-- The flags, and the area, are exact if the sum stays below `2 ^ 53`. -/
theorem orient_grid {M : ℤ} {pts : List (Pt ℚ)} (hp : ∀ p ∈ pts, PtEx M k p) (hM : M ≤ 2 ^ 24) (hn : pts.length * (4 * M ^ 2) ≤ 2 ^ 53) :
    F.orient pts = orient pts := by
  cases pts with
  | nil => rfl
  | cons p ps =>
    have h0 : 0 ≤ M := by
      obtain ⟨n, a, -⟩ := (hp p (by simp)).1
      exact (abs_nonneg n).trans a
    have := orient_sim hF h1 h2 h0 (c := True) (fun q hq => ⟨(hp q hq).1.mono hM, (hp q hq).2.mono hM⟩) (fun _ => hp) (fun _ => hn)
    generalize F.orient (p :: ps) = a at this
    generalize orient (p :: ps) = b at this
    cases a <;> cases b <;> first | rfl | exact this.elim | exact congrArg some (this.2 trivial)

/-! ### The relations of rings -/

theorem area_grid {r : Rect ℚ} (hl : GridPt k r.lo) (hh : GridPt k r.hi) : F.rarith.area r = (exactR (K := ℚ)).area r := by
  show F.mul _ _ = _ * _
  obtain ⟨e1, x1⟩ := grid_sub hF h1 h2 hh.1 hl.1
  obtain ⟨e2, x2⟩ := grid_sub hF h1 h2 hh.2 hl.2
  rw [e1, e2, (diff_mul hF h1 h2 x1 x2).1]

theorem sum_grid {M : ℤ} (h0 : 0 ≤ M) {n : ℕ} (hn : n * (4 * M ^ 2) ≤ 2 ^ 53) (l : List (Pt ℚ × Pt ℚ)) (i : ℕ) (x : ℚ)
    (h : ∀ ab ∈ l, PtEx M k ab.1 ∧ PtEx M k ab.2) (hi : i + l.length ≤ n) (hx : Ex (i * (4 * M ^ 2)) (k + k) x) :
    l.foldl (fun cwc ab => F.add cwc (F.mul (F.sub ab.2.x ab.1.x) (F.add ab.2.y ab.1.y))) x =
      x + (l.map fun ab => (ab.2.x - ab.1.x) * (ab.2.y + ab.1.y)).sum := by
  induction l generalizing i x with
  | nil => simp
  | cons ab l ih =>
    rw [List.foldl_cons, List.map_cons, List.sum_cons]
    rw [List.length_cons] at hi
    have hab := h ab (by simp)
    have p0 : 0 ≤ 4 * M ^ 2 := by positivity
    obtain ⟨r1, r2⟩ := term_grid hF h1 h2 h0 (le_trans (le_mul_of_one_le_left p0 (by omega)) hn) hab.1 hab.2
    have e : Ex (((i + 1 : ℕ) : ℤ) * (4 * M ^ 2)) (k + k) (x + (ab.2.x - ab.1.x) * (ab.2.y + ab.1.y)) := (hx.add r2).mono (by push_cast; linarith)
    have f : F.add x (F.mul (F.sub ab.2.x ab.1.x) (F.add ab.2.y ab.1.y)) = x + (ab.2.x - ab.1.x) * (ab.2.y + ab.1.y) := by
      rw [r1]
      exact e.fl hF (le_trans (mul_le_mul_of_nonneg_right (by omega) p0) hn) (by omega) (by omega)
    rw [f, ih (i + 1) _ (fun y hy => h y (List.mem_cons_of_mem _ hy)) (by omega) e]
    ring

theorem clockwise_grid {l : List (Pt ℚ)} (hl : l.length ≤ 5) (h : ∀ p ∈ l, GridPt k p) : F.rarith.clockwise l = (exactR (K := ℚ)).clockwise l := by
  show decide _ = decide _
  rw [sum_grid hF h1 h2 (M := 2 ^ 24) (n := 4) (by norm_num) (by norm_num) (l.zip (l.drop 1)) 0 0 ?_ ?_ ⟨0, by simp, by simp⟩, zero_add]
  · intro ab hab
    obtain ⟨a, b⟩ := ab
    have := List.of_mem_zip hab
    exact ⟨h _ this.1, h _ (List.mem_of_mem_drop this.2)⟩
  · simp
    omega

end Tg.S
