import Verif.Lemmas.SharedIeee
import Verif.Lemmas.SharedGeo
import Verif.Lemmas.TwinShape
import Verif.Lemmas.Float32
import Verif.Model.IeeeOrient
/-! Rings with doubles of any size. -/
set_option linter.unusedSectionVars false
namespace Tg.S.Sh

open Tg.Spec.Double Tg.Double

theorem plain_isD {q : ℚ} (h : Plain q) : IsD q := h.1

theorem plain_abs {q : ℚ} (h : Plain q) : |q| ≤ 2 ^ 990 := by
  rcases h.2 with rfl | ⟨-, h⟩
  · rw [abs_zero]; exact pow_nonneg (by norm_num) _
  · refine h.trans ?_
    rw [← zpow_natCast]
    exact zpow_le_zpow_right₀ (by norm_num) (by norm_num)

theorem U_dvd {b : ℕ} (h : 2 ^ 949 ≤ U b) : 2 ^ 897 ∣ U b := by
  have hlt : U b < 2 ^ 53 * 2 ^ (b / 2 ^ 52 - 1) := by
    unfold U
    refine Nat.mul_lt_mul_of_pos_right ?_ (Nat.two_pow_pos _)
    split_ifs <;> omega
  have hle : 897 ≤ b / 2 ^ 52 - 1 := by
    by_contra hc
    have : 2 ^ 949 < 2 ^ (53 + (b / 2 ^ 52 - 1)) := by rw [pow_add]; exact lt_of_le_of_lt h hlt
    have := (Nat.pow_lt_pow_iff_right (by norm_num : 1 < 2)).1 this
    omega
  unfold U
  exact dvd_mul_of_dvd_right (pow_dvd_pow 2 hle) _

/-- They are whole multiples of 2^-177. -/
theorem plain_scaled {q : ℚ} (h : Plain q) : ∃ m : ℤ, q = m / 2 ^ 177 := by
  obtain ⟨⟨x, -, rfl⟩, hq⟩ := h
  rcases hq with hq | ⟨hq, -⟩
  · exact ⟨0, by rw [hq]; simp⟩
  rw [val_mag] at hq ⊢
  have k0 : (0 : ℚ) < 2 ^ 1074 := K_pos
  have hU : 2 ^ 949 ≤ U (mag x) := by
    have e : |sg (neg x) * ((U (mag x) : ℚ) / 2 ^ 1074)| = (U (mag x) : ℚ) / 2 ^ 1074 := by
      rw [abs_mul, abs_of_nonneg (div_nonneg (Nat.cast_nonneg _) k0.le)]
      unfold sg
      split_ifs <;> simp
    rw [e, le_div_iff₀ k0, ← zpow_natCast, ← zpow_add₀ (by norm_num)] at hq
    rw [show (-125 : ℤ) + ((1074 : ℕ) : ℤ) = ((949 : ℕ) : ℤ) from by norm_num, zpow_natCast] at hq
    exact_mod_cast hq
  obtain ⟨n, hn⟩ := U_dvd hU
  rw [hn]
  have e2 : (((2 : ℕ) ^ 897 * n : ℕ) : ℚ) / 2 ^ 1074 = n / 2 ^ 177 := by
    rw [Nat.cast_mul, Nat.cast_pow, Nat.cast_ofNat, show (2 : ℚ) ^ 1074 = 2 ^ 897 * 2 ^ 177 from by rw [← pow_add],
      mul_div_mul_left _ _ (pow_ne_zero _ (by norm_num))]
  rw [e2]
  unfold sg
  split_ifs
  · exact ⟨-n, by push_cast; ring⟩
  · exact ⟨n, by push_cast; ring⟩

theorem plain_gap {a b : ℚ} (ha : Plain a) (hb : Plain b) (h : a < b) : 2 ^ (-900 : ℤ) ≤ b - a := by
  obtain ⟨m, rfl⟩ := plain_scaled ha
  obtain ⟨n, rfl⟩ := plain_scaled hb
  have k0 : (0 : ℚ) < 2 ^ 177 := by positivity
  rw [div_lt_div_iff_of_pos_right k0] at h
  have h : m + 1 ≤ n := by exact_mod_cast h
  have h : (m : ℚ) + 1 ≤ n := by exact_mod_cast h
  rw [← sub_div, le_div_iff₀ k0]
  have : (2 : ℚ) ^ (-900 : ℤ) * 2 ^ 177 ≤ 1 := by
    rw [← zpow_natCast, ← zpow_add₀ (by norm_num)]
    exact zpow_le_one_of_nonpos₀ (by norm_num) (by norm_num)
  refine this.trans ?_
  linarith

variable {β : Type*} [LinearOrder β] {F : Fp} (hF : F.Ok) (hn : ∀ pts, F.ns pts < 2 ^ 31) {f : Ix ℚ β} (hf : f.Lawful)

theorem closed_leaves {s : Series ℚ} (h : Closed s) {sp : Nat} : LeavesCover s.pts true sp := by
  left
  unfold segments
  have := h.1
  rw [if_neg (by simp), if_neg (by omega), if_pos h.2, edges_length]
  omega

include hF

theorem flat (lo : ℚ) (n : ℕ) (y : ℚ) : F.arith.stripe lo lo n y = none := by
  show F.stripe lo lo n y = none
  unfold Fp.stripe
  dsimp only
  rw [if_pos]
  unfold Fp.sub
  rw [sub_self]
  exact F.fl_zero hF

theorem stripes_height {pts : List (Pt ℚ)} {sp n : Nat} {r : Ring ℚ β} (r1 : RingOk f pts true sp r) (h3 : 3 ≤ pts.length) {st : List (List Nat)}
    (hst : processStripes F.arith r.rect n (segments pts true) = some st) : r.rect.lo.y < r.rect.hi.y := by
  obtain ⟨q, hq⟩ : ∃ q, q ∈ pts := List.exists_mem_of_length_pos (by omega)
  have := r1.rect_has (by omega) q hq
  refine lt_of_le_of_ne (this.2.2.1.trans this.2.2.2) fun heq => ?_
  have hne : segments pts true ≠ [] := by
    intro h
    obtain ⟨s, hs, -⟩ := vertex_seg (closed := true) (by omega) (fun _ => h3) hq
    rw [h] at hs
    cases hs
  match hsg : segments pts true, hne with
  | t :: l, _ =>
    have hfl := fun n y => flat hF r.rect.lo.y n y
    rw [hsg] at hst
    simp only [processStripes, List.zipIdx_cons, List.map_cons, addStripes, stripeRange, ← heq, hfl] at hst
    cases hst

omit hF in
theorem stripes_lt (hn : ∀ pts, F.ns pts < 2 ^ 31) (pts : List (Pt ℚ)) : 0 < stripesOf F.arith pts ∧ stripesOf F.arith pts < 2 ^ 31 :=
  ⟨lt_of_lt_of_le (by norm_num) (le_max_right _ _), max_lt (hn pts) (by norm_num)⟩

include hf

theorem ends_of {s : Series ℚ} (hc : 3 ≤ s.pts.length) (hp : ∀ p ∈ s.pts, Plain p.x ∧ Plain p.y) {r : Ring ℚ β} (ok : s.e.Ok)
    (hr : newIx f F.arith s.e s.pts true s.ix = some r) (hy : r.ystripes ≠ none) : Ends r.rect.lo.y r.rect.hi.y ∧ Plain r.rect.lo.y ∧ Plain r.rect.hi.y := by
  obtain ⟨h1, -, -, h4⟩ := newIx_some hf ok hr
  obtain ⟨st, hst⟩ := Option.ne_none_iff_exists'.1 hy
  obtain ⟨d1, d2⟩ := Ag.rect_in (D := Plain) h1 (by omega) hp
  exact ⟨⟨stripes_height hF h1 hc (h4 st hst), d1.2.1, d2.2.1, plain_abs d1.2, plain_abs d2.2⟩, d1.2, d2.2⟩

include hn

theorem soundBy {s : Series ℚ} (hc : Closed s) (hp : ∀ p ∈ s.pts, Plain p.x ∧ Plain p.y) : SoundBy (F.maker f) s := fun r ok hr =>
  ⟨ok, hr, .inl (closed_leaves hc), fun hy => stripe_law hF (ends_of hF hf hc.1 hp ok hr hy).1 (stripes_lt hn _).2⟩

theorem heldBy {s : Series ℚ} (ok : s.e.Ok) (hc : 3 ≤ s.pts.length) (hp : ∀ p ∈ s.pts, Plain p.x ∧ Plain p.y) {v : Pt ℚ} (hb : Below s.pts v) :
    HeldBy (F.maker f) s v := fun r hr hy => by
  obtain ⟨he, p1, p2⟩ := ends_of hF hf hc hp ok hr hy
  obtain ⟨h1, -⟩ := newIx_some hf ok hr
  obtain ⟨t, t1, t2, hi, hi1, lo, lo1, hb, ht⟩ := hb
  refine ⟨t, t1, t2, fun k hk => ?_⟩
  obtain ⟨-, -, ⟨p3, a3, b3⟩, ⟨p4, a4, b4⟩⟩ := sides h1 (by omega)
  have e1 : lo.y = r.rect.lo.y := le_antisymm (b3 ▸ (hb p3 a3).1) (h1.rect_has (by omega) lo lo1).2.2.1
  have e2 : hi.y = r.rect.hi.y := le_antisymm (h1.rect_has (by omega) hi hi1).2.2.2 (b4 ▸ (hb p4 a4).2)
  rw [e1, e2] at ht
  have := seg_in h1 (by omega) t1
  exact stripe_below hF he (plain_gap p1 p2 he.lt) (stripes_lt hn _).1 (stripes_lt hn _).2 this.2.2.1 ht hk

end Tg.S.Sh

namespace Tg.S.Fp

variable (F : Fp)

theorem convexLoop_some {gather : Nat → Option (Pt ℚ × Pt ℚ × Pt ℚ)} : ∀ (k i : Nat) (s : OState ℚ), (∀ j, i ≤ j → j < i + k → ∃ t, gather j = some t) →
    ∃ s' i', F.convexLoop gather k i s = some (s', i') ∧ i ≤ i' ∧ i' ≤ i + k
  | 0, i, s, _ => ⟨s, i, rfl, le_rfl, le_rfl⟩
  | k + 1, i, s, h => by
    obtain ⟨t, ht⟩ := h i le_rfl (by omega)
    rw [convexLoop, ht]
    dsimp only
    match F.conc (F.clock s t) t with
    | (s', true) => exact ⟨s', i + 1, rfl, by omega, by omega⟩
    | (s', false) =>
      obtain ⟨a, b, h1, h2, h3⟩ := convexLoop_some k (i + 1) s' fun j j1 j2 => h j (by omega) (by omega)
      exact ⟨a, b, h1, by omega, by omega⟩

theorem concaveLoop_some {gather : Nat → Option (Pt ℚ × Pt ℚ × Pt ℚ)} : ∀ (k i : Nat) (s : OState ℚ), (∀ j, i ≤ j → j < i + k → ∃ t, gather j = some t) →
    ∃ s' i', F.concaveLoop gather k i s = some (s', i') ∧ i ≤ i' ∧ i' ≤ i + k
  | 0, i, s, _ => ⟨s, i, rfl, le_rfl, le_rfl⟩
  | k + 1, i, s, h => by
    obtain ⟨t, ht⟩ := h i le_rfl (by omega)
    rw [concaveLoop, ht]
    obtain ⟨a, b, h1, h2, h3⟩ := concaveLoop_some k (i + 1) (F.clock s t) fun j j1 j2 => h j (by omega) (by omega)
    exact ⟨a, b, h1, by omega, by omega⟩

/-- The function that finds the orientation reads no point outside of the array. -/
theorem orient_some (pts : List (Pt ℚ)) : ∃ o, F.orient pts = some o := by
  unfold orient
  dsimp only
  split_ifs with h2
  · exact ⟨_, rfl⟩
  have g1 : ∀ i, i + 2 < pts.length → ∃ t, gatherNoWrap pts i = some t := fun i hi => by
    unfold gatherNoWrap
    rw [List.getElem?_eq_getElem (by omega), List.getElem?_eq_getElem (by omega), List.getElem?_eq_getElem (by omega)]
    exact ⟨_, rfl⟩
  have g2 : ∀ i, i < pts.length → ∃ t, gatherWrap pts i = some t := fun i hi => by
    unfold gatherWrap
    dsimp only
    split_ifs
    all_goals
      dsimp only
      rw [List.getElem?_eq_getElem (by omega), List.getElem?_eq_getElem (by omega), List.getElem?_eq_getElem (by omega)]
      exact ⟨_, rfl⟩
  obtain ⟨s1, i1, e1, -, b1⟩ := F.convexLoop_some (gather := gatherNoWrap pts) (pts.length - 3) 0 ⟨0, 0, false⟩ fun j _ hj => g1 j (by omega)
  rw [e1]
  dsimp only
  obtain ⟨s2, i2, e2, a2, b2⟩ := F.convexLoop_some (gather := gatherWrap pts) (pts.length - i1) i1 s1 fun j _ hj => g2 j (by omega)
  rw [e2]
  dsimp only
  obtain ⟨s3, i3, e3, a3, b3⟩ := F.concaveLoop_some (gather := gatherNoWrap pts) (pts.length - 3 - i2) i2 s2 fun j _ hj => g1 j (by omega)
  rw [e3]
  dsimp only
  obtain ⟨s4, i4, e4, -, -⟩ := F.concaveLoop_some (gather := gatherWrap pts) (pts.length - i3) i3 s3 fun j _ hj => g2 j (by omega)
  rw [e4]
  exact ⟨_, rfl⟩

end Tg.S.Fp
