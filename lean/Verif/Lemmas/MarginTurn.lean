import Verif.Spec.MarginMeet
import Verif.Lemmas.Margin
import Verif.Lemmas.Orient
import Verif.Lemmas.SharedPlain
/-! The flag `convex` of a ring, for coordinates that are any doubles of usual size. -/
set_option linter.unusedSectionVars false
namespace Tg.S

/-- The same sign. -/
def SignsAgree (z' z : ℚ) : Prop := (z' < 0 ↔ z < 0) ∧ (0 < z' ↔ 0 < z)

theorem Ap.sign {k z' z : ℚ} (h : Ap k z' z) (hk : k < 1) : SignsAgree z' z := by
  obtain ⟨δ, h1, rfl⟩ := h
  have := (_root_.abs_le.1 h1).1
  have hp : 0 < 1 + δ := by linarith
  refine ⟨⟨fun h => ?_, fun h => mul_neg_of_neg_of_pos h hp⟩, mul_pos_iff_of_pos_right hp⟩
  by_contra hc
  exact absurd h (not_lt.2 (mul_nonneg (not_lt.1 hc) hp.le))

variable {F : Fp} (hF : F.Ok) {M : ℚ} (hM : M ≤ 2 ^ 100)
include hF hM

theorem zCross_far {a b c : Pt ℚ} (ha : UsualPt M a) (hb : UsualPt M b) (hc : UsualPt M c)
    (h : Off M ⟨a, b⟩ c ∨ a.x = b.x ∨ a.y = b.y ∨ b.x = c.x ∨ b.y = c.y) : SignsAgree (F.zCross (a, b, c)) (zCross (a, b, c)) := by
  unfold Fp.zCross zCross
  dsimp only
  have aP := mul_ap hF (fun h => diff_mid hM hb.1 ha.1 fun e => h (sub_eq_zero.2 e)) (fun h => diff_mid hM hc.2 hb.2 fun e => h (sub_eq_zero.2 e))
    (sub_ap hF hM hb.1 ha.1) (sub_ap hF hM hc.2 hb.2)
  have aQ := mul_ap hF (fun h => diff_mid hM hb.2 ha.2 fun e => h (sub_eq_zero.2 e)) (fun h => diff_mid hM hc.1 hb.1 fun e => h (sub_eq_zero.2 e))
    (sub_ap hF hM hb.2 ha.2) (sub_ap hF hM hc.1 hb.1)
  have bnd : ∀ {x y : ℚ}, Usual M x → Usual M y → |x - y| ≤ 2 * M := fun hx hy => by
    have := (abs_sub _ _).trans (add_le_add hx.2.2 hy.2.2)
    linarith
  have b1 := bnd hc.2 hb.2
  have b2 := bnd hc.1 hb.1
  have mult : ∃ m : ℤ, (b.x - a.x) * (c.y - b.y) - (b.y - a.y) * (c.x - b.x) = m * 2 ^ (-304 : ℤ) := by
    obtain ⟨n1, e1⟩ := usual_mult ha.1
    obtain ⟨n2, e2⟩ := usual_mult ha.2
    obtain ⟨n3, e3⟩ := usual_mult hb.1
    obtain ⟨n4, e4⟩ := usual_mult hb.2
    obtain ⟨n5, e5⟩ := usual_mult hc.1
    obtain ⟨n6, e6⟩ := usual_mult hc.2
    refine ⟨(n3 - n1) * (n6 - n4) - (n4 - n2) * (n5 - n3), ?_⟩
    rw [e1, e2, e3, e4, e5, e6, show (-304 : ℤ) = -152 + -152 by norm_num, zpow_add₀ (by norm_num)]
    push_cast
    ring
  -- both products approximate, and the difference is not small
  have main : ∀ P' Q' P Q : ℚ, Ap (1 / 2 ^ 51) P' P → Ap (1 / 2 ^ 51) Q' Q → (∃ m : ℤ, P - Q = m * 2 ^ (-304 : ℤ)) → |P - Q| ≤ 2 ^ (400 : ℤ) →
      (1 / 2 ^ 51 * (|P| + |Q|) ≤ 1 / 8 * |P - Q|) → SignsAgree (F.sub P' Q') (P - Q) := by
    intro P' Q' P Q hP hQ hm hb h
    have e : Ap (1 / 8) (P' - Q') (P - Q) := by
      refine ap_of ?_ (by norm_num)
      have := abs_sub_le (P' - Q') (P - Q') (P - Q)
      have k1 : |P' - Q' - (P - Q')| ≤ 1 / 2 ^ 51 * |P| := by rw [show P' - Q' - (P - Q') = P' - P by ring]; exact hP.abs_sub
      have k2 : |P - Q' - (P - Q)| ≤ 1 / 2 ^ 51 * |Q| := by
        rw [show P - Q' - (P - Q) = -(Q' - Q) by ring, abs_neg]; exact hQ.abs_sub
      rw [mul_add] at h
      linarith
    by_cases h0 : P - Q = 0
    · obtain ⟨δ, -, e⟩ := e
      rw [h0, zero_mul] at e
      rw [h0, Fp.sub, e, F.fl_zero hF]
      exact ⟨Iff.rfl, Iff.rfl⟩
    · have mid : Mid 400 (P - Q) := by
        refine ⟨?_, hb⟩
        obtain ⟨m, hm⟩ := hm
        rw [hm, abs_mul, abs_of_pos (zpow_pos (by norm_num : (0 : ℚ) < 2) (-304))]
        have hm0 : m ≠ 0 := by
          rintro rfl
          exact h0 (by rw [hm]; simp)
        have : (1 : ℚ) ≤ |(m : ℚ)| := by exact_mod_cast Int.one_le_abs hm0
        refine le_trans (zpow_le_zpow_right₀ (by norm_num) (by norm_num : (-400 : ℤ) ≤ -304)) ?_
        exact le_mul_of_one_le_left (zpow_nonneg (by norm_num) _) this
      have m2 := mid.ap e (by norm_num)
      exact ((m2.fl hF (by norm_num)).trans e (m := 1 / 4) (by norm_num)).sign (by norm_num)
  have big : ∀ {x y : ℚ}, |x| ≤ 2 * M → |y| ≤ 2 * M → |x * y| ≤ 2 ^ 202 := fun {x y} hx hy => by
    rw [abs_mul]
    calc |x| * |y| ≤ (2 * 2 ^ 100) * (2 * 2 ^ 100) := mul_le_mul (by linarith) (by linarith) (abs_nonneg _) (by norm_num)
      _ = 2 ^ 202 := by norm_num
  have c1 := big (bnd hb.1 ha.1) b1
  have c2 := big (bnd hb.2 ha.2) b2
  refine main _ _ _ _ aP aQ mult ((abs_sub _ _).trans ((add_le_add c1 c2).trans (by rw [← two_mul, ← pow_succ', ← zpow_natCast]; exact zpow_le_zpow_right₀ (by norm_num) (by norm_num)))) ?_
  rcases h with h | h | h | h | h
  · unfold Off cross at h
    dsimp only at h
    have e : (b.x - a.x) * (c.y - a.y) - (b.y - a.y) * (c.x - a.x) = (b.x - a.x) * (c.y - b.y) - (b.y - a.y) * (c.x - b.x) := by ring
    rw [e] at h
    rw [abs_mul, abs_mul]
    have k1 := mul_le_mul_of_nonneg_left b1 (abs_nonneg (b.x - a.x))
    have k2 := mul_le_mul_of_nonneg_left b2 (abs_nonneg (b.y - a.y))
    have p1 := mul_nonneg (abs_nonneg (b.x - a.x)) (abs_nonneg (c.y - b.y))
    have p2 := mul_nonneg (abs_nonneg (b.y - a.y)) (abs_nonneg (c.x - b.x))
    generalize |(b.x - a.x) * (c.y - b.y) - (b.y - a.y) * (c.x - b.x)| = z at *
    generalize |b.x - a.x| * |c.y - b.y| = P at *
    generalize |b.y - a.y| * |c.x - b.x| = Q at *
    have : M * (|b.x - a.x| + |b.y - a.y|) = |b.x - a.x| * M + |b.y - a.y| * M := by ring
    rw [this] at h
    have k1 : P ≤ 2 * (|b.x - a.x| * M) := by linarith
    have k2 : Q ≤ 2 * (|b.y - a.y| * M) := by linarith
    generalize |b.x - a.x| * M = X at *
    generalize |b.y - a.y| * M = Y at *
    norm_num at h ⊢
    linarith
  · rw [h, sub_self, zero_mul, zero_sub, abs_zero, zero_add, abs_neg]
    exact mul_le_mul_of_nonneg_right (by norm_num) (abs_nonneg _)
  · rw [h, sub_self, zero_mul, sub_zero, abs_zero, add_zero]
    exact mul_le_mul_of_nonneg_right (by norm_num) (abs_nonneg _)
  · rw [h, sub_self, mul_zero, sub_zero, abs_zero, add_zero]
    exact mul_le_mul_of_nonneg_right (by norm_num) (abs_nonneg _)
  · rw [h, sub_self, mul_zero, zero_sub, abs_zero, zero_add, abs_neg]
    exact mul_le_mul_of_nonneg_right (by norm_num) (abs_nonneg _)

omit hF hM in
/-- The states agree but for the sum. -/
def Agrees (s t : OState ℚ) : Prop := s.dir = t.dir ∧ s.concave = t.concave

omit hF hM in
theorem conc_same {p : Pt ℚ × Pt ℚ × Pt ℚ} (hp : SignsAgree (F.zCross p) (zCross p)) {s t : OState ℚ} (h : Agrees s t) :
    Agrees (F.conc (F.clock s p) p).1 ((t.clock p).conc p).1 ∧ (F.conc (F.clock s p) p).2 = ((t.clock p).conc p).2 := by
  obtain ⟨h1, h2⟩ := h
  obtain ⟨p1, p2⟩ := hp
  unfold Fp.conc OState.conc Fp.clock OState.clock Agrees
  dsimp only
  simp only [h1, h2, p1, gt_iff_lt, p2]
  split_ifs <;> exact ⟨⟨rfl, rfl⟩, rfl⟩

omit hF hM in
theorem convexLoop_same {g : Nat → Option (Pt ℚ × Pt ℚ × Pt ℚ)} (hg : ∀ i p, g i = some p → SignsAgree (F.zCross p) (zCross p)) :
    ∀ (k i : Nat) (s t : OState ℚ), Agrees s t →
    match F.convexLoop g k i s, convexLoop g k i t with
    | none, none => True
    | some (a, i), some (b, j) => i = j ∧ Agrees a b
    | _, _ => False
  | 0, i, s, t, h => ⟨rfl, h⟩
  | k + 1, i, s, t, h => by
    rw [Fp.convexLoop, convexLoop]
    cases hp : g i with
    | none => trivial
    | some p =>
      dsimp only
      obtain ⟨h1, h2⟩ := conc_same (hg i p hp) h
      generalize F.conc (F.clock s p) p = x at *
      generalize (t.clock p).conc p = y at *
      obtain ⟨x1, x2⟩ := x
      obtain ⟨y1, y2⟩ := y
      dsimp only at h1 h2
      subst h2
      cases x2 with
      | true => exact ⟨rfl, h1⟩
      | false => exact convexLoop_same hg k (i + 1) x1 y1 h1

omit hF hM in
theorem concaveLoop_same {g : Nat → Option (Pt ℚ × Pt ℚ × Pt ℚ)} : ∀ (k i : Nat) (s t : OState ℚ), Agrees s t →
    match F.concaveLoop g k i s, concaveLoop g k i t with
    | none, none => True
    | some (a, i), some (b, j) => i = j ∧ Agrees a b
    | _, _ => False
  | 0, i, s, t, h => ⟨rfl, h⟩
  | k + 1, i, s, t, h => by
    rw [Fp.concaveLoop, concaveLoop]
    cases hp : g i with
    | none => trivial
    | some p => exact concaveLoop_same k (i + 1) (F.clock s p) (t.clock p) h

/-- The flag is exact if the turns are clear. -/
theorem ringConvex_far {pts : List (Pt ℚ)} (hu : ∀ q ∈ pts, UsualPt M q) (ht : TurnsClear M pts) : F.ringConvex pts = ringConvex pts := by
  unfold Fp.ringConvex ringConvex Fp.orient orient
  dsimp only
  by_cases hl : pts.length < 2
  · simp [hl]
  simp only [hl, if_false]
  have g2 : ∀ i p, gatherWrap pts i = some p → SignsAgree (F.zCross p) (zCross p) := by
    intro i p hp
    have hi : i < pts.length := by
      by_contra hc
      unfold gatherWrap at hp
      dsimp only at hp
      rw [List.getElem?_eq_none (by omega : pts.length ≤ i)] at hp
      split at hp <;> simp_all
    obtain ⟨a, b, c, e, ea, eb, ec⟩ := gatherWrap_eq (by omega) hi
    rw [e] at hp
    cases hp
    have mem : ∀ {q j}, (pts ++ pts.take 2)[j]? = some q → UsualPt M q := fun hj => by
      rcases List.mem_append.1 (List.mem_of_getElem? hj) with h | h
      exacts [hu _ h, hu _ (List.mem_of_mem_take h)]
    exact zCross_far hF hM (mem ea) (mem eb) (mem ec) (ht i a b c ea eb ec)
  have g1 : ∀ i p, gatherNoWrap pts i = some p → SignsAgree (F.zCross p) (zCross p) := by
    intro i p hp
    have hi : i + 2 < pts.length := by
      by_contra hc
      unfold gatherNoWrap at hp
      rw [List.getElem?_eq_none (by omega : pts.length ≤ i + 2)] at hp
      split at hp <;> simp_all
    rw [gatherNoWrap_eq hi] at hp
    exact g2 i p hp
  have l1 := convexLoop_same g1 (pts.length - 3) 0 ⟨0, 0, false⟩ ⟨0, 0, false⟩ ⟨rfl, rfl⟩
  generalize F.convexLoop (gatherNoWrap pts) (pts.length - 3) 0 ⟨0, 0, false⟩ = r at l1
  generalize convexLoop (gatherNoWrap pts) (pts.length - 3) 0 ⟨0, 0, false⟩ = r' at l1
  rcases r with - | ⟨s, i⟩ <;> rcases r' with - | ⟨t, j⟩ <;> try exact l1.elim
  · rfl
  obtain ⟨rfl, l1⟩ := l1
  dsimp only
  have l2 := convexLoop_same g2 (pts.length - i) i s t l1
  generalize F.convexLoop (gatherWrap pts) (pts.length - i) i s = r at l2
  generalize convexLoop (gatherWrap pts) (pts.length - i) i t = r' at l2
  rcases r with - | ⟨s, i⟩ <;> rcases r' with - | ⟨t, j⟩ <;> try exact l2.elim
  · rfl
  obtain ⟨rfl, l2⟩ := l2
  dsimp only
  have l3 := concaveLoop_same (F := F) (g := gatherNoWrap pts) (pts.length - 3 - i) i s t l2
  generalize F.concaveLoop (gatherNoWrap pts) (pts.length - 3 - i) i s = r at l3
  generalize concaveLoop (gatherNoWrap pts) (pts.length - 3 - i) i t = r' at l3
  rcases r with - | ⟨s, i⟩ <;> rcases r' with - | ⟨t, j⟩ <;> try exact l3.elim
  · rfl
  obtain ⟨rfl, l3⟩ := l3
  dsimp only
  have l4 := concaveLoop_same (F := F) (g := gatherWrap pts) (pts.length - i) i s t l3
  generalize F.concaveLoop (gatherWrap pts) (pts.length - i) i s = r at l4
  generalize concaveLoop (gatherWrap pts) (pts.length - i) i t = r' at l4
  rcases r with - | ⟨s, i⟩ <;> rcases r' with - | ⟨t, j⟩ <;> try exact l4.elim
  · rfl
  obtain ⟨rfl, l4⟩ := l4
  dsimp only [Option.map_some]
  rw [l4.2]

end Tg.S
