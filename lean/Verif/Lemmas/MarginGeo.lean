import Verif.Lemmas.MarginRing
/-! Geometries and points for coordinates that are any doubles of usual size. -/
set_option linter.unusedSectionVars false
namespace Tg.S

section
variable {C : Maker ℚ ℚ} {H : HArith ℚ} {Q : Qsort} {tab : Atom ℚ ℚ → Atom ℚ ℚ → Option Bool} {p : Pt ℚ} {q : AShape ℚ → Prop}

mutual
theorem geoCov_pt_by : ∀ {s : Shape ℚ} {g : Geo ℚ ℚ}, s.By C H Q g →
    (∀ x ∈ s.atoms, ∀ a, x.By C a → ∃ r, tab a (.point p) = some r ∧ (r = true ↔ q x)) →
    ∃ r, geoCov tab g (.atom (.point p)) = some r ∧ (r = true ↔ ∃ x ∈ s.atoms, q x)
  | .null, .null, _, _ => ⟨false, by rw [geoCov], by simp [Shape.atoms]⟩
  | .empty, .empty, _, _ => ⟨false, by rw [geoCov], by simp [Shape.atoms]⟩
  | .atom x, .atom a, h, ht => by
    rw [Shape.By] at h
    obtain ⟨r, h1, h2⟩ := ht x (by simp [Shape.atoms]) a h
    exact ⟨r, by rw [geoCov, everyGeo, h1], by rw [h2]; simp [Shape.atoms]⟩
  | .coll cs, .multi flag gs rect ix ixg, h, ht => by
    rw [Shape.By] at h
    rw [Shape.atoms] at ht ⊢
    obtain ⟨r, h1, h2⟩ := geoCovAny_pt_by h.2.2 ht
    rw [geoCov]
    refine ⟨r, ?_, h2⟩
    cases hf : flag with
    | true =>
      rw [h.1 hf, geoCovAny] at h1
      cases h1
      rfl
    | false =>
      simp only [Bool.false_eq_true, if_false, Geo.foreach, coversLoopG, Geo.isEmpty, h1]
      cases r <;> rfl
theorem geoCovAny_pt_by : ∀ {ss : List (Shape ℚ)} {gs : List (Geo ℚ ℚ)}, Shape.ByAll C H Q ss gs →
    (∀ x ∈ Shape.allAtoms ss, ∀ a, x.By C a → ∃ r, tab a (.point p) = some r ∧ (r = true ↔ q x)) →
    ∃ r, geoCovAny tab gs (.atom (.point p)) = some r ∧ (r = true ↔ ∃ x ∈ Shape.allAtoms ss, q x)
  | [], [], _, _ => ⟨false, by rw [geoCovAny], by simp [Shape.allAtoms]⟩
  | c :: cs, g :: gs, h, ht => by
    rw [Shape.ByAll] at h
    rw [Shape.allAtoms] at ht ⊢
    obtain ⟨r, h1, h2⟩ := geoCov_pt_by h.1 fun x hx => ht x (List.mem_append_left _ hx)
    obtain ⟨r', h3, h4⟩ := geoCovAny_pt_by h.2 fun x hx => ht x (List.mem_append_right _ hx)
    rw [geoCovAny, h1]
    simp only [List.mem_append, or_and_right, exists_or, ← h2, ← h4]
    cases r with
    | true => exact ⟨true, rfl, by simp⟩
    | false => exact ⟨r', h3, by simp⟩
end

variable {t : Atom ℚ ℚ → Option Bool}

mutual
theorem someGeo_by : ∀ {s : Shape ℚ} {g : Geo ℚ ℚ}, s.By C H Q g → (∀ x ∈ s.atoms, ∀ a, x.By C a → ∃ r, t a = some r ∧ (r = true ↔ q x)) →
    ∃ r, someGeo t g = some r ∧ (r = true ↔ ∃ x ∈ s.atoms, q x)
  | .null, .null, _, _ => ⟨false, by rw [someGeo], by simp [Shape.atoms]⟩
  | .empty, .empty, _, _ => ⟨false, by rw [someGeo], by simp [Shape.atoms]⟩
  | .atom x, .atom a, h, ht => by
    rw [Shape.By] at h
    obtain ⟨r, h1, h2⟩ := ht x (by simp [Shape.atoms]) a h
    exact ⟨r, by rw [someGeo, h1], by rw [h2]; simp [Shape.atoms]⟩
  | .coll cs, .multi flag gs rect ix ixg, h, ht => by
    rw [Shape.By] at h
    rw [Shape.atoms] at ht
    rw [someGeo, Shape.atoms]
    obtain ⟨r, h1, h2⟩ := someGeos_by h.2.2 ht
    cases hf : flag with
    | false => exact ⟨r, h1, h2⟩
    | true =>
      have hg := h.1 hf
      rw [hg, someGeos] at h1
      cases h1
      exact ⟨false, rfl, h2⟩
theorem someGeos_by : ∀ {ss : List (Shape ℚ)} {gs : List (Geo ℚ ℚ)}, Shape.ByAll C H Q ss gs →
    (∀ x ∈ Shape.allAtoms ss, ∀ a, x.By C a → ∃ r, t a = some r ∧ (r = true ↔ q x)) →
    ∃ r, someGeos t gs = some r ∧ (r = true ↔ ∃ x ∈ Shape.allAtoms ss, q x)
  | [], [], _, _ => ⟨false, by rw [someGeos], by simp [Shape.allAtoms]⟩
  | c :: cs, g :: gs, h, ht => by
    rw [Shape.ByAll] at h
    rw [Shape.allAtoms] at ht ⊢
    obtain ⟨r, h1, h2⟩ := someGeo_by h.1 fun x hx => ht x (List.mem_append_left _ hx)
    obtain ⟨r', h3, h4⟩ := someGeos_by h.2 fun x hx => ht x (List.mem_append_right _ hx)
    rw [someGeos, h1]
    simp only [List.mem_append, or_and_right, exists_or, ← h2, ← h4]
    cases r with
    | true => exact ⟨true, rfl, by simp⟩
    | false => exact ⟨r', h3, by simp⟩
end
end

variable {F : Fp} (hF : F.Ok) {M : ℚ} (hM : M ≤ 2 ^ 100)
include hF hM

theorem Apart.symm {s t : Seg ℚ} (h : Apart M s t) : Apart M t s := by
  rcases h with ⟨a, b, c, d⟩ | h | h
  · exact .inl ⟨c, d, a, b⟩
  · exact .inr (.inl (by rcases h with h | h | h | h <;> simp [h]))
  · exact .inr (.inr fun p hp => h p hp.symm)

/-- Two lines, with any index. -/
theorem lines_far {f : Ix ℚ ℚ} (hf : Ag.Fits Plain f) {R : RArith ℚ} {fuel : Nat} {s t : Series ℚ} (hs : s.e.Ok) (ht : t.e.Ok) (us : ∀ q ∈ s.pts, UsualPt M q)
    (ut : ∀ q ∈ t.pts, UsualPt M q) (ap : ∀ u ∈ edges s.pts, ∀ v ∈ edges t.pts, Apart M u v) {a b : Ring ℚ ℚ}
    (ha : newIx f F.arith s.e s.pts false s.ix = some a) (hb : newIx f F.arith t.e t.pts false t.ix = some b) :
    ∃ r, lineXLine ⟨f, F.arith, R, fuel⟩ a b = some r ∧ (r = true ↔ ∃ w, AShape.Has (.line s) w ∧ AShape.Has (.line t) w) := by
  have hsegs : ∀ qts : List (Pt ℚ), segments qts false = edges qts := fun qts => by rw [segments]; simp
  have tight : ∀ pts : List (Pt ℚ), (∀ q ∈ pts, UsualPt M q) → f.Tight (segments pts false) := fun pts hu =>
    hf.tight fun u hu' => ⟨⟨usual_plain hM (hu _ (seg_mem_pts hu').1).1, usual_plain hM (hu _ (seg_mem_pts hu').1).2⟩,
      usual_plain hM (hu _ (seg_mem_pts hu').2).1, usual_plain hM (hu _ (seg_mem_pts hu').2).2⟩
  obtain ⟨l, -, l2, l3⟩ := ringRingSearch_order.{0} hf.lawful (A := F.arith) (newIx_some hf.lawful hs ha).1 (newIx_some hf.lawful ht hb).1
    (.inl (Ag.leaves_open _ _)) (.inl (Ag.leaves_open _ _)) (tight _ us) (tight _ ut)
  unfold lineXLine
  dsimp only
  rw [show ringRingSearch f F.arith a b (fun _ _ _ _ _ => (true, false)) false = _ from l3 Bool (fun _ _ _ _ _ => (true, false)) false, Option.map_some]
  refine ⟨_, rfl, ?_⟩
  rw [Ag.visitB_first, Ag.ne_nil_iff]
  have key : ∀ u ∈ edges s.pts, ∀ v ∈ edges t.pts, segIntersects (F.arith.order a b) u v = true ↔ Share u v := by
    intro u hu v hv
    have h1 := usual_seg hF hM us (closed := false) (t := u) (by rw [hsegs]; exact hu)
    have h2 := usual_seg hF hM ut (closed := false) (t := v) (by rw [hsegs]; exact hv)
    have h3 := ap u hu v hv
    unfold Arith.order
    split_ifs
    · rw [segIntersects_flip, seg_meet_far hF hM h2 h1 (h3.symm hF hM)]
      exact ⟨fun ⟨p, x, y⟩ => ⟨p, y, x⟩, fun ⟨p, x, y⟩ => ⟨p, y, x⟩⟩
    · exact seg_meet_far hF hM h1 h2 h3
  constructor
  · rintro ⟨⟨⟨u, i⟩, ⟨v, j⟩⟩, hx⟩
    obtain ⟨x1, x2, x3⟩ := (l2 _).1 hx
    have hu : u ∈ edges s.pts := by rw [← hsegs]; exact List.mem_of_getElem? x1.2.2
    have hv : v ∈ edges t.pts := by rw [← hsegs]; exact List.mem_of_getElem? x2.2.2
    obtain ⟨w, w1, w2⟩ := (key u hu v hv).1 x3
    exact ⟨w, ⟨u, hu, w1⟩, v, hv, w2⟩
  · rintro ⟨w, ⟨u, hu, w1⟩, v, hv, w2⟩
    have h3 := (key u hu v hv).2 ⟨w, w1, w2⟩
    rw [← hsegs] at hu hv
    obtain ⟨i, hi⟩ := List.mem_iff_getElem?.1 hu
    obtain ⟨j, hj⟩ := List.mem_iff_getElem?.1 hv
    refine ⟨((u, i), (v, j)), (l2 _).2 ⟨⟨Nat.zero_le _, ?_, hi⟩, ⟨Nat.zero_le _, ?_, hj⟩, h3⟩⟩
    · show i < _
      by_contra hc; rw [List.getElem?_eq_none (by omega)] at hi; cases hi
    · show j < _
      by_contra hc; rw [List.getElem?_eq_none (by omega)] at hj; cases hj

end Tg.S
