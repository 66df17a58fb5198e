import Verif.Lemmas.MarginTurn
import Verif.Lemmas.MarginMeet
import Verif.Lemmas.TwinShape
/-! Two geometries for coordinates that are any doubles of usual size. -/
set_option linter.unusedSectionVars false
namespace Tg.S

theorem plain_zero : Plain 0 := ⟨by
  have h := isD_int (n := 0) (j := 0) (by norm_num) (by norm_num) (by norm_num)
  rw [Int.cast_zero, zero_mul] at h
  exact h, .inl rfl⟩

/-! ### Simple geometries -/

section
variable {F : Fp} (hF : F.Ok) {M : ℚ} (hM : M ≤ 2 ^ 100) {f : Ix ℚ ℚ} (hf : Ag.Fits Plain f) (hn : ∀ pts, F.ns pts < 2 ^ 31) {fuel : Nat}
include hF hM hf hn

theorem atomX_far {x y : AShape ℚ} {a b : Atom ℚ ℚ} (ha : x.By (F.maker f) a) (hb : y.By (F.maker f) b) (okx : x.Ok) (oky : y.Ok)
    (sx : x.Sound M) (sy : y.Sound M) (hap : x.Apart M y) :
    ∃ r, atomX ⟨f, F.arith, F.rarith, fuel⟩ a b = some r ∧ (r = true ↔ ∃ w, x.Has w ∧ y.Has w) := by
  have swap : ∀ {x y : AShape ℚ}, (∃ w, x.Has w ∧ y.Has w) ↔ ∃ w, y.Has w ∧ x.Has w :=
    ⟨fun ⟨w, h1, h2⟩ => ⟨w, h2, h1⟩, fun ⟨w, h1, h2⟩ => ⟨w, h2, h1⟩⟩
  have pt : ∀ (p : Pt ℚ) (z : AShape ℚ), z.Has p ↔ ∃ w, AShape.Has (.point p) w ∧ z.Has w :=
    fun p z => ⟨fun h => ⟨p, rfl, h⟩, by rintro ⟨w, rfl, h⟩; exact h⟩
  have flags : ∀ {e hs}, AShape.Sound M (.poly e hs) → ∀ h ∈ hs, F.ringConvex h.pts = ringConvex h.pts :=
    fun s h hh => ringConvex_far hF hM (s.1 h (List.mem_cons_of_mem _ hh)).2 (s.2 h hh)
  match x, a, ha, y, b, hb, okx, oky, sx, sy, hap with
  | .point p, .point p', ha, z, b, hb, _, _, sx, _, hap =>
    rw [show p' = p from ha]
    obtain ⟨r, h1, h2⟩ := atom_meets_far hF hM hf.lawful hn (R := F.rarith) (fuel := fuel) hb sx (hap.right p (by simp [AShape.verts]))
    exact ⟨r, h1, h2.trans (pt p z)⟩
  | .line s, .line l, ha, .point p, .point p', hb, _, _, _, sy, hap =>
    rw [show p' = p from hb]
    obtain ⟨r, h1, h2⟩ := atom_meets_far hF hM hf.lawful hn (R := F.rarith) (fuel := fuel) (x := .line s) (a := .line l) ha sy
      (hap.left p (by simp [AShape.verts]))
    exact ⟨r, h1, (h2.trans (pt p _)).trans swap⟩
  | .poly ext holes, .poly q, ha, .point p, .point p', hb, _, _, _, sy, hap =>
    rw [show p' = p from hb]
    obtain ⟨r, h1, h2⟩ := atom_meets_far hF hM hf.lawful hn (R := F.rarith) (fuel := fuel) (x := .poly ext holes) (a := .poly q) ha sy
      (hap.left p (by simp [AShape.verts]))
    exact ⟨r, h1, (h2.trans (pt p _)).trans swap⟩
  | .line s, .line l, ha, .line t, .line m, hb, _, _, sx, sy, hap =>
    exact lines_far hF hM hf ha.1 hb.1 sx sy (fun u hu v hv => hap.rim_sides u hu v hv) ha.2 hb.2
  | .line s, .line l, ha, .poly ext holes, .poly q, hb, _, oky, sx, sy, hap =>
    obtain ⟨r, h1, h2⟩ := poly_line_far hF hM hf.lawful hn (R := F.rarith) (fuel := fuel) hb sy.1 oky (flags sy) ha.1 sx (fun z hz p hp => hap.right p hp z hz)
      (fun z hz u hu v hv => hap.rim_sides u hu v (by simp only [AShape.sides, List.mem_flatMap]; exact ⟨z, hz, hv⟩)) ha.2
    exact ⟨r, h1, h2.trans swap⟩
  | .poly ext holes, .poly q, hb, .line s, .line l, ha, oky, _, sy, sx, hap =>
    exact poly_line_far hF hM hf.lawful hn (R := F.rarith) (fuel := fuel) hb sy.1 oky (flags sy) ha.1 sx (fun z hz p hp => hap.left p hp z hz)
      (fun z hz u hu v hv => (hap.sides_rim v (by simp only [AShape.sides, List.mem_flatMap]; exact ⟨z, hz, hv⟩) u hu).symm hF hM) ha.2
  | .poly ea hs, .poly q, ha, .poly eb ht, .poly r, hb, okx, oky, sx, sy, hap =>
    obtain ⟨b1, b2⟩ := hap.boxes _ _ _ _ rfl rfl
    exact poly_poly_far hF hM hf.lawful hn ha hb sx.1 sy.1 okx oky (flags sx) (flags sy) (fun z hz p hp => hap.left p hp z hz)
      (fun z hz p hp => hap.right p hp z hz)
      (fun z hz u hu v hv => (hap.sides_rim v (by simp only [AShape.sides, List.mem_flatMap]; exact ⟨z, hz, hv⟩) u hu).symm hF hM)
      (fun z hz u hu v hv => hap.rim_sides u hu v (by simp only [AShape.sides, List.mem_flatMap]; exact ⟨z, hz, hv⟩)) b1 b2
end

/-! ### Collections -/

section
variable {D : ℚ → Prop} (d0 : D 0) {C : Maker ℚ ℚ} (hf : Ag.Fits D C.f) {H : HArith ℚ} {Q : Qsort} (hQ : QsortOk Q)

theorem AShape.By.made {x : AShape ℚ} {a : Atom ℚ ℚ} (h : x.By C a) : a.Made C.f C.A := by
  match x, a, h with
  | .point p, .point p', _ => trivial
  | .line s, .line l, h => exact ⟨s.e, s.pts, s.ix, h.1, h.2⟩
  | .poly ext holes, .poly (.ring r), h =>
    intro t ht
    rcases List.mem_cons.1 ht with rfl | ht
    · exact ⟨_, _, _, h.2.ok, h.2.made⟩
    · cases ht
  | .poly ext holes, .poly (.poly e hs), h =>
    intro r hr
    rcases List.mem_cons.1 hr with rfl | hr
    · exact ⟨_, _, _, h.1.ok, h.1.made⟩
    · have hr : r ∈ hs := hr
      obtain ⟨i, hi⟩ := List.mem_iff_getElem?.1 hr
      have := List.forall₂_iff_get.1 h.2
      obtain ⟨hlt, hget⟩ := List.getElem?_eq_some_iff.1 hi
      have h2 := this.2 i (by rw [this.1]; exact hlt) hlt
      simp only [List.get_eq_getElem] at h2
      rw [hget] at h2
      exact ⟨_, _, _, h2.ok, h2.made⟩

include d0 hf

theorem series_in {e : Env} (he : e.Ok) {pts : List (Pt ℚ)} {closed : Bool} {ix : BitVec 32} {r : Ring ℚ ℚ} (h : newIx C.f C.A e pts closed ix = some r)
    (hD : ∀ p ∈ pts, Ag.PtIn D p) : Ag.PtIn D r.rect.lo ∧ Ag.PtIn D r.rect.hi := by
  by_cases h2 : pts.length < 2
  · rw [newIx_short hf.lawful he h h2]
    exact ⟨⟨d0, d0⟩, d0, d0⟩
  · exact Ag.rect_in (newIx_some hf.lawful he h).1 (by omega) hD

theorem atom_in {x : AShape ℚ} {a : Atom ℚ ℚ} (h : x.By C a) (hD : ∀ p ∈ x.verts, Ag.PtIn D p) :
    Ag.PtIn D (Geo.rect (.atom a)).lo ∧ Ag.PtIn D (Geo.rect (.atom a)).hi := by
  match x, a, h with
  | .point p, .point p', h =>
    rw [show p' = p from h]
    have := hD p (by simp [AShape.verts])
    exact ⟨this, this⟩
  | .line s, .line l, h => exact series_in d0 hf h.1 h.2 hD
  | .poly ext holes, .poly (.ring r), h => exact series_in d0 hf h.2.ok h.2.made hD
  | .poly ext holes, .poly (.poly e hs), h => exact series_in d0 hf h.1.ok h.1.made hD

include hQ

mutual
theorem Shape.By.made : ∀ {s : Shape ℚ} {g : Geo ℚ ℚ}, s.By C H Q g → (∀ x ∈ s.atoms, ∀ p ∈ x.verts, Ag.PtIn D p) →
    g.Made C.f C.A H Q ∧ Ag.PtIn D g.rect.lo ∧ Ag.PtIn D g.rect.hi
  | .null, .null, _, _ => ⟨by rw [Geo.Made]; trivial, ⟨d0, d0⟩, d0, d0⟩
  | .empty, .empty, _, _ => ⟨by rw [Geo.Made]; trivial, ⟨d0, d0⟩, d0, d0⟩
  | .atom x, .atom a, h, hD => by
    rw [Shape.By] at h
    exact ⟨by rw [Geo.Made]; exact h.made, atom_in d0 hf h (hD x (by simp [Shape.atoms]))⟩
  | .coll cs, .multi flag gs rect ix ixg, h, hD => by
    rw [Shape.By] at h
    rw [Shape.atoms] at hD
    obtain ⟨k1, k2⟩ := Shape.ByAll.made h.2.2 hD
    refine ⟨by rw [Geo.Made]; exact ⟨h.1, h.2.1, fun c hc => hf.encloses (k2 c hc).1 (k2 c hc).2, k1⟩, ?_⟩
    show Ag.PtIn D rect.lo ∧ Ag.PtIn D rect.hi
    rw [Ag.multi_rect hQ h.2.1]
    cases gs with
    | nil => exact ⟨⟨d0, d0⟩, d0, d0⟩
    | cons y ys =>
      refine Ag.inflate_in _ _ ?_ (k2 y (by simp)).1 (k2 y (by simp)).2
      intro q hq
      obtain ⟨x, hx, rfl⟩ := List.mem_map.1 hq
      exact k2 x (List.mem_cons_of_mem _ hx)
theorem Shape.ByAll.made : ∀ {ss : List (Shape ℚ)} {gs : List (Geo ℚ ℚ)}, Shape.ByAll C H Q ss gs → (∀ x ∈ Shape.allAtoms ss, ∀ p ∈ x.verts, Ag.PtIn D p) →
    AllMade C.f C.A H Q gs ∧ ∀ g ∈ gs, Ag.PtIn D g.rect.lo ∧ Ag.PtIn D g.rect.hi
  | [], [], _, _ => ⟨by rw [AllMade]; trivial, by simp⟩
  | c :: cs, g :: gs, h, hD => by
    rw [Shape.ByAll] at h
    rw [Shape.allAtoms] at hD
    obtain ⟨k1, k2⟩ := Shape.By.made h.1 fun x hx => hD x (List.mem_append_left _ hx)
    obtain ⟨k3, k4⟩ := Shape.ByAll.made h.2 fun x hx => hD x (List.mem_append_right _ hx)
    refine ⟨by rw [AllMade]; exact ⟨k1, k3⟩, fun y hy => ?_⟩
    rcases List.mem_cons.1 hy with rfl | hy
    exacts [k2, k4 y hy]
end

variable {R : RArith ℚ} {fuel : Nat} {b : Geo ℚ ℚ} {q : AShape ℚ → Prop}

mutual
theorem geoX_by : ∀ {s : Shape ℚ} {g : Geo ℚ ℚ}, s.By C H Q g → (∀ x ∈ s.atoms, ∀ p ∈ x.verts, Ag.PtIn D p) →
    (∀ x ∈ s.atoms, ∀ a, x.By C a → ∃ r, someGeo (atomX ⟨C.f, C.A, R, fuel⟩ a) b = some r ∧ (r = true ↔ q x)) →
    ∃ r, geoX ⟨C.f, C.A, R, fuel⟩ b g = some r ∧ (r = true ↔ ∃ x ∈ s.atoms, q x)
  | .null, .null, _, _, _ => ⟨false, by rw [geoX], by simp [Shape.atoms]⟩
  | .empty, .empty, _, _, _ => ⟨false, by rw [geoX], by simp [Shape.atoms]⟩
  | .atom x, .atom a, h, _, ht => by
    rw [Shape.By] at h
    obtain ⟨r, h1, h2⟩ := ht x (by simp [Shape.atoms]) a h
    exact ⟨r, by rw [geoX, h1], by rw [h2]; simp [Shape.atoms]⟩
  | .coll cs, .multi flag gs rect ix ixg, h, hD, ht => by
    have hm := (Shape.By.made d0 hf hQ h hD).1
    rw [Shape.By] at h
    rw [Shape.atoms] at ht hD ⊢
    obtain ⟨k1, k2⟩ := geoXs_by h.2.2 hD ht
    cases hfl : flag with
    | false =>
      rw [hfl] at hm
      refine ⟨_, geoX_multi (P := ⟨C.f, C.A, R, fuel⟩) hf.lawful hf.wide_mono hQ hm k1, ?_⟩
      rw [List.any_eq_true, ← k2]
      simp
    | true =>
      have hg := h.1 hfl
      refine ⟨false, by rw [geoX]; rfl, ?_⟩
      rw [← k2, hg]
      simp
theorem geoXs_by : ∀ {ss : List (Shape ℚ)} {gs : List (Geo ℚ ℚ)}, Shape.ByAll C H Q ss gs → (∀ x ∈ Shape.allAtoms ss, ∀ p ∈ x.verts, Ag.PtIn D p) →
    (∀ x ∈ Shape.allAtoms ss, ∀ a, x.By C a → ∃ r, someGeo (atomX ⟨C.f, C.A, R, fuel⟩ a) b = some r ∧ (r = true ↔ q x)) →
    (∀ c ∈ gs, geoX ⟨C.f, C.A, R, fuel⟩ b c ≠ none) ∧ ((∃ c ∈ gs, geoX ⟨C.f, C.A, R, fuel⟩ b c = some true) ↔ ∃ x ∈ Shape.allAtoms ss, q x)
  | [], [], _, _, _ => by simp [Shape.allAtoms]
  | c :: cs, g :: gs, h, hD, ht => by
    rw [Shape.ByAll] at h
    rw [Shape.allAtoms] at ht hD ⊢
    obtain ⟨r, h1, h2⟩ := geoX_by h.1 (fun x hx => hD x (List.mem_append_left _ hx)) fun x hx => ht x (List.mem_append_left _ hx)
    obtain ⟨h3, h4⟩ := geoXs_by h.2 (fun x hx => hD x (List.mem_append_right _ hx)) fun x hx => ht x (List.mem_append_right _ hx)
    simp only [List.mem_append, or_and_right, exists_or, ← h2, ← h4, List.mem_cons, forall_eq_or_imp, h1]
    exact ⟨⟨by simp, h3⟩, by cases r <;> simp [h1]⟩
end
end

theorem AShape.Sound.verts {M : ℚ} {x : AShape ℚ} (h : x.Sound M) : ∀ p ∈ x.verts, UsualPt M p := by
  match x, h with
  | .point p, h => intro q hq; rw [List.mem_singleton.1 hq]; exact h
  | .line s, h => exact h
  | .poly ext holes, h => exact (h.1 ext (by simp)).2

theorem intersects_far {F : Fp} (hF : F.Ok) {M : ℚ} (hM : M ≤ 2 ^ 100) {f : Ix ℚ ℚ} (hf : Ag.Fits Plain f) (hn : ∀ pts, F.ns pts < 2 ^ 31) {fuel : Nat}
    {H : HArith ℚ} {Q : Qsort} (hQ : QsortOk Q) {a b : Shape ℚ} {ga gb : Geo ℚ ℚ} (ha : a.By (F.maker f) H Q ga) (hb : b.By (F.maker f) H Q gb)
    (oka : ∀ x ∈ a.atoms, x.Ok) (okb : ∀ x ∈ b.atoms, x.Ok) (sa : ∀ x ∈ a.atoms, x.Sound M) (sb : ∀ x ∈ b.atoms, x.Sound M) (hap : a.Apart M b) :
    ∃ r, geoIntersects ⟨f, F.arith, F.rarith, fuel⟩ ga gb = some r ∧ (r = true ↔ ∃ w, a.Has w ∧ b.Has w) := by
  have key : ∀ x ∈ a.atoms, ∀ xa, x.By (F.maker f) xa →
      ∃ r, someGeo (atomX ⟨f, F.arith, F.rarith, fuel⟩ xa) gb = some r ∧ (r = true ↔ ∃ y ∈ b.atoms, ∃ w, x.Has w ∧ y.Has w) := by
    intro x hx xa hxa
    exact someGeo_by hb fun y hy yb hyb => atomX_far hF hM hf hn hxa hyb (oka x hx) (okb y hy) (sa x hx) (sb y hy) (hap x hx y hy)
  obtain ⟨r, h1, h2⟩ := geoX_by plain_zero (C := F.maker f) hf hQ ha
    (fun x hx p hp => ⟨usual_plain hM ((sa x hx).verts p hp).1, usual_plain hM ((sa x hx).verts p hp).2⟩) key
  refine ⟨r, h1, h2.trans ⟨?_, ?_⟩⟩
  · rintro ⟨x, hx, y, hy, w, w1, w2⟩
    exact ⟨w, (a.has_iff w).2 ⟨x, hx, w1⟩, (b.has_iff w).2 ⟨y, hy, w2⟩⟩
  · rintro ⟨w, w1, w2⟩
    obtain ⟨x, hx, w1⟩ := (a.has_iff w).1 w1
    obtain ⟨y, hy, w2⟩ := (b.has_iff w).1 w2
    exact ⟨x, hx, y, hy, w, w1, w2⟩

end Tg.S
