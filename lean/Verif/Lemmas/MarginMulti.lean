import Verif.Lemmas.MarginAny
/-! `covers` of a second geometry that is a collection of points, lines and polygons, or one of them: the answer exactly, for C90. -/
namespace Tg.S

open Spec.Double Double

section
variable {C : Maker ℚ ℚ} {H : HArith ℚ} {Q : Qsort} {tab : Atom ℚ ℚ → Atom ℚ ℚ → Option Bool} {R : AShape ℚ → AShape ℚ → Prop} (hf : C.f.Lawful)
include hf

theorem geoCovAny_atom_by {ss : List (Shape ℚ)} {gs : List (Geo ℚ ℚ)} (h : Shape.ByAll C H Q ss gs) {y : AShape ℚ} {gb : Geo ℚ ℚ} (hb : (Shape.atom y).By C H Q gb)
    (hw : ∃ w, y.Has w) (ht : ∀ x ∈ Shape.allAtoms ss, ∀ xa yb, x.By C xa → y.By C yb → ∃ r, tab xa yb = some r ∧ (r = true ↔ R x y)) :
    ∃ r, geoCovAny tab gs gb = some r ∧ (r = true ↔ ∃ x ∈ Shape.allAtoms ss, R x y) := by
  have one : ∀ y' ∈ (Shape.atom y).atoms, y' = y := fun y' hy => by simpa [Shape.atoms] using hy
  have ht' : ∀ x ∈ Shape.allAtoms ss, ∀ y' ∈ (Shape.atom y).atoms, ∀ xa yb, x.By C xa → y'.By C yb →
      ∃ r, tab xa yb = some r ∧ (r = true ↔ y' = y ∧ R x y) := by
    intro x hx y' hy xa yb hxa hyb
    rw [one y' hy] at hyb ⊢
    obtain ⟨r, h1, h2⟩ := ht x hx xa yb hxa hyb
    exact ⟨r, h1, by rw [h2]; simp⟩
  obtain ⟨r, h1, h2⟩ := geoCovAny_sound_by (R := fun x y' => y' = y ∧ R x y) (S := fun x _ => R x y) hf (fun x y' h w _ => h.2) h hb ht'
  refine ⟨r, h1, ?_, ?_⟩
  · intro hr
    obtain ⟨w, hw⟩ := hw
    exact h2 hr w (by rw [Shape.Has]; exact hw)
  · rintro ⟨x, hx, hR⟩
    have := geoCovAny_full_by (R := fun x y' => y' = y ∧ R x y) (S := fun x _ => R x y) hf (fun x y' h w _ => h.2) h hb ht' (by simp [Shape.Solid])
      (fun y' hy => by rw [one y' hy]; exact hw) ⟨x, hx, fun y' hy => ⟨one y' hy, hR⟩⟩
    exact Option.some.inj (h1.symm.trans this)

theorem coversLoopG_atoms_by {t : Geo ℚ ℚ → Option Bool} {p : AShape ℚ → Prop} : ∀ {ys : List (AShape ℚ)} {gs : List (Geo ℚ ℚ)}, Shape.ByAll C H Q (ys.map Shape.atom) gs →
    (∀ y ∈ ys, ∀ g, (Shape.atom y).By C H Q g → (∃ w, y.Has w) ∧ ∃ r, t g = some r ∧ (r = true ↔ p y)) →
    ∀ f, ∃ r, coversLoopG t gs f = some r ∧ (r = true ↔ (f = true ∨ ys ≠ []) ∧ ∀ y ∈ ys, p y)
  | [], [], _, _, f => ⟨f, by rw [coversLoopG], by simp⟩
  | y :: ys, g :: gs, h, ht, f => by
    rw [List.map_cons, Shape.ByAll] at h
    obtain ⟨⟨w, hw⟩, r, h1, h2⟩ := ht y (by simp) g h.1
    have he : ¬ g.isEmpty = true := fun he => empty_points_by hf h.1 he w (by rw [Shape.Has]; exact hw)
    rw [coversLoopG, if_neg he, h1]
    cases r with
    | false =>
      refine ⟨false, rfl, ?_⟩
      have : ¬ p y := fun hp => by simpa using h2.2 hp
      simp [this]
    | true =>
      obtain ⟨r, h3, h4⟩ := coversLoopG_atoms_by h.2 (fun y hy => ht y (by simp [hy])) true
      refine ⟨r, h3, ?_⟩
      rw [h4]
      simp [h2.1 rfl]

theorem geoCov_atoms_by {ys : List (AShape ℚ)} (hy : ys ≠ []) (hw : ∀ y ∈ ys, ∃ w, y.Has w) : ∀ {a : Shape ℚ} {ga gb : Geo ℚ ℚ}, a.By C H Q ga →
    (Shape.coll (ys.map Shape.atom)).By C H Q gb →
    (∀ x ∈ a.atoms, ∀ y ∈ ys, ∀ xa yb, x.By C xa → y.By C yb → ∃ r, tab xa yb = some r ∧ (r = true ↔ R x y)) →
    ∃ r, geoCov tab ga gb = some r ∧ (r = true ↔ ∀ y ∈ ys, ∃ x ∈ a.atoms, R x y)
  | .null, .null, gb, _, _, _ => by
    obtain ⟨y, hy⟩ := List.exists_mem_of_ne_nil _ hy
    exact ⟨false, by rw [geoCov], by simpa [Shape.atoms] using ⟨y, hy⟩⟩
  | .empty, .empty, gb, _, _, _ => by
    obtain ⟨y, hy⟩ := List.exists_mem_of_ne_nil _ hy
    exact ⟨false, by rw [geoCov], by simpa [Shape.atoms] using ⟨y, hy⟩⟩
  | .atom x, .atom xa, gb, h, hb, ht => by
    rw [Shape.By] at h
    have hat : (Shape.coll (ys.map Shape.atom)).atoms = ys := by rw [Shape.atoms, allAtoms_map]
    obtain ⟨r, h1, h2⟩ := everyGeo_by (q := R x) hb fun y hy yb hyb => ht x (by simp [Shape.atoms]) y (by rwa [hat] at hy) xa yb h hyb
    refine ⟨r, by rw [geoCov]; exact h1, ?_⟩
    rw [h2, hat]
    have : (Shape.coll (ys.map Shape.atom)).Solid := by
      rw [Shape.Solid]
      exact ⟨by simpa using hy, allSolid_map ys⟩
    simp [this, Shape.atoms]
  | .coll cs, .multi flag gs rect ix ixg, gb, h, hb, ht => by
    rw [Shape.By] at h
    rw [Shape.atoms] at ht ⊢
    cases hfl : flag with
    | true =>
      have := (Shape.ByAll.nil_iff h.2.2).2 (h.1 hfl)
      rw [this]
      obtain ⟨y, hy⟩ := List.exists_mem_of_ne_nil _ hy
      exact ⟨false, by rw [geoCov]; rfl, by simpa [Shape.allAtoms] using ⟨y, hy⟩⟩
    | false =>
      have hp := Shape.parts_by hb
      rw [Shape.parts] at hp
      obtain ⟨r, h1, h2⟩ := coversLoopG_atoms_by (t := fun o => geoCovAny tab gs o) (p := fun y => ∃ x ∈ Shape.allAtoms cs, R x y) hf hp
        (fun y hy g hg => ⟨hw y hy, geoCovAny_atom_by hf h.2.2 hg (hw y hy) fun x hx => ht x hx y hy⟩) false
      refine ⟨r, by rw [geoCov]; exact h1, ?_⟩
      rw [h2]
      simp [hy]
where
  allAtoms_map : ∀ ys : List (AShape ℚ), Shape.allAtoms (ys.map Shape.atom) = ys
    | [] => rfl
    | y :: ys => by rw [List.map_cons, Shape.allAtoms, allAtoms_map ys]; rfl
  allSolid_map : ∀ ys : List (AShape ℚ), Shape.AllSolid (ys.map Shape.atom)
    | [] => by simp [Shape.AllSolid]
    | y :: ys => by rw [List.map_cons, Shape.AllSolid]; exact ⟨by simp [Shape.Solid], allSolid_map ys⟩

theorem geoCov_atom_by {y : AShape ℚ} (hw : ∃ w, y.Has w) : ∀ {a : Shape ℚ} {ga gb : Geo ℚ ℚ}, a.By C H Q ga → (Shape.atom y).By C H Q gb →
    (∀ x ∈ a.atoms, ∀ xa yb, x.By C xa → y.By C yb → ∃ r, tab xa yb = some r ∧ (r = true ↔ R x y)) →
    ∃ r, geoCov tab ga gb = some r ∧ (r = true ↔ ∃ x ∈ a.atoms, R x y)
  | .null, .null, gb, _, _, _ => ⟨false, by rw [geoCov], by simp [Shape.atoms]⟩
  | .empty, .empty, gb, _, _, _ => ⟨false, by rw [geoCov], by simp [Shape.atoms]⟩
  | .atom x, .atom xa, gb, h, hb, ht => by
    rw [Shape.By] at h
    obtain ⟨r, h1, h2⟩ := everyGeo_by (q := R x) hb fun y' hy yb hyb => by
      rw [Shape.atoms, List.mem_singleton] at hy
      rw [hy] at hyb ⊢
      exact ht x (by simp [Shape.atoms]) xa yb h hyb
    exact ⟨r, by rw [geoCov]; exact h1, by rw [h2]; simp [Shape.atoms, Shape.Solid]⟩
  | .coll cs, .multi flag gs rect ix ixg, gb, h, hb, ht => by
    rw [Shape.By] at h
    rw [Shape.atoms] at ht ⊢
    cases hfl : flag with
    | true =>
      have := (Shape.ByAll.nil_iff h.2.2).2 (h.1 hfl)
      rw [this]
      exact ⟨false, by rw [geoCov]; rfl, by simp [Shape.allAtoms]⟩
    | false =>
      have hp := Shape.parts_by hb
      obtain ⟨r, h1, h2⟩ := coversLoopG_atoms_by (t := fun o => geoCovAny tab gs o) (p := fun y => ∃ x ∈ Shape.allAtoms cs, R x y) (ys := [y]) hf hp
        (fun y' hy g hg => by
          rw [List.mem_singleton] at hy
          rw [hy] at hg ⊢
          exact ⟨hw, geoCovAny_atom_by hf h.2.2 hg hw ht⟩) false
      refine ⟨r, by rw [geoCov]; exact h1, ?_⟩
      rw [h2]
      simp

end

/-! ### The answer -/

theorem covers_multi_far {F : Fp} (hF : F.Ok) {M : ℚ} (hM : M ≤ 2 ^ 100) {f : Ix ℚ ℚ} (hf : f.Lawful) (hn : ∀ pts, F.ns pts < 2 ^ 31) {fuel : Nat}
    {H : HArith ℚ} {Q : Qsort} {a : Shape ℚ} {ys : List (AShape ℚ)} {ga gb : Geo ℚ ℚ} (ha : a.By (F.maker f) H Q ga)
    (hb : (Shape.coll (ys.map Shape.atom)).By (F.maker f) H Q gb) (hy : ys ≠ []) (hw : ∀ y ∈ ys, ∃ w, y.Has w)
    (sa : ∀ x ∈ a.atoms, x.Firmly M) (firm : ∀ x ∈ a.atoms, x.Firm) (okb : ∀ y ∈ ys, y.Ok) (sb : ∀ y ∈ ys, y.Sound M)
    (away : ∀ x ∈ a.atoms, ∀ y ∈ ys, x.Away M y) :
    ∃ r, geoCovers ⟨f, F.arith, F.rarith, fuel⟩ ga gb = some r ∧ geoContains ⟨f, F.arith, F.rarith, fuel⟩ ga gb = some r ∧
      (r = true ↔ ∀ y ∈ ys, ∃ x ∈ a.atoms, ∀ w, y.Has w → x.Inner w) := by
  have hat : (Shape.coll (ys.map Shape.atom)).atoms = ys := by rw [Shape.atoms, geoCov_atoms_by.allAtoms_map]
  let P : Par ℚ ℚ := ⟨f, F.arith, F.rarith, fuel⟩
  obtain ⟨r, k1, k2⟩ := geoCov_atoms_by (tab := atomCovers P) (R := fun x y => ∀ w, y.Has w → x.Inner w) (C := F.maker f) hf hy hw ha hb
    fun x hx y hy xa yb hxa hyb => by
      obtain ⟨r, t1, -, t2⟩ := atom_any_far hF hM hf hn hxa hyb (sa x hx) (firm x hx) (okb y hy) (sb y hy) (away x hx y hy) (fuel := fuel)
      exact ⟨r, t1, by rw [t2]; simp [hw y hy]⟩
  have same : geoCov (atomContains P) ga gb = geoCov (atomCovers P) ga gb := geoCov_congr_by ha hb fun x hx y hy xa yb hxa hyb => by
    rw [hat] at hy
    obtain ⟨r, t1, t2, -⟩ := atom_any_far hF hM hf hn hxa hyb (sa x hx) (firm x hx) (okb y hy) (sb y hy) (away x hx y hy) (fuel := fuel)
    rw [t1, t2]
  exact ⟨r, k1, by rw [geoContains]; exact same.trans k1, k2⟩

theorem covers_one_far {F : Fp} (hF : F.Ok) {M : ℚ} (hM : M ≤ 2 ^ 100) {f : Ix ℚ ℚ} (hf : f.Lawful) (hn : ∀ pts, F.ns pts < 2 ^ 31) {fuel : Nat}
    {H : HArith ℚ} {Q : Qsort} {a : Shape ℚ} {y : AShape ℚ} {ga gb : Geo ℚ ℚ} (ha : a.By (F.maker f) H Q ga)
    (hb : (Shape.atom y).By (F.maker f) H Q gb) (hw : ∃ w, y.Has w)
    (sa : ∀ x ∈ a.atoms, x.Firmly M) (firm : ∀ x ∈ a.atoms, x.Firm) (okb : y.Ok) (sb : y.Sound M) (away : ∀ x ∈ a.atoms, x.Away M y) :
    ∃ r, geoCovers ⟨f, F.arith, F.rarith, fuel⟩ ga gb = some r ∧ geoContains ⟨f, F.arith, F.rarith, fuel⟩ ga gb = some r ∧
      (r = true ↔ ∃ x ∈ a.atoms, ∀ w, y.Has w → x.Inner w) := by
  let P : Par ℚ ℚ := ⟨f, F.arith, F.rarith, fuel⟩
  obtain ⟨r, k1, k2⟩ := geoCov_atom_by (tab := atomCovers P) (R := fun x y => ∀ w, y.Has w → x.Inner w) (C := F.maker f) hf hw ha hb
    fun x hx xa yb hxa hyb => by
      obtain ⟨r, t1, -, t2⟩ := atom_any_far hF hM hf hn hxa hyb (sa x hx) (firm x hx) okb sb (away x hx) (fuel := fuel)
      exact ⟨r, t1, by rw [t2]; simp [hw]⟩
  have same : geoCov (atomContains P) ga gb = geoCov (atomCovers P) ga gb := geoCov_congr_by ha hb fun x hx y' hy xa yb hxa hyb => by
    rw [Shape.atoms, List.mem_singleton] at hy
    rw [hy] at hyb
    obtain ⟨r, t1, t2, -⟩ := atom_any_far hF hM hf hn hxa hyb (sa x hx) (firm x hx) okb sb (away x hx) (fuel := fuel)
    rw [t1, t2]
  exact ⟨r, k1, by rw [geoContains]; exact same.trans k1, k2⟩

end Tg.S
