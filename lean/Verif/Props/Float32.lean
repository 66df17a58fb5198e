import Verif.Lemmas.Float32
import Verif.Props.IeeeGeo
/-!
C68: the conversion of coordinates to 32-bit floats for indexes. `F.ix32 r` is the conversion: `F` are the doubles, `r` rounds a double to a float
(`Spec/Float32`).
-/
namespace Tg

open S Spec.Float32 Tg.Float32

variable {F : Fp} (hF : Spec.Double.Rounding F.rnd) {r : ℚ → ℚ} (hr : Rounding r)
include hF hr

/-- C68. The conversions are monotone, and the plain conversion is between the others. This is what a search in an index needs. -/
theorem C68_lawful : (F.ix32 r).Lawful := ix32_lawful hr hF

/-- C68. For zero, and for numbers in the range of the normal floats, `fdown` followed by the conversion to float does not go up, and `fup` followed by the
conversion does not go down. -/
theorem C68_encloses {x : ℚ} (hx : x = 0 ∨ 2 ^ (-125 : ℤ) ≤ |x| ∧ |x| ≤ 2 ^ (126 : ℤ)) : r (F.next0 x false) ≤ x ∧ x ≤ r (F.next0 x true) := by
  have h := ix32_fits hr hF
  have e : Fp.clamp x = x := clamp_eq (by
    rcases hx with rfl | ⟨-, h⟩
    · rw [abs_zero]; exact pow_nonneg (by norm_num) _
    · exact h.trans (by rw [← zpow_natCast]; exact zpow_le_zpow_right₀ (by norm_num) (by norm_num)))
  have a := h.down x hx
  have b := h.up x hx
  rw [show (F.ix32 r).wide ((F.ix32 r).down x) = r (F.next0 (Fp.clamp x) false) from rfl, e] at a
  rw [show (F.ix32 r).wide ((F.ix32 r).up x) = r (F.next0 (Fp.clamp x) true) from rfl, e] at b
  exact ⟨a, b⟩

/-- C68. The conversion meets what C67 needs of it. -/
theorem C68_fits {k : ℤ} (h1 : -125 ≤ k) (h2 : k ≤ 102) : Ag.Fits (OnGrid k) (F.ix32 r) := by
  have h := ix32_fits hr hF
  exact ⟨h.lawful, h.wide_mono, fun x hx => h.down x (normal_grid h1 h2 hx), fun x hx => h.up x (normal_grid h1 h2 hx)⟩

/-- C68. With doubles, and with indexes in floats, `tg_geom_intersects` of two geometries with fixed-point coordinates answers whether they have a point
in common. -/
theorem C68_intersects {k : ℤ} (h1 : -125 ≤ k) (h2 : k ≤ 102) (hn : ∀ pts, F.ns pts < 2 ^ 31) {H : HArith ℚ} {Q : Qsort} (hQ : QsortOk Q) (a b : Shape ℚ)
    (da : ∀ p ∈ a.nodes, GridPt k p) (db : ∀ p ∈ b.nodes, GridPt k p) (oka : ∀ x ∈ a.atoms, x.Ok) (okb : ∀ x ∈ b.atoms, x.Ok)
    (fa : ∀ s ∈ a.rings, Fit F.ns s b.verts) (fb : ∀ s ∈ b.rings, Fit F.ns s a.verts) (fuel : Nat) (ga gb : Geo ℚ ℚ)
    (ha : a.By (F.maker (F.ix32 r)) H Q ga) (hb : b.By (F.maker (F.ix32 r)) H Q gb) :
    ∃ v, geoIntersects ⟨F.ix32 r, F.arith, F.rarith, fuel⟩ ga gb = some v ∧ (v = true ↔ ∃ w, a.Has w ∧ b.Has w) :=
  C67_intersects hF (by omega) (by omega) hn (C68_fits hF hr h1 h2) hQ a b da db oka okb fa fb fuel ga gb ha hb

/-- C68 fails for tiny numbers: `fdown` of 3/4 of the smallest float, as a float, is the smallest float. -/
theorem C68_tiny : r (F.next0 (3 / 2 ^ 151) false) = 1 / 2 ^ 149 ∧ (3 / 2 ^ 151 : ℚ) < 1 / 2 ^ 149 := by
  refine ⟨?_, by norm_num⟩
  have e : F.next0 (3 / 2 ^ 151) false = 3 * (2 ^ 23 - 1) / 2 ^ 174 := by
    have := F.fl_int hF (n := 3 * (2 ^ 23 - 1)) (j := -174) (by norm_num) (by norm_num) (by norm_num)
    unfold Fp.next0 Fp.mul
    rw [if_pos (by simp; norm_num)]
    norm_num at this ⊢
    exact this
  rw [e]
  generalize hq : (3 * (2 ^ 23 - 1) / 2 ^ 174 : ℚ) = q
  have hs : |q| < (2 ^ 25 - 1) * 2 ^ 103 := by rw [← hq]; norm_num [abs_lt]
  obtain ⟨n, j, -, j1, -, hz⟩ := hr.float q hs
  have near := hr.near q hs (1 / 2 ^ 149) ⟨1, -149, by norm_num, by norm_num, by norm_num, by norm_num⟩
  obtain ⟨m, hm⟩ : ∃ m : ℤ, r q = m / 2 ^ 149 := by
    refine ⟨n * 2 ^ (j + 149).toNat, ?_⟩
    rw [hz]
    have e : j = ((j + 149).toNat : ℤ) - 149 := by omega
    generalize (j + 149).toNat = i at e
    rw [e, zpow_sub₀ (by norm_num), zpow_natCast]
    push_cast
    rw [← mul_div_assoc]
    norm_num
  rw [hm] at near ⊢
  clear hs hz e
  have b := sq_le_sq.2 near
  have key : ((m : ℚ) - 1) * (m + 1 - 2 * (q * 2 ^ 149)) ≤ 0 := by
    have : (q - m / 2 ^ 149) ^ 2 - (q - 1 / 2 ^ 149) ^ 2 = ((m : ℚ) - 1) * (m + 1 - 2 * (q * 2 ^ 149)) / (2 ^ 149) ^ 2 := by
      field_simp
      ring
    have h2 : ((m : ℚ) - 1) * (m + 1 - 2 * (q * 2 ^ 149)) / (2 ^ 149) ^ 2 ≤ 0 := by linarith
    rwa [div_le_iff₀ (by norm_num), zero_mul] at h2
  have q1 : 1 < 2 * (q * 2 ^ 149) := by rw [← hq]; norm_num
  have q2 : 2 * (q * 2 ^ 149) < 3 / 2 := by rw [← hq]; norm_num
  generalize 2 * (q * 2 ^ 149) = t at key q1 q2
  have : m = 1 := by
    by_contra hne
    rcases lt_or_gt_of_ne hne with h | h
    · have : (m : ℚ) ≤ 0 := by exact_mod_cast (show m ≤ 0 by omega)
      nlinarith
    · have : (2 : ℚ) ≤ m := by exact_mod_cast h
      nlinarith
  rw [this, Int.cast_one]

/-- C68 fails for huge numbers: `fdown` of 2^200, as a float, is infinite. -/
theorem C68_huge : r (F.next0 (2 ^ 200) false) = inf ∧ (2 : ℚ) ^ 200 < inf := by
  constructor
  · have e : F.next0 (2 ^ 200) false = 2 ^ 200 * (1 - 1 / 8388608) := by
      have := F.fl_int hF (n := 2 ^ 23 - 1) (j := 177) (by norm_num) (by norm_num) (by norm_num)
      unfold Fp.next0 Fp.mul
      rw [if_pos (by simp)]
      norm_num at this ⊢
      exact this
    rw [e]
    exact hr.large _ (by norm_num)
  · unfold inf
    exact pow_lt_pow_right₀ (by norm_num) (by norm_num)

omit hF hr in
theorem S.multiNew_ix {γ : Type*} {f g : Ix ℚ ℚ} {H : HArith ℚ} {Q : Qsort} {rectOf : γ → Rect ℚ} {geoms : List γ}
    (h : ∀ x ∈ geoms, f.rect (rectOf x) = g.rect (rectOf x)) : multiNew f H Q rectOf geoms = multiNew g H Q rectOf geoms := by
  unfold multiNew
  dsimp only
  split_ifs
  · unfold inflateIndex
    dsimp only
    split
    · rfl
    · split
      · rfl
      · rename_i hs _ _ rects e
        have : rects.map f.rect = rects.map g.rect := List.map_congr_left fun r hr => by
          obtain ⟨h1, h2⟩ := mapM_some_iff e
          obtain ⟨i, hi, rfl⟩ := List.mem_iff_getElem.1 hr
          obtain ⟨y, h3, h4⟩ := h2 i _ (List.getElem?_eq_getElem (by rw [← h1]; exact hi))
          rw [List.getElem?_eq_getElem hi] at h3
          cases h3
          obtain ⟨x, hx, h4⟩ := Option.map_eq_some_iff.1 h4
          rw [← h4]
          exact h x (List.mem_of_getElem? hx)
        rw [this]
  · rfl

omit hF hr in
theorem S.geoXs_points (P P' : Par ℚ ℚ) (p : Pt ℚ) : ∀ l : List (Pt ℚ),
    geoXs P (.atom (.point p)) (l.map fun q => .atom (.point q)) = geoXs P' (.atom (.point p)) (l.map fun q => .atom (.point q))
  | [] => by simp only [List.map_nil, geoXs]
  | q :: l => by
    simp only [List.map_cons, geoXs, geoX, someGeo, geoXs_points P P' p l]
    rfl

/-- The points (2^200 n, 2^200 n) for n from 1 to 64. -/
def S.hugePts : List (Pt ℚ) := (List.range 64).map fun i : Nat => ⟨2 ^ 200 * (i + 1), 2 ^ 200 * (i + 1)⟩
def S.hugeGeo : List (Geo ℚ ℚ) := hugePts.map fun q => .atom (.point q)
def S.infIx : Ix ℚ ℚ := ⟨fun _ => inf, fun _ => inf, fun _ => 0, fun x => x⟩

omit hF hr in
set_option maxRecDepth 100000 in
theorem S.huge_missed : (multiNew infIx exactH insertionQsort Geo.rect hugeGeo).map (fun m =>
    geoIntersects ⟨infIx, exact 1 (fun _ => 0), exactR, 0⟩ (.multi false hugeGeo m.rect m.index m.ixgeoms) (.atom (.point ⟨2 ^ 200, 2 ^ 200⟩))) = some (some false) := by
  decide +kernel

/-- C68. This makes the search miss: in a collection of 64 points with coordinates beyond the range of floats, which has an index, none is found. The
first of the points is the one that is asked for, and the answer of `tg_geom_intersects` is false. -/
theorem C68_huge_missed (fuel : Nat) : ∃ m, multiNew (F.ix32 r) exactH insertionQsort Geo.rect hugeGeo = some m ∧
    geoIntersects ⟨F.ix32 r, F.arith, F.rarith, fuel⟩ (.multi false hugeGeo m.rect m.index m.ixgeoms) (.atom (.point ⟨2 ^ 200, 2 ^ 200⟩)) = some false ∧
    .atom (.point ⟨2 ^ 200, 2 ^ 200⟩) ∈ hugeGeo := by
  have conv : ∀ (n : ℕ) (dir : Bool), 1 ≤ n → n ≤ 64 → r (F.next0 (Fp.clamp (2 ^ 200 * n)) dir) = inf := by
    intro n dir n1 n2
    have n1 : (1 : ℚ) ≤ n := by exact_mod_cast n1
    have n2 : (n : ℚ) ≤ 64 := by exact_mod_cast n2
    have c1 : (2 : ℚ) ^ 200 * n ≤ 2 ^ 206 := by nlinarith
    have hc : Fp.clamp (2 ^ 200 * n) = 2 ^ 200 * n := clamp_eq (by
      rw [abs_of_nonneg (mul_nonneg (by norm_num) (by linarith))]
      exact c1.trans (pow_le_pow_right₀ (by norm_num) (by norm_num)))
    rw [hc]
    have m := next0_mono hF (x := 2 ^ 200) (y := 2 ^ 200 * n)
      (by rw [abs_of_nonneg (by norm_num)]; exact pow_le_pow_right₀ (by norm_num) (by norm_num))
      (by rw [abs_of_nonneg (mul_nonneg (by norm_num) (by linarith))]; exact c1.trans (pow_le_pow_right₀ (by norm_num) (by norm_num)))
      (le_mul_of_one_le_right (by norm_num) n1) dir
    refine hr.large _ (le_trans ?_ m)
    cases dir with
    | false =>
      have e : F.next0 (2 ^ 200) false = 2 ^ 200 * (1 - 1 / 8388608) := by
        have := F.fl_int hF (n := 2 ^ 23 - 1) (j := 177) (by norm_num) (by norm_num) (by norm_num)
        unfold Fp.next0 Fp.mul
        rw [if_pos (by simp)]
        norm_num at this ⊢
        exact this
      rw [e]
      norm_num
    | true =>
      have e : F.next0 (2 ^ 200) true = 2 ^ 200 * (1 + 1 / 8388608) := by
        have := F.fl_int hF (n := 2 ^ 23 + 1) (j := 177) (by norm_num) (by norm_num) (by norm_num)
        unfold Fp.next0 Fp.mul
        rw [if_neg (by simp)]
        norm_num at this ⊢
        exact this
      rw [e]
      norm_num
  have e : multiNew (F.ix32 r) exactH insertionQsort Geo.rect hugeGeo = multiNew infIx exactH insertionQsort Geo.rect hugeGeo := by
    refine multiNew_ix fun x hx => ?_
    obtain ⟨q, hq, rfl⟩ := List.mem_map.1 hx
    obtain ⟨i, hi, rfl⟩ := List.mem_map.1 hq
    have hi := List.mem_range.1 hi
    have c := fun dir => conv (i + 1) dir (by omega) (by omega)
    push_cast at c
    show (⟨⟨r (F.next0 (Fp.clamp _) false), r (F.next0 (Fp.clamp _) false)⟩, ⟨r (F.next0 (Fp.clamp _) true), r (F.next0 (Fp.clamp _) true)⟩⟩ : Rect ℚ) =
      ⟨⟨inf, inf⟩, ⟨inf, inf⟩⟩
    simp only [Geo.rect, Pt.rect, c]
  rw [e]
  have hm := huge_missed
  cases h : multiNew infIx exactH insertionQsort Geo.rect hugeGeo with
  | none => rw [h] at hm; cases hm
  | some m =>
    rw [h, Option.map_some, Option.some.injEq] at hm
    refine ⟨m, rfl, ?_, List.mem_map_of_mem (List.mem_map.2 ⟨0, by simp, by norm_num⟩)⟩
    rw [← hm]
    unfold geoIntersects
    rw [geoX, geoX]
    unfold hugeGeo
    rw [geoXs_points ⟨F.ix32 r, F.arith, F.rarith, fuel⟩ ⟨infIx, exact 1 (fun _ => 0), exactR, 0⟩]
    rfl

/-- The hypotheses can be met. -/
example : ∃ (F : Fp) (r : ℚ → ℚ), Spec.Double.Rounding F.rnd ∧ Rounding r := by
  obtain ⟨rnd, h, -⟩ := Double.exists_rounding
  obtain ⟨r, hr⟩ := Float32.exists_rounding
  exact ⟨⟨rnd, fun _ => 0, fun _ => 0⟩, r, h, hr⟩

end Tg
