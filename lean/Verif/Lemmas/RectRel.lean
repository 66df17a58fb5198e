import Verif.Model.RectRel
import Verif.Lemmas.Query
import Verif.Lemmas.GeneralRel
import Verif.Props.Line
import Mathlib.Order.Interval.Set.Infinite
/-! Lemmas on rectangles and the relations of lines and polygons with them. -/
set_option linter.unusedSectionVars false
namespace Tg.S

section
variable {α β : Type*} [LinearOrder α] [LinearOrder β]

theorem Like.covers {r s : Ring α β} (h : Like r s) (P : Par α β) (c d c' d' : Bool) (q : PolyS α β) :
    polyCoversPoly P q (.ring ⟨r, c, d⟩) = polyCoversPoly P q (.ring ⟨s, c', d'⟩) := by
  have key : ∀ x : FRing α β, hasRing P x ⟨r, c, d⟩ true = hasRing P x ⟨s, c', d'⟩ true := fun x => by
    unfold hasRing ringHasRing
    rw [h.empty, h.rect, h.allSeg, h.pts]
  cases q with
  | ring x => exact key x
  | poly e hs =>
    unfold polyCoversPoly
    simp only [polyEmpty, PolyS.ext, PolyS.holes, h.empty, h.xRing_right, key, anyOf]

theorem rectSearchFrom_visit [Zero α] {σ : Type*} (r target : Rect α) (iter : Iter α σ) : ∀ (l : List Nat) (st : σ),
    rectSearchFrom r target iter l st = visit (fun x : Seg α × Nat => iter x.1 x.2)
      ((l.map fun i : Nat => (rectSegAt r i, i)).filter fun x => x.1.rect.intersects target) st
  | [], _ => rfl
  | i :: l, st => by
    rw [rectSearchFrom, List.map_cons, List.filter_cons]
    by_cases h : (rectSegAt r i).rect.intersects target = true
    · rw [if_pos h, if_pos h, visit]
      by_cases h' : (iter (rectSegAt r i) i st).2 = true
      · rw [if_pos h', if_pos h', rectSearchFrom_visit r target iter l]
      · rw [if_neg h', if_neg h']
    · rw [if_neg h, if_neg h, rectSearchFrom_visit r target iter l]

theorem intersects_comm (a b : Rect α) : a.intersects b = b.intersects a := by
  rw [Bool.eq_iff_iff, intersects_iff, intersects_iff]
  tauto

end

section
variable {K : Type*} [Field K] [LinearOrder K] [IsStrictOrderedRing K] {ε : K} {ns : List (Pt K) → Nat}

/-- A segment that is not vertical has one point of each abscissa. -/
theorem onSeg_unique {s : Seg K} (h : s.a.x ≠ s.b.x) {p q : Pt K} (hp : OnSeg s p) (hq : OnSeg s q) (hx : p.x = q.x) : p = q := by
  obtain ⟨t, -, -, t1, t2⟩ := hp
  obtain ⟨u, -, -, u1, u2⟩ := hq
  have : (t - u) * (s.b.x - s.a.x) = 0 := by linear_combination hx - t1 + u1
  rcases mul_eq_zero.1 this with e | e
  · have e : t = u := sub_eq_zero.1 e
    subst e
    exact Pt.ext hx (by rw [t2, u2])
  · exact absurd (sub_eq_zero.1 e).symm h

/-- Finitely many segments do not cover a rectangle that has width and height. -/
theorem not_cover_rect (es : List (Seg K)) {r : Rect K} (hx : r.lo.x < r.hi.x) (hy : r.lo.y < r.hi.y) : ∃ w, r.Has w ∧ ¬ OnBoundary es w := by
  obtain ⟨c, hc, hc'⟩ := (Set.Ioo_infinite hx).exists_notMem_finset (es.map fun s => s.a.x).toFinset
  have hc' : ∀ s ∈ es, s.a.x ≠ c := fun s hs e => hc' (by simpa using ⟨s, hs, e⟩)
  classical
  let f : Seg K → K := fun s => if h : ∃ y, OnSeg s ⟨c, y⟩ then h.choose else 0
  obtain ⟨d, hd, hd'⟩ := (Set.Ioo_infinite hy).exists_notMem_finset (es.map f).toFinset
  refine ⟨⟨c, d⟩, ⟨hc.1.le, hc.2.le, hd.1.le, hd.2.le⟩, ?_⟩
  rintro ⟨s, hs, hon⟩
  refine hd' (List.mem_toFinset.2 (List.mem_map.2 ⟨s, hs, ?_⟩))
  have he : ∃ y, OnSeg s ⟨c, y⟩ := ⟨d, hon⟩
  have h1 := he.choose_spec
  have hv : s.a.x ≠ s.b.x := by
    intro e
    obtain ⟨t, -, -, t1, -⟩ := hon
    refine hc' s hs ?_
    rw [← e, sub_self, mul_zero, add_zero] at t1
    exact t1.symm
  have : f s = he.choose := dif_pos he
  rw [this]
  exact congrArg Pt.y (onSeg_unique hv h1 hon rfl)

/-- The points of a flat rectangle are those of the segment between its corners. -/
theorem flat_rect {r : Rect K} (hx : r.lo.x ≤ r.hi.x) (hy : r.lo.y ≤ r.hi.y) (hf : r.lo.x = r.hi.x ∨ r.lo.y = r.hi.y) (w : Pt K) :
    r.Has w ↔ OnSeg ⟨r.lo, r.hi⟩ w := by
  constructor
  · intro h
    refine onSeg_of ?_ ?_
    · simpa [Rect.Has, Seg.rect, hx, hy] using h
    · obtain ⟨h1, h2, h3, h4⟩ := h
      dsimp only
      rcases hf with e | e
      · rw [show w.x = r.lo.x from le_antisymm (e ▸ h2) h1, e]; ring
      · rw [show w.y = r.lo.y from le_antisymm (e ▸ h4) h3, e]; ring
  · intro h
    have := onSeg_rect h
    simpa [Rect.Has, Seg.rect, hx, hy] using this

/-- The loop of `tg_line_covers_line` if one segment covers all segments of the second line. -/
theorem coversLoop_all {A : Arith K} {β : Type*} {a b : Ring K β} {j : Nat} {s : Seg K} (hs : segAt a.points j = some s) (hj : j < a.nsegs) :
    ∀ (n i : Nat), i + n = b.nsegs → (∀ k, i ≤ k → k < b.nsegs → ∃ t, segAt b.points k = some t ∧ segCoversSeg A s t = true) →
      ∀ fuel, n < fuel → coversLoop A a b fuel i j = some true
  | 0, i, h, _, fuel + 1, _ => by rw [coversLoop, if_neg (by omega)]
  | n + 1, i, h, hc, fuel + 1, hf => by
    obtain ⟨t, t1, t2⟩ := hc i le_rfl (by omega)
    rw [coversLoop, if_pos ⟨by omega, hj⟩, hs, t1]
    dsimp only
    rw [if_pos t2]
    exact coversLoop_all hs hj n (i + 1) (by omega) (fun k hk => hc k (by omega)) fuel (by omega)

end

end Tg.S
