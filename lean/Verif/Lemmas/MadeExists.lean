import Verif.Lemmas.SharedPlain
import Verif.Props.Float32
import Verif.Props.Multi
/-! The constructors succeed, with doubles, on fixed-point coordinates. -/
set_option linter.unusedSectionVars false
namespace Tg.S

open Spec.Double

/-- A ring with Y-stripes has two points of different heights. -/
def Series.High (s : Series ℚ) : Prop := (kindsOf s.e s.pts.length true s.ix).2 = true → ∃ p ∈ s.pts, ∃ q ∈ s.pts, p.y < q.y

theorem exists_least (f : Pt ℚ → ℚ) : ∀ {pts : List (Pt ℚ)}, pts ≠ [] → ∃ p ∈ pts, ∀ q ∈ pts, f p ≤ f q
  | [], h => absurd rfl h
  | [p], _ => ⟨p, by simp, by simp⟩
  | p :: q :: l, _ => by
    obtain ⟨m, hm, h⟩ := exists_least f (pts := q :: l) (by simp)
    rcases le_total (f p) (f m) with hp | hp
    · exact ⟨p, by simp, List.forall_mem_cons.2 ⟨le_rfl, fun x hx => hp.trans (h x hx)⟩⟩
    · exact ⟨m, List.mem_cons_of_mem _ hm, List.forall_mem_cons.2 ⟨hp, h⟩⟩

theorem rect_attained {pts : List (Pt ℚ)} (hne : pts ≠ []) {r : Rect ℚ} (h1 : ∀ q ∈ pts, r.Has q) (h2 : ∀ T : Rect ℚ, (∀ q ∈ pts, T.Has q) → r.Le T) :
    (∃ p ∈ pts, p.y = r.lo.y) ∧ ∃ p ∈ pts, p.y = r.hi.y := by
  constructor
  · obtain ⟨p, hp, hm⟩ : ∃ p ∈ pts, ∀ q ∈ pts, p.y ≤ q.y := by
      obtain ⟨p, hp, hm⟩ := exists_least (fun p => p.y) hne
      exact ⟨p, hp, hm⟩
    have := h2 ⟨⟨r.lo.x, p.y⟩, r.hi⟩ fun q hq => by
      have := h1 q hq
      exact ⟨this.1, this.2.1, hm q hq, this.2.2.2⟩
    exact ⟨p, hp, le_antisymm this.2.2.1 (h1 p hp).2.2.1⟩
  · obtain ⟨p, hp, hm⟩ : ∃ p ∈ pts, ∀ q ∈ pts, q.y ≤ p.y := by
      obtain ⟨p, hp, hm⟩ := exists_least (fun p => -p.y) hne
      exact ⟨p, hp, fun q hq => neg_le_neg_iff.1 (hm q hq)⟩
    have := h2 ⟨r.lo, ⟨r.hi.x, p.y⟩⟩ fun q hq => by
      have := h1 q hq
      exact ⟨this.1, this.2.1, this.2.2.1, hm q hq⟩
    exact ⟨p, hp, le_antisymm (h1 p hp).2.2.2 this.2.2.2⟩

mutual
/-- No collection has 64 members or more. -/
def Shape.Narrow : Shape ℚ → Prop
  | .coll cs => cs.length < 64 ∧ Shape.NarrowAll cs
  | _ => True
/-- All of them. -/
def Shape.NarrowAll : List (Shape ℚ) → Prop
  | [] => True
  | c :: cs => c.Narrow ∧ Shape.NarrowAll cs
end

variable {β : Type*} [LinearOrder β] {F : Fp} (hF : Rounding F.rnd) {k : ℤ} (h1 : -400 ≤ k) (h2 : k ≤ 400) (hn : ∀ pts, F.ns pts < 2 ^ 31)
  {f : Ix ℚ β} (hf : f.Lawful)
include hF h1 h2 hn hf

theorem fring_exists {s : Series ℚ} (he : s.e.Ok) (hg : ∀ p ∈ s.pts, GridPt k p) (hh : s.High) : ∃ r, FBy (F.maker f) s r := by
  obtain ⟨o, ho⟩ := F.orient_some s.pts
  obtain ⟨r, hr⟩ := C24_built hf F.arith he s.pts true s.ix fun hk r r1 r2 => by
    obtain ⟨p, hp, q, hq, hpq⟩ := hh hk
    obtain ⟨⟨a, ha, ea⟩, b, hb, eb⟩ := rect_attained (List.ne_nil_of_mem hp) r1 r2
    refine (ieee_law hF h1 h2).ok _ _ _ (ea ▸ (hg a ha).2) (eb ▸ (hg b hb).2) ?_ ⟨le_max_right _ _, max_lt (hn _) (by norm_num)⟩
    exact ((r1 p hp).2.2.1.trans_lt hpq).trans_le (r1 q hq).2.2.2
  exact ⟨⟨r, o.convex, o.clockwise⟩, he, hr, by show (F.orient _).map _ = _; rw [ho]; rfl, by show (F.orient _).map _ = _; rw [ho]; rfl⟩

theorem frings_exist : ∀ ss : List (Series ℚ), (∀ s ∈ ss, s.e.Ok) → (∀ s ∈ ss, ∀ p ∈ s.pts, GridPt k p) → (∀ s ∈ ss, s.High) →
    ∃ rs, List.Forall₂ (FBy (F.maker f)) ss rs
  | [], _, _, _ => ⟨[], .nil⟩
  | s :: ss, a, b, c => by
    obtain ⟨r, hr⟩ := fring_exists hF h1 h2 hn hf (a s (by simp)) (b s (by simp)) (c s (by simp))
    obtain ⟨rs, hrs⟩ := frings_exist ss (fun x hx => a x (by simp [hx])) (fun x hx => b x (by simp [hx])) fun x hx => c x (by simp [hx])
    exact ⟨r :: rs, .cons hr hrs⟩

theorem atom_exists {x : AShape ℚ} (he : ∀ s ∈ x.rings, s.e.Ok) (hl : ∀ s, x = .line s → s.e.Ok) (hg : ∀ p ∈ x.nodes, GridPt k p)
    (hh : ∀ s ∈ x.rings, s.High) : ∃ a, x.By (F.maker f) a := by
  cases x with
  | point p => exact ⟨.point p, rfl⟩
  | line s =>
    have hk : (kindsOf s.e s.pts.length false s.ix).2 = false := by
      cases h : (kindsOf s.e s.pts.length false s.ix).2 with
      | false => rfl
      | true => exact absurd (indexKinds_closed h) (by simp)
    obtain ⟨r, hr⟩ := C24_built hf F.arith (hl s rfl) s.pts false s.ix fun h => by rw [hk] at h; cases h
    exact ⟨.line r, hl s rfl, hr⟩
  | poly ext holes =>
    have hp : ∀ s ∈ ext :: holes, ∀ p ∈ s.pts, GridPt k p := fun s hs p hp => hg p (List.mem_flatMap.2 ⟨s, hs, hp⟩)
    obtain ⟨r, hr⟩ := fring_exists hF h1 h2 hn hf (he ext (by simp [AShape.rings])) (hp ext (by simp)) (hh ext (by simp [AShape.rings]))
    obtain ⟨rs, hrs⟩ := frings_exist hF h1 h2 hn hf holes (fun s hs => he s (by simp [AShape.rings, hs])) (fun s hs => hp s (by simp [hs]))
      fun s hs => hh s (by simp [AShape.rings, hs])
    exact ⟨.poly (.poly r rs), hr, hrs⟩

variable {H : HArith ℚ} {Q : Qsort} (hQ : QsortOk Q)
include hQ

mutual
theorem shape_made : ∀ (x : Shape ℚ), ((∀ lo hi v, H.cell lo hi v ≠ none) ∨ x.Narrow) →
    (∀ a ∈ x.atoms, (∀ s ∈ a.rings, s.e.Ok ∧ s.High) ∧ (∀ s, a = .line s → s.e.Ok) ∧ ∀ p ∈ a.nodes, GridPt k p) →
    ∃ g, x.By (F.maker f) H Q g
  | .null, _, _ => ⟨.null, trivial⟩
  | .empty, _, _ => ⟨.empty, trivial⟩
  | .atom a, _, h => by
    obtain ⟨a1, a2, a3⟩ := h a (by simp [Shape.atoms])
    obtain ⟨b, hb⟩ := atom_exists hF h1 h2 hn hf (fun s hs => (a1 s hs).1) a2 a3 fun s hs => (a1 s hs).2
    exact ⟨.atom b, hb⟩
  | .coll cs, hH, h => by
    obtain ⟨gs, hl, hgs⟩ := shapes_made cs (hH.imp id fun h => h.2) h
    obtain ⟨m, hm⟩ := C39_made (f := f) (H := H) hQ (rectOf := Geo.rect) (geoms := gs) (by
      rcases hH with hH | hH
      · right
        intro g _
        unfold pointHilbert
        have a := hH (inflateRect (gs.map Geo.rect)).lo.x (inflateRect (gs.map Geo.rect)).hi.x (H.center g.rect).x
        have b := hH (inflateRect (gs.map Geo.rect)).lo.y (inflateRect (gs.map Geo.rect)).hi.y (H.center g.rect).y
        revert a b
        cases H.cell (inflateRect (gs.map Geo.rect)).lo.x (inflateRect (gs.map Geo.rect)).hi.x (H.center g.rect).x <;>
        cases H.cell (inflateRect (gs.map Geo.rect)).lo.y (inflateRect (gs.map Geo.rect)).hi.y (H.center g.rect).y <;> simp
      · left
        rw [hl]; exact hH.1)
    obtain ⟨m1, -⟩ := multiNew_ok hQ hm
    refine ⟨.multi false gs m.rect m.index m.ixgeoms, by simp, ?_, hgs⟩
    show multiNew f H Q Geo.rect gs = _
    rw [hm]
    congr 1
    rw [← m1.geoms_eq]
theorem shapes_made : ∀ (xs : List (Shape ℚ)), ((∀ lo hi v, H.cell lo hi v ≠ none) ∨ Shape.NarrowAll xs) →
    (∀ a ∈ Shape.allAtoms xs, (∀ s ∈ a.rings, s.e.Ok ∧ s.High) ∧ (∀ s, a = .line s → s.e.Ok) ∧ ∀ p ∈ a.nodes, GridPt k p) →
    ∃ gs, gs.length = xs.length ∧ Shape.ByAll (F.maker f) H Q xs gs
  | [], _, _ => ⟨[], rfl, trivial⟩
  | x :: xs, hH, h => by
    obtain ⟨g, hg⟩ := shape_made x (hH.imp id fun h => h.1) fun a ha => h a (by rw [Shape.allAtoms]; exact List.mem_append_left _ ha)
    obtain ⟨gs, hl, hgs⟩ := shapes_made xs (hH.imp id fun h => h.2) fun a ha => h a (by rw [Shape.allAtoms]; exact List.mem_append_right _ ha)
    exact ⟨g :: gs, by simp [hl], hg, hgs⟩
end

end Tg.S
