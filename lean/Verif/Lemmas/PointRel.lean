import Verif.Spec.Interior
import Verif.Lemmas.Intersects
/-! Covers, contains and touches where one of the geometries is a point, with exact arithmetic. -/
set_option linter.unusedSectionVars false
namespace Tg.S

variable {K : Type*} [Field K] [LinearOrder K] [IsStrictOrderedRing K] [FloorRing K] {ε : K} {ns : List (Pt K) → Nat}

/-! ### Rings as lines -/

/-- `tg_line_covers_point` of a ring: the point is on the boundary. -/
theorem ring_covers_pt {e : Env} (he : e.Ok) {pts : List (Pt K)} {closed : Bool} {ix : BitVec 32} {r : Ring K K}
    (h : newIx Ix.exact (exact ε ns) e pts closed ix = some r)
    (hlen : (segments pts closed).length < pts.length ∨ pts.length % spreadOf e ix = 0 ∨ r.index = none) (p : Pt K) :
    ∃ b, lineCoversPt Ix.exact (exact ε ns) r p = some b ∧ (b = true ↔ OnBoundary (segments pts closed) p) := by
  classical
  have hq : (p.rect : Rect K).Valid := ⟨le_rfl, le_rfl⟩
  have hs := C22_search_partial Ix.exact_lawful he h hlen p.rect hq (coversPtIter (exact ε ns) p) false
  refine ⟨_, hs, ?_⟩
  have hv : visit (fun x : Seg K × Nat => coversPtIter (exact ε ns) p x.1 x.2)
      ((segments pts closed).zipIdx.filter fun x => decide (Meets p.rect x.1)) false
      = ((segments pts closed).zipIdx.filter fun x => decide (Meets p.rect x.1)).any fun x => segCoversPt (exact ε ns) x.1 p :=
    visit_any (fun x : Seg K × Nat => segCoversPt (exact ε ns) x.1 p) _
  rw [hv, List.any_eq_true]
  constructor
  · rintro ⟨⟨s, i⟩, h1, h2⟩
    rw [List.mem_filter, List.mem_zipIdx_iff_getElem?] at h1
    exact ⟨s, List.mem_of_getElem? h1.1, (segCoversPt_iff s p).1 h2⟩
  · rintro ⟨s, h1, h2⟩
    obtain ⟨i, hi⟩ := List.getElem?_of_mem h1
    refine ⟨(s, i), ?_, (segCoversPt_iff s p).2 h2⟩
    rw [List.mem_filter, List.mem_zipIdx_iff_getElem?]
    refine ⟨hi, decide_eq_true ((intersects_iff_meets hq s).1 ?_)⟩
    have hr := onSeg_rect h2
    rw [C20_intersects _ _ hq s.rect_valid]
    exact ⟨p, ⟨le_rfl, le_rfl, le_rfl, le_rfl⟩, hr⟩

/-- The ends of a line, as the code finds them. -/
theorem line_ends {e : Env} (he : e.Ok) {pts : List (Pt K)} {ix : BitVec 32} {l : Ring K K} (h : newIx Ix.exact (exact ε ns) e pts false ix = some l)
    (h2 : 2 ≤ pts.length) : ∃ s0 sN, segAt l.points 0 = some s0 ∧ segAt l.points (l.nsegs - 1) = some sN ∧ pts.head? = some s0.a ∧
      pts.getLast? = some sN.b := by
  obtain ⟨hn, -⟩ := line_nsegs he h
  obtain ⟨s0, a1, a2⟩ := line_segAt he h (i := 0) (by omega)
  obtain ⟨sN, b1, b2⟩ := line_segAt he h (i := l.nsegs - 1) (by omega)
  refine ⟨s0, sN, a1, b1, ?_, ?_⟩
  · match pts, h2 with
    | a :: b :: t, _ =>
      simp only [edges, List.getElem?_cons_zero, Option.some.injEq] at a2
      rw [← a2]; rfl
  · have last : ∀ (l : List (Pt K)) (x : Pt K), l ≠ [] → ∀ s, (edges (x :: l))[l.length - 1]? = some s → (x :: l).getLast? = some s.b := by
      intro l
      induction l with
      | nil => intro x h; exact absurd rfl h
      | cons y l ih =>
        intro x _ s hs
        rw [show edges (x :: y :: l) = ⟨x, y⟩ :: edges (y :: l) from rfl] at hs
        cases l with
        | nil =>
          simp only [List.length_singleton, Nat.sub_self, List.getElem?_cons_zero, Option.some.injEq] at hs
          rw [← hs]; rfl
        | cons z l =>
          rw [List.getLast?_cons_cons]
          refine ih y (by simp) s ?_
          simpa using hs
    match pts, h2 with
    | a :: b :: t, _ =>
      refine last (b :: t) a (by simp) sN ?_
      rw [hn] at b2
      simpa using b2

/-! ### Simple shapes -/

section
variable {P : Par K K} (hPf : P.f = Ix.exact) (hPA : P.A = exact ε ns) {x : AShape K} {a : Atom K K} {p : Pt K}
include hPf hPA

/-- A shape covers a point: the point belongs to it. -/
theorem atom_covers_pt (hx : x.Is ε ns a) (hs : RingsSee ε ns x.rings [p]) :
    ∃ r, atomCovers P a (.point p) = some r ∧ (r = true ↔ x.Has p) := by
  match x, a, hx, hs with
  | .point q, .point q', hx, _ =>
    rw [show q' = q from hx]
    refine ⟨pteq q p, rfl, ?_⟩
    rw [pteq_iff]
    exact eq_comm
  | .line s, .line l, hx, _ =>
    rw [atomCovers, hPf, hPA]
    exact C46_line_covers_point hx.1 hx.2 p
  | .poly ext holes, .poly q, hx, hs => exact poly_point hPf hPA hx hs

/-- A polygon contains a point: the point is in its interior. -/
theorem poly_inner {ext : Series K} {holes : List (Series K)} {q : PolyS K K} (hq : PolyIs ε ns ext holes q)
    (hs : RingsSee ε ns (ext :: holes) [p]) : ∃ b, polyHasPt P q p false = some b ∧ (b = true ↔ AShape.Inner (.poly ext holes) p) := by
  have hhit : ∀ s ∈ ext :: holes, ∀ r, FOk ε ns s r → ∀ edge, ∃ b, hit P r p edge = some b ∧ (b = true ↔ if edge then InRegion s.segs p else Inside s.segs p) := by
    intro s hm r hr edge
    obtain ⟨b, idx, k1, k2, -⟩ := (hs s hm r.ring hr.made).pip p (by simp) edge
    refine ⟨b, ?_, k2⟩
    rw [hit, hPf, hPA, k1]
    rfl
  have hext := hhit ext (by simp)
  cases q with
  | ring r =>
    obtain ⟨rfl, hr⟩ := hq
    obtain ⟨b, h1, h2⟩ := hext r hr false
    exact ⟨b, h1, by rw [h2]; simp [AShape.Inner]⟩
  | poly e hs' =>
    obtain ⟨he, hh⟩ := hq
    obtain ⟨b, h1, h2⟩ := hext e he false
    rw [if_neg (by simp)] at h2
    obtain ⟨c, h3, h4⟩ := anyOf_forall2 (t := fun h => hit P h p (!false)) (Q := fun s => InRegion s.segs p) hh fun s hm r hr => by
      obtain ⟨b, k1, k2⟩ := hhit s (by simp [hm]) r hr true
      exact ⟨b, k1, by rw [k2]; simp⟩
    obtain ⟨a1, -⟩ := newIx_some Ix.exact_lawful he.ok he.made
    rw [polyHasPt]
    have hemp : ringEmpty e.ring = decide (ext.pts.length < 3) := by
      rw [ring_not_empty a1]
      by_cases h : ext.pts.length < 3
      · simp [h]
      · simp [h, show ¬ ext.pts.length < 2 by omega]
    rw [hemp, h1, h3]
    by_cases h : ext.pts.length < 3
    · simp only [h, decide_true, if_true]
      exact ⟨false, rfl, iff_of_false (by simp) fun hw => not_region_short h p (.inr hw.1)⟩
    · simp only [h, decide_false, Bool.false_eq_true, if_false]
      refine ⟨b && !c, by cases b <;> rfl, ?_⟩
      rw [Bool.and_eq_true, h2, Bool.not_eq_true', ← Bool.not_eq_true, h4]
      simp [AShape.Inner]

/-- A shape contains a point: the point is in its interior. -/
theorem atom_contains_pt (hx : x.Is ε ns a) (hs : RingsSee ε ns x.rings [p]) :
    ∃ r, atomContains P a (.point p) = some r ∧ (r = true ↔ x.Inner p) := by
  match x, a, hx, hs with
  | .point q, .point q', hx, _ =>
    rw [show q' = q from hx]
    refine ⟨pteq q p, rfl, ?_⟩
    rw [pteq_iff]
    exact eq_comm
  | .line s, .line l, hx, _ =>
    obtain ⟨r, h1, h2⟩ := C46_line_covers_point hx.1 hx.2 p
    rw [atomContains, lineContainsPt, hPf, hPA, h1]
    cases r with
    | false => exact ⟨false, rfl, iff_of_false (by simp) fun h => by cases h2.2 h.1⟩
    | true =>
      have hon := h2.1 rfl
      have h2' : 2 ≤ s.pts.length := by
        obtain ⟨t, ht, -⟩ := hon
        match hsp : s.pts with
        | [] => rw [hsp] at ht; simp [edges] at ht
        | [_] => rw [hsp] at ht; simp [edges] at ht
        | _ :: _ :: _ => simp
      obtain ⟨s0, sN, k1, k2, k3, k4⟩ := line_ends hx.1 hx.2 h2'
      simp only [k1, k2]
      refine ⟨_, rfl, ?_⟩
      rw [Bool.not_eq_true', ← Bool.not_eq_true, Bool.or_eq_true, pteq_iff, pteq_iff, AShape.Inner, k3, k4]
      simp only [ne_eq, Option.some.injEq, not_or]
      exact ⟨fun h => ⟨hon, fun e => h.1 e.symm, fun e => h.2 e.symm⟩, fun h => ⟨fun e => h.2.1 e.symm, fun e => h.2.2 e.symm⟩⟩
  | .poly ext holes, .poly q, hx, hs => exact poly_inner hPf hPA hx hs

/-- A polygon touches a point: the point is on its boundary. -/
theorem poly_touches_pt {ext : Series K} {holes : List (Series K)} {q : PolyS K K} (hq : PolyIs ε ns ext holes q) (hok : PolyOk ext holes)
    (hs : RingsSee ε ns (ext :: holes) [p]) : ∃ b, ptTouchesPoly P p q = some b ∧ (b = true ↔ AShape.Rim (.poly ext holes) p) := by
  have hall : List.Forall₂ (FOk ε ns) (ext :: holes) (q.ext :: q.holes) := .cons hq.ext hq.holes
  obtain ⟨b, h1, h2⟩ := anyOf_forall2 (t := fun r : FRing K K => lineCoversPt P.f P.A r.ring p) (Q := fun s => OnBoundary s.segs p) hall fun s hm r hr => by
    rw [hPf, hPA]
    exact ring_covers_pt hr.ok hr.made (hs s hm _ hr.made).search p
  refine ⟨b, h1, ?_⟩
  rw [h2]
  constructor
  · rintro ⟨s, hm, hb⟩
    refine ⟨hok.boundary s hm p hb, ?_⟩
    rintro ⟨k1, k2⟩
    rcases List.mem_cons.1 hm with rfl | hm
    · exact k1.1 hb
    · exact k2 s hm (.inl hb)
  · rintro ⟨⟨k1, k2⟩, k3⟩
    by_contra hn
    refine k3 ⟨k1.resolve_left fun hb => hn ⟨ext, by simp, hb⟩, fun h hm hr => ?_⟩
    rcases hr with hb | hi
    · exact hn ⟨h, by simp [hm], hb⟩
    · exact k2 h hm hi

/-- A shape touches a point: the point is on its boundary. The answer does not depend on the order. -/
theorem atom_touches_pt (hx : x.Is ε ns a) (hok : x.Ok) (hs : RingsSee ε ns x.rings [p]) :
    ∃ r, atomTouches P a (.point p) = some r ∧ atomTouches P (.point p) a = some r ∧ (r = true ↔ x.Rim p) := by
  match x, a, hx, hok, hs with
  | .point q, .point q', hx, _, _ =>
    refine ⟨false, rfl, rfl, iff_of_false (by simp) fun h => h.2 h.1⟩
  | .line s, .line l, hx, _, _ =>
    obtain ⟨hn, -⟩ := line_nsegs hx.1 hx.2
    rw [atomTouches, atomTouches, ptTouchesLine]
    by_cases h2 : s.pts.length < 2
    · rw [if_pos (by omega)]
      refine ⟨false, rfl, rfl, iff_of_false (by simp) ?_⟩
      rintro ⟨⟨t, ht, -⟩, -⟩
      match hsp : s.pts, h2 with
      | [], _ => rw [hsp] at ht; simp [edges] at ht
      | [_], _ => rw [hsp] at ht; simp [edges] at ht
    · rw [if_neg (by omega)]
      obtain ⟨s0, sN, k1, k2, k3, k4⟩ := line_ends hx.1 hx.2 (by omega)
      simp only [k1, k2]
      refine ⟨_, rfl, rfl, ?_⟩
      rw [Bool.or_eq_true, pteq_iff, pteq_iff, AShape.Rim, AShape.Inner, AShape.Has, k3, k4]
      have hsegs : segments s.pts false = edges s.pts := by rw [segments]; simp
      have on : ∀ q ∈ s.pts, OnBoundary (edges s.pts) q := fun q hq => hsegs ▸ seg_of_pts (by omega) (by simp) q hq
      constructor
      · intro h
        refine ⟨?_, ?_⟩
        · rcases h with rfl | rfl
          · exact on _ (List.mem_of_mem_head? (by rw [k3]; rfl))
          · exact on _ (List.mem_of_getLast? k4)
        · rintro ⟨-, g1, g2⟩
          rcases h with rfl | rfl
          · exact g1 rfl
          · exact g2 rfl
      · rintro ⟨g1, g2⟩
        by_contra hc
        rw [not_or] at hc
        exact g2 ⟨g1, fun h => hc.1 (Option.some.inj h).symm, fun h => hc.2 (Option.some.inj h).symm⟩
  | .poly ext holes, .poly q, hx, hok, hs =>
    obtain ⟨b, h1, h2⟩ := poly_touches_pt hPf hPA hx hok hs
    exact ⟨b, h1, h1, h2⟩

end

theorem rect_point {pts : List (Pt K)} {closed : Bool} {sp : Nat} {r : Ring K K} (h : RingOk Ix.exact pts closed sp r) (h2 : 2 ≤ pts.length) (p : Pt K) :
    ptCoversRect p r.rect = true ↔ ∀ q ∈ pts, q = p := by
  rw [ptCoversRect, Bool.and_eq_true, pteq_iff, pteq_iff]
  constructor
  · rintro ⟨h3, h4⟩ q hq
    obtain ⟨g1, g2, g3, g4⟩ := h.rect_has h2 q hq
    rw [h3] at g1 g3
    rw [h4] at g2 g4
    exact Pt.ext (le_antisymm g2 g1) (le_antisymm g4 g3)
  · intro hall
    have hle := h.rect_least h2 p.rect fun q hq => by rw [hall q hq]; exact ⟨le_rfl, le_rfl, le_rfl, le_rfl⟩
    obtain ⟨q, hq⟩ : ∃ q, q ∈ pts := by
      match pts, h2 with
      | q :: _, _ => exact ⟨q, by simp⟩
    have hh := h.rect_has h2 q hq
    rw [hall q hq] at hh
    obtain ⟨g1, g2, g3, g4⟩ := hh
    obtain ⟨l1, l2, l3, l4⟩ := hle
    simp only [Pt.rect] at l1 l2 l3 l4
    exact ⟨Pt.ext (le_antisymm g1 (by assumption)) (le_antisymm g3 (by assumption)),
      Pt.ext (le_antisymm (by assumption) g2) (le_antisymm (by assumption) g4)⟩

theorem onSeg_same {p w : Pt K} (h : OnSeg ⟨p, p⟩ w) : w = p := by
  obtain ⟨t, -, -, h1, h2⟩ := h
  exact Pt.ext (by simpa using h1) (by simpa using h2)

/-- A point covers a shape: it is the only point of the shape. -/
theorem pt_covers_atom {P : Par K K} {x : AShape K} {a : Atom K K} {p : Pt K} (hx : x.Is ε ns a) (hok : x.Ok) :
    ∃ r, atomCovers P (.point p) a = some r ∧ (r = true ↔ ∀ w, x.Has w ↔ w = p) := by
  match x, a, hx, hok with
  | .point q, .point q', hx, _ =>
    rw [show q' = q from hx]
    refine ⟨pteq p q, rfl, ?_⟩
    rw [pteq_iff]
    simp only [AShape.Has]
    exact ⟨by rintro rfl w; exact Iff.rfl, fun h => (h p).2 rfl⟩
  | .line s, .line l, hx, _ =>
    obtain ⟨b1, -⟩ := newIx_some Ix.exact_lawful hx.1 hx.2
    have hsegs : segments s.pts false = edges s.pts := by rw [segments]; simp
    refine ⟨_, rfl, ?_⟩
    rw [ptCoversLine, ring_not_empty b1]
    by_cases h2 : s.pts.length < 2
    · simp only [h2, decide_true]
      refine iff_of_false (by simp) fun h => ?_
      obtain ⟨t, ht, -⟩ := (h p).2 rfl
      match hsp : s.pts, h2 with
      | [], _ => rw [hsp] at ht; simp [edges] at ht
      | [_], _ => rw [hsp] at ht; simp [edges] at ht
    · simp only [h2, decide_false, Bool.false_and, Bool.or_false, Bool.not_false, Bool.true_and]
      rw [rect_point b1 (by omega)]
      have on : ∀ q ∈ s.pts, OnBoundary (edges s.pts) q := fun q hq => hsegs ▸ seg_of_pts (by omega) (by simp) q hq
      constructor
      · intro hall w
        constructor
        · rintro ⟨t, ht, hw⟩
          rw [← hsegs] at ht
          obtain ⟨k1, k2⟩ := seg_mem_pts ht
          rw [show t = ⟨p, p⟩ from congrArg₂ Seg.mk (hall _ k1) (hall _ k2)] at hw
          exact onSeg_same hw
        · rintro rfl
          obtain ⟨q, hq⟩ : ∃ q, q ∈ s.pts := by
            match hs : s.pts, h2 with
            | [], h2 => simp at h2
            | q :: _, _ => exact ⟨q, by simp⟩
          have := on q hq
          rw [hall q hq] at this
          exact this
      · intro h q hq
        exact (h q).1 (on q hq)
  | .poly ext holes, .poly q, hx, hok =>
    have hf := PolyIs.ext hx
    obtain ⟨b1, -⟩ := newIx_some Ix.exact_lawful hf.ok hf.made
    refine ⟨_, rfl, ?_⟩
    rw [ptCoversPoly, polyEmpty, polyRect, ring_not_empty b1]
    by_cases h3 : ext.pts.length < 3
    · simp only [h3, decide_true]
      refine iff_of_false (by simp) fun h => not_region_short h3 p ((h p).2 rfl).1
    · simp only [h3, decide_false, show ¬ ext.pts.length < 2 by omega, Bool.and_false, Bool.or_false, Bool.not_false, Bool.true_and]
      rw [rect_point b1 (by omega)]
      have on : ∀ q ∈ ext.pts, OnBoundary ext.segs q := seg_of_pts (by omega) fun _ => by omega
      have bd := hok.boundary ext (by simp)
      constructor
      · intro hall w
        constructor
        · rintro ⟨hr, -⟩
          obtain ⟨l, hl, hcl, hl3, hmem⟩ := ring_chain (pts := ext.pts) (by omega)
          rw [Series.segs, hl] at hr
          have := region_rect (r := p.rect) hcl (fun v hv => by
            rw [hall v ((hmem v).1 hv)]; exact ⟨le_rfl, le_rfl, le_rfl, le_rfl⟩) hr
          obtain ⟨g1, g2, g3, g4⟩ := this
          exact Pt.ext (le_antisymm g2 g1) (le_antisymm g4 g3)
        · rintro rfl
          obtain ⟨q, hq⟩ : ∃ q, q ∈ ext.pts := by
            match hs : ext.pts, h3 with
            | [], h3 => simp at h3
            | q :: _, _ => exact ⟨q, by simp⟩
          have := bd q (on q hq)
          rw [hall q hq] at this
          exact this
      · intro h q hq
        exact (h q).1 (bd q (on q hq))

/-- A point contains a shape: the shape is a point or a line, and it is the only point of it. -/
theorem pt_contains_atom {P : Par K K} {x : AShape K} {a : Atom K K} {p : Pt K} (hx : x.Is ε ns a) (hok : x.Ok) :
    ∃ r, atomContains P (.point p) a = some r ∧ (r = true ↔ x.Thin ∧ ∀ w, x.Has w ↔ w = p) := by
  match x, a, hx, hok with
  | .point q, .point q', hx, hok =>
    obtain ⟨r, h1, h2⟩ := pt_covers_atom (P := P) (p := p) (x := .point q) (a := .point q') hx hok
    exact ⟨r, h1, by rw [h2]; simp [AShape.Thin]⟩
  | .line s, .line l, hx, hok =>
    obtain ⟨r, h1, h2⟩ := pt_covers_atom (P := P) (p := p) (x := .line s) (a := .line l) hx hok
    exact ⟨r, h1, by rw [h2]; simp [AShape.Thin]⟩
  | .poly ext holes, .poly q, hx, hok => exact ⟨false, rfl, by simp [AShape.Thin]⟩

/-! ### Collections -/

mutual
/-- No part is missing. -/
def Shape.Solid : Shape K → Prop
  | .null => False
  | .empty => False
  | .atom _ => True
  | .coll cs => cs ≠ [] ∧ Shape.AllSolid cs

def Shape.AllSolid : List (Shape K) → Prop
  | [] => True
  | c :: cs => c.Solid ∧ Shape.AllSolid cs
end

mutual
theorem Shape.noEmpty_iff : ∀ s : Shape K, s.NoEmpty ↔ s.Solid ∧ ∀ x ∈ s.atoms, ∃ w, x.Has w
  | .null => by simp [Shape.NoEmpty, Shape.Solid]
  | .empty => by simp [Shape.NoEmpty, Shape.Solid]
  | .atom a => by simp [Shape.NoEmpty, Shape.Solid, Shape.atoms]
  | .coll cs => by rw [Shape.NoEmpty, Shape.Solid, Shape.atoms, Shape.allNoEmpty_iff cs, and_assoc]
theorem Shape.allNoEmpty_iff : ∀ cs : List (Shape K), Shape.AllNoEmpty cs ↔ Shape.AllSolid cs ∧ ∀ x ∈ Shape.allAtoms cs, ∃ w, x.Has w
  | [] => by simp [Shape.AllNoEmpty, Shape.AllSolid, Shape.allAtoms]
  | c :: cs => by
    rw [Shape.AllNoEmpty, Shape.AllSolid, Shape.allAtoms, Shape.noEmpty_iff c, Shape.allNoEmpty_iff cs]
    simp only [List.mem_append, or_imp, forall_and]
    tauto
end

theorem exists_append {γ : Type*} {a b : List γ} {q : γ → Prop} : (∃ x ∈ a ++ b, q x) ↔ (∃ x ∈ a, q x) ∨ ∃ x ∈ b, q x := by
  simp only [List.mem_append, or_and_right, exists_or]

theorem Shape.IsAll.nil_iff {H : HArith K} {Q : Qsort} : ∀ {cs : List (Shape K)} {gs : List (Geo K K)}, Shape.IsAll ε ns H Q cs gs → (cs = [] ↔ gs = [])
  | [], [], _ => by simp
  | _ :: _, _ :: _, _ => by simp

section
variable {H : HArith K} {Q : Qsort} {t : Atom K K → Option Bool} {q : AShape K → Prop}

mutual
theorem everyGeo_iff : ∀ {s : Shape K} {g : Geo K K}, s.Is ε ns H Q g → (∀ x ∈ s.atoms, ∀ a, x.Is ε ns a → ∃ r, t a = some r ∧ (r = true ↔ q x)) →
    ∃ r, everyGeo t g = some r ∧ (r = true ↔ s.Solid ∧ ∀ x ∈ s.atoms, q x)
  | .null, .null, _, _ => ⟨false, by rw [everyGeo], by simp [Shape.Solid]⟩
  | .empty, .empty, _, _ => ⟨false, by rw [everyGeo], by simp [Shape.Solid]⟩
  | .atom x, .atom a, h, ht => by
    rw [Shape.Is] at h
    obtain ⟨r, h1, h2⟩ := ht x (by simp [Shape.atoms]) a h
    exact ⟨r, by rw [everyGeo, h1], by rw [h2]; simp [Shape.atoms, Shape.Solid]⟩
  | .coll cs, .multi flag gs rect ix ixg, h, ht => by
    rw [Shape.Is] at h
    rw [Shape.atoms] at ht
    rw [everyGeo, Shape.atoms, Shape.Solid]
    have hnil := Shape.IsAll.nil_iff h.2.2
    obtain ⟨r, h1, h2⟩ := everyGeos_iff h.2.2 ht
    by_cases hg : gs = []
    · refine ⟨false, by simp [hg], iff_of_false (by simp) fun hc => hc.1.1 (hnil.2 hg)⟩
    · have hf : flag = false := by
        cases hf : flag with
        | false => rfl
        | true => exact absurd (h.1 hf) hg
      refine ⟨r, by simp [hf, hg, h1], ?_⟩
      rw [h2]
      have : cs ≠ [] := fun h => hg (hnil.1 h)
      simp [this]
theorem everyGeos_iff : ∀ {ss : List (Shape K)} {gs : List (Geo K K)}, Shape.IsAll ε ns H Q ss gs →
    (∀ x ∈ Shape.allAtoms ss, ∀ a, x.Is ε ns a → ∃ r, t a = some r ∧ (r = true ↔ q x)) →
    ∃ r, everyGeos t gs = some r ∧ (r = true ↔ Shape.AllSolid ss ∧ ∀ x ∈ Shape.allAtoms ss, q x)
  | [], [], _, _ => ⟨true, by rw [everyGeos], by simp [Shape.allAtoms, Shape.AllSolid]⟩
  | c :: cs, g :: gs, h, ht => by
    rw [Shape.IsAll] at h
    rw [Shape.allAtoms] at ht ⊢
    obtain ⟨r, h1, h2⟩ := everyGeo_iff h.1 fun x hx => ht x (List.mem_append_left _ hx)
    obtain ⟨r', h3, h4⟩ := everyGeos_iff h.2 fun x hx => ht x (List.mem_append_right _ hx)
    rw [everyGeos, h1, Shape.AllSolid]
    have : ((c.Solid ∧ Shape.AllSolid cs) ∧ ∀ x ∈ c.atoms ++ Shape.allAtoms cs, q x) ↔
        (c.Solid ∧ ∀ x ∈ c.atoms, q x) ∧ Shape.AllSolid cs ∧ ∀ x ∈ Shape.allAtoms cs, q x := by
      simp only [List.mem_append, or_imp, forall_and]
      tauto
    rw [this, ← h2, ← h4]
    cases r with
    | true => exact ⟨r', h3, by simp⟩
    | false => exact ⟨false, rfl, by simp⟩
end

end

section
variable {H : HArith K} {Q : Qsort} {tab : Atom K K → Atom K K → Option Bool} {p : Pt K} {q : AShape K → Prop}

mutual
theorem geoCov_pt_iff : ∀ {s : Shape K} {g : Geo K K}, s.Is ε ns H Q g →
    (∀ x ∈ s.atoms, ∀ a, x.Is ε ns a → ∃ r, tab a (.point p) = some r ∧ (r = true ↔ q x)) →
    ∃ r, geoCov tab g (.atom (.point p)) = some r ∧ (r = true ↔ ∃ x ∈ s.atoms, q x)
  | .null, .null, _, _ => ⟨false, by rw [geoCov], by simp [Shape.atoms]⟩
  | .empty, .empty, _, _ => ⟨false, by rw [geoCov], by simp [Shape.atoms]⟩
  | .atom x, .atom a, h, ht => by
    rw [Shape.Is] at h
    obtain ⟨r, h1, h2⟩ := ht x (by simp [Shape.atoms]) a h
    exact ⟨r, by rw [geoCov, everyGeo, h1], by rw [h2]; simp [Shape.atoms]⟩
  | .coll cs, .multi flag gs rect ix ixg, h, ht => by
    rw [Shape.Is] at h
    rw [Shape.atoms] at ht ⊢
    obtain ⟨r, h1, h2⟩ := geoCovAny_pt_iff h.2.2 ht
    rw [geoCov]
    refine ⟨r, ?_, h2⟩
    cases hf : flag with
    | true =>
      rw [h.1 hf, geoCovAny] at h1
      cases h1
      rfl
    | false =>
      simp only [Bool.false_eq_true, if_false, Geo.foreach, coversLoopG, Geo.isEmpty, h1]
      cases r <;> rfl
theorem geoCovAny_pt_iff : ∀ {ss : List (Shape K)} {gs : List (Geo K K)}, Shape.IsAll ε ns H Q ss gs →
    (∀ x ∈ Shape.allAtoms ss, ∀ a, x.Is ε ns a → ∃ r, tab a (.point p) = some r ∧ (r = true ↔ q x)) →
    ∃ r, geoCovAny tab gs (.atom (.point p)) = some r ∧ (r = true ↔ ∃ x ∈ Shape.allAtoms ss, q x)
  | [], [], _, _ => ⟨false, by rw [geoCovAny], by simp [Shape.allAtoms]⟩
  | c :: cs, g :: gs, h, ht => by
    rw [Shape.IsAll] at h
    rw [Shape.allAtoms] at ht ⊢
    obtain ⟨r, h1, h2⟩ := geoCov_pt_iff h.1 fun x hx => ht x (List.mem_append_left _ hx)
    obtain ⟨r', h3, h4⟩ := geoCovAny_pt_iff h.2 fun x hx => ht x (List.mem_append_right _ hx)
    rw [geoCovAny, h1]
    simp only [List.mem_append, or_and_right, exists_or, ← h2, ← h4]
    cases r with
    | true => exact ⟨true, rfl, by simp⟩
    | false => exact ⟨r', h3, by simp⟩
end
end

section
variable {H : HArith K} {Q : Qsort} {P : Par K K} {b : Geo K K} {T X : AShape K → Prop} (hTX : ∀ x, T x → X x)
include hTX

mutual
/-- The loop of `tg_geom_touches`: one of the simple parts touches, and no part meets without touching. -/
theorem geoTouches_iff : ∀ {s : Shape K} {g : Geo K K}, s.Is ε ns H Q g →
    (∀ x ∈ s.atoms, ∀ a, x.Is ε ns a → ∃ r, atomTouchesGeo P a b = some r ∧ (r = true ↔ T x)) →
    (∀ (s' : Shape K) (g' : Geo K K), s'.Is ε ns H Q g' → (∀ x ∈ s'.atoms, x ∈ s.atoms) → ∃ r, geoX P b g' = some r ∧ (r = true ↔ ∃ x ∈ s'.atoms, X x)) →
    ∃ r, geoTouches P b g = some r ∧ (r = true ↔ (∃ x ∈ s.atoms, T x) ∧ ∀ x ∈ s.atoms, X x → T x)
  | .null, .null, _, _, _ => ⟨false, by rw [geoTouches], by simp [Shape.atoms]⟩
  | .empty, .empty, _, _, _ => ⟨false, by rw [geoTouches], by simp [Shape.atoms]⟩
  | .atom x, .atom a, h, ht, _ => by
    rw [Shape.Is] at h
    obtain ⟨r, h1, h2⟩ := ht x (by simp [Shape.atoms]) a h
    refine ⟨r, by rw [geoTouches, h1], ?_⟩
    rw [h2]
    simp only [Shape.atoms, List.mem_singleton, exists_eq_left, forall_eq]
    exact ⟨fun h => ⟨h, fun _ => h⟩, fun h => h.1⟩
  | .coll cs, .multi flag gs rect ix ixg, h, ht, hx => by
    rw [Shape.Is] at h
    simp only [Shape.atoms] at ht hx ⊢
    obtain ⟨r, h1, h2⟩ := geoTouchesLoop_iff h.2.2 ht hx false
    rw [geoTouches]
    cases hf : flag with
    | false => exact ⟨r, h1, by rw [h2]; simp⟩
    | true =>
      rw [h.1 hf, geoTouchesLoop] at h1
      cases h1
      exact ⟨false, rfl, by rw [h2]; simp⟩
theorem geoTouchesLoop_iff : ∀ {ss : List (Shape K)} {gs : List (Geo K K)}, Shape.IsAll ε ns H Q ss gs →
    (∀ x ∈ Shape.allAtoms ss, ∀ a, x.Is ε ns a → ∃ r, atomTouchesGeo P a b = some r ∧ (r = true ↔ T x)) →
    (∀ (s' : Shape K) (g' : Geo K K), s'.Is ε ns H Q g' → (∀ x ∈ s'.atoms, x ∈ Shape.allAtoms ss) → ∃ r, geoX P b g' = some r ∧ (r = true ↔ ∃ x ∈ s'.atoms, X x)) →
    ∀ f : Bool, ∃ r, geoTouchesLoop P b gs f = some r ∧
      (r = true ↔ (f = true ∨ ∃ x ∈ Shape.allAtoms ss, T x) ∧ ∀ x ∈ Shape.allAtoms ss, X x → T x)
  | [], [], _, _, _, f => ⟨f, by rw [geoTouchesLoop], by simp [Shape.allAtoms]⟩
  | c :: cs, g :: gs, h, ht, hx, f => by
    rw [Shape.IsAll] at h
    simp only [Shape.allAtoms] at ht hx ⊢
    obtain ⟨r, h1, h2⟩ := geoTouches_iff h.1 (fun x hm => ht x (List.mem_append_left _ hm)) fun s' g' hs hm =>
      hx s' g' hs fun x hx => List.mem_append_left _ (hm x hx)
    have hrec := geoTouchesLoop_iff h.2 (fun x hm => ht x (List.mem_append_right _ hm)) fun s' g' hs hm =>
      hx s' g' hs fun x hx => List.mem_append_right _ (hm x hx)
    rw [geoTouchesLoop, h1]
    rw [exists_append]
    simp only [List.mem_append, or_imp, forall_and]
    cases r with
    | true =>
      obtain ⟨r', h3, h4⟩ := hrec true
      refine ⟨r', h3, ?_⟩
      rw [h4]
      have := h2.1 rfl
      constructor
      · rintro ⟨-, k⟩
        exact ⟨.inr (.inl this.1), this.2, k⟩
      · rintro ⟨-, -, k⟩
        exact ⟨.inl rfl, k⟩
    | false =>
      obtain ⟨y, h5, h6⟩ := hx c g h.1 fun x hx => List.mem_append_left _ hx
      have hn : ¬ ((∃ x ∈ c.atoms, T x) ∧ ∀ x ∈ c.atoms, X x → T x) := fun hc => by cases h2.2 hc
      simp only [h5]
      cases y with
      | true =>
        refine ⟨false, rfl, iff_of_false (by simp) ?_⟩
        rintro ⟨-, k, -⟩
        obtain ⟨x, hm, hX⟩ := h6.1 rfl
        exact hn ⟨⟨x, hm, k x hm hX⟩, k⟩
      | false =>
        obtain ⟨r', h3, h4⟩ := hrec f
        refine ⟨r', h3, ?_⟩
        rw [h4]
        have hX : ∀ x ∈ c.atoms, ¬ X x := fun x hm hX => by cases h6.2 ⟨x, hm, hX⟩
        constructor
        · rintro ⟨k1, k2⟩
          refine ⟨?_, fun x hm h => absurd h (hX x hm), k2⟩
          rcases k1 with k | k
          · exact .inl k
          · exact .inr (.inr k)
        · rintro ⟨k1, -, k2⟩
          refine ⟨?_, k2⟩
          rcases k1 with k | ⟨x, hm, k⟩ | k
          · exact .inl k
          · exact absurd (hTX x k) (hX x hm)
          · exact .inr k
end
end

section
variable {H : HArith K} {Q : Qsort} {P : Par K K} {q : PolyS K K} {T X : AShape K → Prop} (hTX : ∀ x, T x → X x)
include hTX

mutual
/-- The loop of `poly_touches_geom`. -/
theorem polyTouchesGeo_iff : ∀ {s : Shape K} {g : Geo K K}, s.Is ε ns H Q g →
    (∀ x ∈ s.atoms, ∀ a, x.Is ε ns a → ∃ r, atomTouches P (.poly q) a = some r ∧ (r = true ↔ T x)) →
    (∀ x ∈ s.atoms, ∀ a, x.Is ε ns a → ∃ r, atomX P (.poly q) a = some r ∧ (r = true ↔ X x)) →
    ∃ r, polyTouchesGeo P q g = some r ∧ (r = true ↔ (∃ x ∈ s.atoms, T x) ∧ ∀ x ∈ s.atoms, X x → T x)
  | .null, .null, _, _, _ => ⟨false, by rw [polyTouchesGeo], by simp [Shape.atoms]⟩
  | .empty, .empty, _, _, _ => ⟨false, by rw [polyTouchesGeo], by simp [Shape.atoms]⟩
  | .atom x, .atom a, h, ht, _ => by
    rw [Shape.Is] at h
    obtain ⟨r, h1, h2⟩ := ht x (by simp [Shape.atoms]) a h
    refine ⟨r, by rw [polyTouchesGeo, h1], ?_⟩
    rw [h2]
    simp only [Shape.atoms, List.mem_singleton, exists_eq_left, forall_eq]
    exact ⟨fun h => ⟨h, fun _ => h⟩, fun h => h.1⟩
  | .coll cs, .multi flag gs rect ix ixg, h, ht, hx => by
    rw [Shape.Is] at h
    simp only [Shape.atoms] at ht hx ⊢
    obtain ⟨r, h1, h2⟩ := polyTouchesGeos_iff h.2.2 ht hx false
    rw [polyTouchesGeo]
    cases hf : flag with
    | false => exact ⟨r, h1, by rw [h2]; simp⟩
    | true =>
      rw [h.1 hf, polyTouchesGeos] at h1
      cases h1
      exact ⟨false, rfl, by rw [h2]; simp⟩
theorem polyTouchesGeos_iff : ∀ {ss : List (Shape K)} {gs : List (Geo K K)}, Shape.IsAll ε ns H Q ss gs →
    (∀ x ∈ Shape.allAtoms ss, ∀ a, x.Is ε ns a → ∃ r, atomTouches P (.poly q) a = some r ∧ (r = true ↔ T x)) →
    (∀ x ∈ Shape.allAtoms ss, ∀ a, x.Is ε ns a → ∃ r, atomX P (.poly q) a = some r ∧ (r = true ↔ X x)) →
    ∀ f : Bool, ∃ r, polyTouchesGeos P q gs f = some r ∧
      (r = true ↔ (f = true ∨ ∃ x ∈ Shape.allAtoms ss, T x) ∧ ∀ x ∈ Shape.allAtoms ss, X x → T x)
  | [], [], _, _, _, f => ⟨f, by rw [polyTouchesGeos], by simp [Shape.allAtoms]⟩
  | c :: cs, g :: gs, h, ht, hx, f => by
    rw [Shape.IsAll] at h
    simp only [Shape.allAtoms] at ht hx ⊢
    obtain ⟨r, h1, h2⟩ := polyTouchesGeo_iff h.1 (fun x hm => ht x (List.mem_append_left _ hm)) fun x hm => hx x (List.mem_append_left _ hm)
    have hrec := polyTouchesGeos_iff h.2 (fun x hm => ht x (List.mem_append_right _ hm)) fun x hm => hx x (List.mem_append_right _ hm)
    rw [polyTouchesGeos, h1]
    rw [exists_append]
    simp only [List.mem_append, or_imp, forall_and]
    cases r with
    | true =>
      obtain ⟨r', h3, h4⟩ := hrec true
      refine ⟨r', h3, ?_⟩
      rw [h4]
      have := h2.1 rfl
      constructor
      · rintro ⟨-, k⟩
        exact ⟨.inr (.inl this.1), this.2, k⟩
      · rintro ⟨-, -, k⟩
        exact ⟨.inl rfl, k⟩
    | false =>
      obtain ⟨y, h5, h6⟩ := someGeo_iff h.1 fun x hm => hx x (List.mem_append_left _ hm)
      have hn : ¬ ((∃ x ∈ c.atoms, T x) ∧ ∀ x ∈ c.atoms, X x → T x) := fun hc => by cases h2.2 hc
      simp only [h5]
      cases y with
      | true =>
        refine ⟨false, rfl, iff_of_false (by simp) ?_⟩
        rintro ⟨-, k, -⟩
        obtain ⟨x, hm, hX⟩ := h6.1 rfl
        exact hn ⟨⟨x, hm, k x hm hX⟩, k⟩
      | false =>
        obtain ⟨r', h3, h4⟩ := hrec f
        refine ⟨r', h3, ?_⟩
        rw [h4]
        have hX : ∀ x ∈ c.atoms, ¬ X x := fun x hm hX => by cases h6.2 ⟨x, hm, hX⟩
        constructor
        · rintro ⟨k1, k2⟩
          refine ⟨?_, fun x hm h => absurd h (hX x hm), k2⟩
          rcases k1 with k | k
          · exact .inl k
          · exact .inr (.inr k)
        · rintro ⟨k1, -, k2⟩
          refine ⟨?_, k2⟩
          rcases k1 with k | ⟨x, hm, k⟩ | k
          · exact .inl k
          · exact absurd (hTX x k) (hX x hm)
          · exact .inr k
end
end

end Tg.S
