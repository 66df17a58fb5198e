import Verif.Lemmas.PointRel
import Verif.Lemmas.Box
import Verif.Props.Predicates
import Verif.Props.Intersects
/-! Property C61: the predicates are exact if one of the geometries is a point. -/
namespace Tg
open S

variable {K : Type*} [Field K] [LinearOrder K] [IsStrictOrderedRing K] [FloorRing K]

theorem S.AShape.Inner.has {x : AShape K} {w : Pt K} (h : x.Inner w) : x.Has w := by
  match x, h with
  | .point _, h => exact h
  | .line _, h => exact h.1
  | .poly _ _, h => exact ⟨.inr h.1, fun k hk hi => h.2 k hk (.inr hi)⟩

theorem S.RingsSee.atom {ε : K} {ns : List (Pt K) → Nat} {a : Shape K} {ps : List (Pt K)} (h : RingsSee ε ns a.rings ps) {x : AShape K} (hx : x ∈ a.atoms)
    {p : Pt K} (hp : p ∈ ps) : RingsSee ε ns x.rings [p] :=
  h.mono (fun _ hs => List.mem_flatMap.2 ⟨x, hx, hs⟩) fun q hq => by rw [List.mem_singleton.1 hq]; exact hp

/-- C61. A geometry of any kind and nesting covers a point if and only if the point belongs to it. -/
theorem C61_covers_point (ns : List (Pt K) → Nat) (H : HArith K) (Q : Qsort) (a : Shape K) (p : Pt K) (fa : ∀ s ∈ a.rings, Fit ns s [p]) :
    ∃ ε₀ > 0, ∀ ε, 0 < ε → ε ≤ ε₀ → ∀ (fuel : Nat) (ga : Geo K K), a.Is ε ns H Q ga →
      ∃ r, geoCovers ⟨Ix.exact, exact ε ns, exactR, fuel⟩ ga (.atom (.point p)) = some r ∧ (r = true ↔ a.Has p) := by
  obtain ⟨e1, p1, h1⟩ := ringsSee_of ns a.rings [p] fa
  refine ⟨e1, p1, fun ε hε hle fuel ga ha => ?_⟩
  obtain ⟨r, k1, k2⟩ := geoCov_pt_iff (p := p) (tab := atomCovers ⟨Ix.exact, exact ε ns, exactR, fuel⟩) ha fun x hx b hb =>
    atom_covers_pt rfl rfl hb ((h1 ε hε hle).atom hx (by simp))
  exact ⟨r, k1, by rw [k2, a.has_iff]⟩

/-- C61. A geometry of any kind and nesting contains a point if and only if the point is in the interior of one of its parts. -/
theorem C61_contains_point (ns : List (Pt K) → Nat) (H : HArith K) (Q : Qsort) (a : Shape K) (p : Pt K) (fa : ∀ s ∈ a.rings, Fit ns s [p]) :
    ∃ ε₀ > 0, ∀ ε, 0 < ε → ε ≤ ε₀ → ∀ (fuel : Nat) (ga : Geo K K), a.Is ε ns H Q ga →
      ∃ r, geoContains ⟨Ix.exact, exact ε ns, exactR, fuel⟩ ga (.atom (.point p)) = some r ∧ (r = true ↔ ∃ x ∈ a.atoms, x.Inner p) := by
  obtain ⟨e1, p1, h1⟩ := ringsSee_of ns a.rings [p] fa
  refine ⟨e1, p1, fun ε hε hle fuel ga ha => ?_⟩
  exact geoCov_pt_iff (p := p) (tab := atomContains ⟨Ix.exact, exact ε ns, exactR, fuel⟩) ha fun x hx b hb =>
    atom_contains_pt rfl rfl hb ((h1 ε hε hle).atom hx (by simp))

/-- C61. A geometry of any kind and nesting touches a point if and only if the point belongs to it and is not in the interior of any of its parts. -/
theorem C61_touches_point (ns : List (Pt K) → Nat) (H : HArith K) {Q : Qsort} (hQ : QsortOk Q) (a : Shape K) (p : Pt K) (oka : ∀ x ∈ a.atoms, x.Ok)
    (fa : ∀ s ∈ a.rings, Fit ns s [p]) :
    ∃ ε₀ > 0, ∀ ε, 0 < ε → ε ≤ ε₀ → ∀ (fuel : Nat) (ga : Geo K K), a.Is ε ns H Q ga →
      ∃ r, geoTouches ⟨Ix.exact, exact ε ns, exactR, fuel⟩ (.atom (.point p)) ga = some r ∧ (r = true ↔ a.Has p ∧ ∀ x ∈ a.atoms, ¬ x.Inner p) := by
  obtain ⟨e1, p1, h1⟩ := ringsSee_of ns a.rings [p] fa
  refine ⟨e1, p1, fun ε hε hle fuel ga ha => ?_⟩
  have hsee := h1 ε hε hle
  let P : Par K K := ⟨Ix.exact, exact ε ns, exactR, fuel⟩
  obtain ⟨r, k1, k2⟩ := geoTouches_iff (P := P) (b := .atom (.point p)) (T := fun x => x.Rim p) (X := fun x => x.Has p) (fun x h => h.1) ha
    (fun x hx b hb => by
      obtain ⟨r, t1, -, t2⟩ := atom_touches_pt (P := P) rfl rfl hb (oka x hx) (hsee.atom hx (p := p) (by simp))
      refine ⟨r, ?_, t2⟩
      cases b with
      | point q => rw [atomTouchesGeo.eq_2 _ _ _ (by simp), someGeo]; exact t1
      | line l => rw [atomTouchesGeo.eq_2 _ _ _ (by simp), someGeo]; exact t1
      | poly q => rw [atomTouchesGeo, polyTouchesGeo]; exact t1)
    (fun s' g' hs' hm => geoX_iff hQ (P := P) (q := fun x => x.Has p) rfl rfl hs' fun x hx b hb => by
      obtain ⟨r, t1, t2⟩ := atom_covers_pt (P := P) rfl rfl hb (hsee.atom (hm x hx) (p := p) (by simp))
      refine ⟨r, ?_, t2⟩
      rw [someGeo]
      cases b <;> exact t1)
  refine ⟨r, k1, ?_⟩
  rw [k2, a.has_iff]
  constructor
  · rintro ⟨⟨x, hx, hr⟩, hall⟩
    exact ⟨⟨x, hx, hr.1⟩, fun y hy hi => (hall y hy hi.has).2 hi⟩
  · rintro ⟨⟨x, hx, hh⟩, hall⟩
    exact ⟨⟨x, hx, hh, hall x hx⟩, fun y hy hh => ⟨hh, hall y hy⟩⟩

/-- C61. A point touches a geometry if and only if it is on the boundary of one of the parts, whether or not it is in the interior of another. -/
theorem C61_point_touches (ns : List (Pt K) → Nat) (H : HArith K) (Q : Qsort) (b : Shape K) (p : Pt K) (okb : ∀ x ∈ b.atoms, x.Ok)
    (fb : ∀ s ∈ b.rings, Fit ns s [p]) :
    ∃ ε₀ > 0, ∀ ε, 0 < ε → ε ≤ ε₀ → ∀ (fuel : Nat) (gb : Geo K K), b.Is ε ns H Q gb →
      ∃ r, geoTouches ⟨Ix.exact, exact ε ns, exactR, fuel⟩ gb (.atom (.point p)) = some r ∧ (r = true ↔ ∃ x ∈ b.atoms, x.Rim p) := by
  obtain ⟨e1, p1, h1⟩ := ringsSee_of ns b.rings [p] fb
  refine ⟨e1, p1, fun ε hε hle fuel gb hb => ?_⟩
  obtain ⟨r, k1, k2⟩ := someGeo_iff (t := atomTouches ⟨Ix.exact, exact ε ns, exactR, fuel⟩ (.point p)) (q := fun x => x.Rim p) hb fun x hx a ha => by
    obtain ⟨r, -, t1, t2⟩ := atom_touches_pt (P := ⟨Ix.exact, exact ε ns, exactR, fuel⟩) rfl rfl ha (okb x hx) ((h1 ε hε hle).atom hx (p := p) (by simp))
    exact ⟨r, t1, t2⟩
  refine ⟨r, ?_, k2⟩
  rw [geoTouches, atomTouchesGeo.eq_2 _ _ _ (by simp)]
  exact k1

/-- C61. A point covers a geometry if and only if it is the only point of it, and no part of it is empty. -/
theorem C61_point_covers {ε : K} {ns : List (Pt K) → Nat} {H : HArith K} {Q : Qsort} (P : Par K K) (b : Shape K) (p : Pt K) (okb : ∀ x ∈ b.atoms, x.Ok)
    {gb : Geo K K} (hb : b.Is ε ns H Q gb) :
    ∃ r, geoCovers P (.atom (.point p)) gb = some r ∧ (r = true ↔ b.NoEmpty ∧ ∀ w, b.Has w → w = p) := by
  obtain ⟨r, k1, k2⟩ := everyGeo_iff (t := atomCovers P (.point p)) (q := fun x => ∀ w, x.Has w ↔ w = p) hb fun x hx a ha =>
    pt_covers_atom ha (okb x hx)
  refine ⟨r, by rw [geoCovers, geoCov]; exact k1, ?_⟩
  rw [k2, b.noEmpty_iff, and_assoc]
  refine and_congr_right fun _ => ?_
  simp only [b.has_iff]
  constructor
  · intro h
    exact ⟨fun x hx => ⟨p, (h x hx p).2 rfl⟩, by rintro w ⟨x, hx, hw⟩; exact (h x hx w).1 hw⟩
  · rintro ⟨h1, h2⟩ x hx w
    refine ⟨fun hw => h2 w ⟨x, hx, hw⟩, ?_⟩
    rintro rfl
    obtain ⟨v, hv⟩ := h1 x hx
    rwa [← h2 v ⟨x, hx, hv⟩]

/-- C61. A point contains a geometry if and only if it covers it and there is no polygon in it. -/
theorem C61_point_contains {ε : K} {ns : List (Pt K) → Nat} {H : HArith K} {Q : Qsort} (P : Par K K) (b : Shape K) (p : Pt K) (okb : ∀ x ∈ b.atoms, x.Ok)
    {gb : Geo K K} (hb : b.Is ε ns H Q gb) :
    ∃ r, geoContains P (.atom (.point p)) gb = some r ∧ (r = true ↔ b.NoEmpty ∧ (∀ w, b.Has w → w = p) ∧ ∀ x ∈ b.atoms, x.Thin) := by
  obtain ⟨r, k1, k2⟩ := everyGeo_iff (t := atomContains P (.point p)) (q := fun x => x.Thin ∧ ∀ w, x.Has w ↔ w = p) hb fun x hx a ha =>
    pt_contains_atom ha (okb x hx)
  refine ⟨r, by rw [geoContains, geoCov]; exact k1, ?_⟩
  rw [k2, b.noEmpty_iff, and_assoc]
  refine and_congr_right fun _ => ?_
  simp only [b.has_iff]
  constructor
  · intro h
    exact ⟨fun x hx => ⟨p, ((h x hx).2 p).2 rfl⟩, by rintro w ⟨x, hx, hw⟩; exact ((h x hx).2 w).1 hw, fun x hx => (h x hx).1⟩
  · rintro ⟨h1, h2, h3⟩ x hx
    refine ⟨h3 x hx, fun w => ⟨fun hw => h2 w ⟨x, hx, hw⟩, ?_⟩⟩
    rintro rfl
    obtain ⟨v, hv⟩ := h1 x hx
    rwa [← h2 v ⟨x, hx, hv⟩]

/-- C61. A polygon touches points, nested in any way, if and only if one of them is on its boundary and none is in its interior. -/
theorem C61_polygon_touches_points (ns : List (Pt K) → Nat) (H : HArith K) (Q : Qsort) (ext : Series K) (holes : List (Series K)) (b : Shape K)
    (hb : ∀ x ∈ b.atoms, ∃ w, x = .point w) (oka : PolyOk ext holes) (fa : ∀ s ∈ ext :: holes, Fit ns s b.verts) :
    ∃ ε₀ > 0, ∀ ε, 0 < ε → ε ≤ ε₀ → ∀ (fuel : Nat) (q : PolyS K K) (gb : Geo K K), PolyIs ε ns ext holes q → b.Is ε ns H Q gb →
      ∃ r, geoTouches ⟨Ix.exact, exact ε ns, exactR, fuel⟩ gb (.atom (.poly q)) = some r ∧
        (r = true ↔ (∃ w, b.Has w ∧ AShape.Rim (.poly ext holes) w) ∧ ∀ w, b.Has w → ¬ AShape.Inner (.poly ext holes) w) := by
  obtain ⟨e1, p1, h1⟩ := ringsSee_of ns (ext :: holes) b.verts fa
  refine ⟨e1, p1, fun ε hε hle fuel q gb hq hgb => ?_⟩
  let A : AShape K := .poly ext holes
  let P : Par K K := ⟨Ix.exact, exact ε ns, exactR, fuel⟩
  have hA : A.Is ε ns (.poly q) := hq
  have see : ∀ w, AShape.point w ∈ b.atoms → RingsSee ε ns A.rings [w] := fun w hw =>
    (h1 ε hε hle).mono (fun s hs => hs) fun v hv => by
      rw [List.mem_singleton.1 hv]; exact List.mem_flatMap.2 ⟨_, hw, by simp [AShape.verts]⟩
  obtain ⟨r, k1, k2⟩ := polyTouchesGeo_iff (P := P) (q := q) (T := fun x => ∃ w, x.Has w ∧ A.Rim w) (X := fun x => ∃ w, x.Has w ∧ A.Has w)
    (fun x ⟨w, h2, h3⟩ => ⟨w, h2, h3.1⟩) hgb
    (fun x hx a ha => by
      obtain ⟨w, rfl⟩ := hb x hx
      match a, ha with
      | .point w', ha =>
        rw [show w' = w from ha]
        obtain ⟨r, t1, -, t2⟩ := atom_touches_pt (P := P) rfl rfl hA oka (see w hx)
        exact ⟨r, t1, t2.trans ⟨fun h => ⟨w, rfl, h⟩, by rintro ⟨v, rfl, h⟩; exact h⟩⟩)
    (fun x hx a ha => by
      obtain ⟨w, rfl⟩ := hb x hx
      match a, ha with
      | .point w', ha =>
        rw [show w' = w from ha]
        obtain ⟨r, t1, t2⟩ := atom_covers_pt (P := P) rfl rfl hA (see w hx)
        exact ⟨r, t1, t2.trans ⟨fun h => ⟨w, rfl, h⟩, by rintro ⟨v, rfl, h⟩; exact h⟩⟩)
  refine ⟨r, by rw [geoTouches, atomTouchesGeo]; exact k1, ?_⟩
  rw [k2]
  simp only [b.has_iff]
  constructor
  · rintro ⟨⟨x, hx, w, g1, g2⟩, hall⟩
    refine ⟨⟨w, ⟨x, hx, g1⟩, g2⟩, ?_⟩
    rintro v ⟨y, hy, hv⟩ hi
    obtain ⟨u, u1, u2⟩ := hall y hy ⟨v, hv, hi.has⟩
    obtain ⟨z, rfl⟩ := hb y hy
    rw [show u = z from u1] at u2
    rw [show v = z from hv] at hi
    exact u2.2 hi
  · rintro ⟨⟨w, ⟨x, hx, g1⟩, g2⟩, hall⟩
    exact ⟨⟨x, hx, w, g1, g2⟩, fun y hy ⟨v, hv, hh⟩ => ⟨v, hv, hh, hall v ⟨y, hy, hv⟩⟩⟩

/-- C61. A collection touches a geometry of any kind if and only if one of its members does, and so does each member that has a point in common with
it. -/
theorem C61_collection_touches (ns : List (Pt K) → Nat) {H : HArith K} {Q : Qsort} (hQ : QsortOk Q) (cs : List (Shape K)) (b : Shape K)
    (oka : ∀ c ∈ cs, ∀ x ∈ c.atoms, x.Ok) (okb : ∀ x ∈ b.atoms, x.Ok) (fa : ∀ c ∈ cs, ∀ s ∈ c.rings, Fit ns s b.verts)
    (fb : ∀ c ∈ cs, ∀ s ∈ b.rings, Fit ns s c.verts) :
    ∃ ε₀ > 0, ∀ ε, 0 < ε → ε ≤ ε₀ → ∀ (fuel : Nat) (gs : List (Geo K K)) (rect : Rect K) (ix : Option (Index K)) (ixg : List Nat) (gb : Geo K K),
      (Shape.coll cs).Is ε ns H Q (.multi false gs rect ix ixg) → b.Is ε ns H Q gb →
      (∀ g ∈ gs, geoTouches ⟨Ix.exact, exact ε ns, exactR, fuel⟩ gb g ≠ none) →
      ∃ r, geoTouches ⟨Ix.exact, exact ε ns, exactR, fuel⟩ gb (.multi false gs rect ix ixg) = some r ∧
        (r = true ↔ (∃ g ∈ gs, geoTouches ⟨Ix.exact, exact ε ns, exactR, fuel⟩ gb g = some true) ∧
          ∀ (i : Nat) (c : Shape K) (g : Geo K K), cs[i]? = some c → gs[i]? = some g → (∃ w, c.Has w ∧ b.Has w) → geoTouches ⟨Ix.exact, exact ε ns, exactR, fuel⟩ gb g = some true) := by
  have hall : ∃ ε₀ > 0, ∀ ε, 0 < ε → ε ≤ ε₀ → ∀ c ∈ cs, ∀ (fuel : Nat) (gc gb : Geo K K), c.Is ε ns H Q gc → b.Is ε ns H Q gb →
      ∃ r, geoIntersects ⟨Ix.exact, exact ε ns, exactR, fuel⟩ gc gb = some r ∧ (r = true ↔ ∃ w, c.Has w ∧ b.Has w) := by
    induction cs with
    | nil => exact ⟨1, one_pos, fun ε _ _ c hc => by simp at hc⟩
    | cons c cs ih =>
      obtain ⟨e1, p1, h1⟩ := ih (fun c hc => oka c (by simp [hc])) (fun c hc => fa c (by simp [hc])) fun c hc => fb c (by simp [hc])
      obtain ⟨e2, p2, h2⟩ := C53_intersects ns (H := H) hQ c b (oka c (by simp)) okb (fa c (by simp)) (fb c (by simp))
      refine ⟨min e1 e2, lt_min p1 p2, fun ε hε hle d hd => ?_⟩
      rcases List.mem_cons.1 hd with rfl | hd
      · exact h2 ε hε (hle.trans (min_le_right _ _))
      · exact h1 ε hε (hle.trans (min_le_left _ _)) d hd
  obtain ⟨e1, p1, h1⟩ := hall
  refine ⟨e1, p1, fun ε hε hle fuel gs rect ix ixg gb ha hb hd => ?_⟩
  rw [Shape.Is] at ha
  have hloop : ∀ (cs' : List (Shape K)) (gs' : List (Geo K K)), Shape.IsAll ε ns H Q cs' gs' → (∀ c ∈ cs', c ∈ cs) →
      (∀ g ∈ gs', geoTouches ⟨Ix.exact, exact ε ns, exactR, fuel⟩ gb g ≠ none) → ∀ f : Bool,
      ∃ r, geoTouchesLoop ⟨Ix.exact, exact ε ns, exactR, fuel⟩ gb gs' f = some r ∧
        (r = true ↔ (f = true ∨ ∃ g ∈ gs', geoTouches ⟨Ix.exact, exact ε ns, exactR, fuel⟩ gb g = some true) ∧
          ∀ (i : Nat) (c : Shape K) (g : Geo K K), cs'[i]? = some c → gs'[i]? = some g → (∃ w, c.Has w ∧ b.Has w) → geoTouches ⟨Ix.exact, exact ε ns, exactR, fuel⟩ gb g = some true) := by
    intro cs'
    induction cs' with
    | nil =>
      intro gs' h _ _ f
      match gs', h with
      | [], _ => exact ⟨f, by rw [geoTouchesLoop], by simp⟩
    | cons c cs' ih =>
      intro gs' h hm hn f
      match gs', h with
      | g :: gs', h =>
        rw [Shape.IsAll] at h
        have hrec := ih gs' h.2 (fun c hc => hm c (by simp [hc])) fun g hg => hn g (by simp [hg])
        have split : (∀ (i : Nat) (c' : Shape K) (g' : Geo K K), (c :: cs')[i]? = some c' → (g :: gs')[i]? = some g' → (∃ w, c'.Has w ∧ b.Has w) →
              geoTouches ⟨Ix.exact, exact ε ns, exactR, fuel⟩ gb g' = some true) ↔
            ((∃ w, c.Has w ∧ b.Has w) → geoTouches ⟨Ix.exact, exact ε ns, exactR, fuel⟩ gb g = some true) ∧
            ∀ (i : Nat) (c' : Shape K) (g' : Geo K K), cs'[i]? = some c' → gs'[i]? = some g' → (∃ w, c'.Has w ∧ b.Has w) →
              geoTouches ⟨Ix.exact, exact ε ns, exactR, fuel⟩ gb g' = some true := by
          constructor
          · intro h
            exact ⟨h 0 c g rfl rfl, fun i c' g' h1 h2 => h (i + 1) c' g' h1 h2⟩
          · rintro ⟨h1, h2⟩ i c' g' h3 h4
            cases i with
            | zero => cases h3; cases h4; exact h1
            | succ i => exact h2 i c' g' h3 h4
        rw [geoTouchesLoop, split]
        cases ht : geoTouches ⟨Ix.exact, exact ε ns, exactR, fuel⟩ gb g with
        | none => exact absurd ht (hn g (by simp))
        | some t =>
          cases t with
          | true =>
            obtain ⟨r, k1, k2⟩ := hrec true
            refine ⟨r, k1, ?_⟩
            rw [k2]
            simp [ht]
          | false =>
            obtain ⟨x, x1, x2⟩ := h1 ε hε hle c (hm c (by simp)) fuel g gb h.1 hb
            rw [geoIntersects] at x1
            simp only [x1]
            cases x with
            | true =>
              refine ⟨false, rfl, iff_of_false (by simp) ?_⟩
              rintro ⟨-, k, -⟩
              cases k (x2.1 rfl)
            | false =>
              obtain ⟨r, k1, k2⟩ := hrec f
              refine ⟨r, k1, ?_⟩
              rw [k2]
              have : ¬ ∃ w, c.Has w ∧ b.Has w := fun h => by cases x2.2 h
              simp [ht, this]
  obtain ⟨r, k1, k2⟩ := hloop cs gs ha.2.2 (fun c hc => hc) hd false
  refine ⟨r, by rw [geoTouches]; exact k1, ?_⟩
  rw [k2]
  simp

/-! ### What the answers are not, and that the hypotheses are met -/

/-- The order matters for `touches`: a line starts inside of a square. The collection of both does not touch the start of the line, and the start of the
line touches the collection. -/
theorem C61_order_matters : let p : Geo ℚ ℚ := .atom (.point ⟨5, 5⟩)
    ((polyQ (boxQ 0 0 10 10)).bind fun s => (lineQ [⟨5, 5⟩, ⟨20, 5⟩]).bind fun l => (collQ [s, l]).bind fun c => geoTouches parQ p c) = some false ∧
    ((polyQ (boxQ 0 0 10 10)).bind fun s => (lineQ [⟨5, 5⟩, ⟨20, 5⟩]).bind fun l => (collQ [s, l]).bind fun c => geoTouches parQ c p) = some true := by
  refine ⟨?_, ?_⟩ <;> decide +kernel

/-- A closed line has a start and an end like any other line: it covers the point, touches it, and does not contain it, though by the usual definition a
closed line has no boundary. -/
theorem C61_closed_line : let p : Geo ℚ ℚ := .atom (.point ⟨0, 0⟩)
    ((lineQ (boxQ 0 0 10 10)).bind fun l => geoCovers parQ l p) = some true ∧ ((lineQ (boxQ 0 0 10 10)).bind fun l => geoContains parQ l p) = some false ∧
    ((lineQ (boxQ 0 0 10 10)).bind fun l => geoTouches parQ p l) = some true := by
  refine ⟨?_, ?_, ?_⟩ <;> decide +kernel

/-- A point covers the polygon that is only this point, and does not contain it; it does contain the line that is only this point, and the line does not
contain the point. -/
theorem C61_same_point : let p : Geo ℚ ℚ := .atom (.point ⟨1, 1⟩)
    ((polyQ [⟨1, 1⟩, ⟨1, 1⟩, ⟨1, 1⟩]).bind fun q => geoCovers parQ p q) = some true ∧
    ((polyQ [⟨1, 1⟩, ⟨1, 1⟩, ⟨1, 1⟩]).bind fun q => geoContains parQ p q) = some false ∧
    ((lineQ [⟨1, 1⟩, ⟨1, 1⟩]).bind fun q => geoContains parQ p q) = some true ∧
    ((lineQ [⟨1, 1⟩, ⟨1, 1⟩]).bind fun q => geoContains parQ q p) = some false := by
  refine ⟨?_, ?_, ?_, ?_⟩ <;> decide +kernel

/-- The collection of an empty geometry and a square with a hole meets the hypotheses, for each point. -/
theorem S.ringShape_fit (ns : List (Pt ℚ) → Nat) (ps : List (Pt ℚ)) : (∀ x ∈ ringShape.atoms, x.Ok) ∧ ∀ s ∈ ringShape.rings, Fit ns s ps := by
  have hok : Env.initial.Ok := ⟨by decide, by decide⟩
  refine ⟨(ringShape_ok ns ⟨0, 0⟩ ⟨0, 0⟩).1, ?_⟩
  intro s hs
  simp only [ringShape, Shape.rings, Shape.atoms, Shape.allAtoms, List.nil_append, List.append_nil, List.flatMap_singleton, AShape.rings,
    List.mem_cons, List.not_mem_nil, or_false] at hs
  rcases hs with rfl | rfl
  · exact fit_small hok (by show 5 < _; decide) _
  · exact fit_small hok (by show 5 < _; decide) _

/-- On the edge of the hole: covered, not contained, touched. -/
example (ns : List (Pt ℚ) → Nat) : ∃ ε₀ > 0, ∀ ε, 0 < ε → ε ≤ ε₀ → ∀ (fuel : Nat) (ga : Geo ℚ ℚ), ringShape.Is ε ns exactH insertionQsort ga →
    geoCovers ⟨Ix.exact, exact ε ns, exactR, fuel⟩ ga (.atom (.point ⟨4, 5⟩)) = some true ∧
    geoContains ⟨Ix.exact, exact ε ns, exactR, fuel⟩ ga (.atom (.point ⟨4, 5⟩)) = some false ∧
    geoTouches ⟨Ix.exact, exact ε ns, exactR, fuel⟩ (.atom (.point ⟨4, 5⟩)) ga = some true := by
  obtain ⟨ok, fit⟩ := ringShape_fit ns [⟨4, 5⟩]
  obtain ⟨e1, p1, h1⟩ := C61_covers_point ns exactH insertionQsort ringShape ⟨4, 5⟩ fit
  obtain ⟨e2, p2, h2⟩ := C61_contains_point ns exactH insertionQsort ringShape ⟨4, 5⟩ fit
  obtain ⟨e3, p3, h3⟩ := C61_touches_point ns exactH insertionQsort_ok ringShape ⟨4, 5⟩ ok fit
  refine ⟨min e1 (min e2 e3), lt_min p1 (lt_min p2 p3), fun ε hε hle fuel ga ha => ?_⟩
  obtain ⟨r1, a1, b1⟩ := h1 ε hε (hle.trans (min_le_left _ _)) fuel ga ha
  obtain ⟨r2, a2, b2⟩ := h2 ε hε (hle.trans ((min_le_right _ _).trans (min_le_left _ _))) fuel ga ha
  obtain ⟨r3, a3, b3⟩ := h3 ε hε (hle.trans ((min_le_right _ _).trans (min_le_right _ _))) fuel ga ha
  rw [a1, a2, a3]
  have has : ringShape.Has ⟨4, 5⟩ := by
    simp only [ringShape, Shape.Has, Shape.SomeHas, false_or, or_false]
    refine ⟨?_, ?_⟩
    · rw [Series.segs, InRegion, box_inside (by norm_num) (by norm_num)]
      right; norm_num
    · simp only [List.mem_singleton, forall_eq]
      rw [Series.segs, box_inside (by norm_num) (by norm_num)]
      norm_num
  have inner : ∀ x ∈ ringShape.atoms, ¬ x.Inner ⟨4, 5⟩ := by
    intro x hx
    simp only [ringShape, Shape.atoms, Shape.allAtoms, List.nil_append, List.append_nil, List.mem_singleton] at hx
    subst hx
    rintro ⟨-, h⟩
    refine h _ (List.mem_singleton.2 rfl) (.inl ?_)
    rw [Series.segs, box_boundary (by norm_num) (by norm_num)]
    norm_num
  have hr2 : r2 = false := by
    rw [← Bool.not_eq_true, b2]
    rintro ⟨x, hx, hi⟩
    exact inner x hx hi
  rw [b1.2 has, hr2, b3.2 ⟨has, inner⟩]
  exact ⟨rfl, rfl, rfl⟩

end Tg
