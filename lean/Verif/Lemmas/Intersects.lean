import Verif.Spec.Shape
import Verif.Lemmas.Predicates
import Verif.Props.Relate
import Verif.Props.Line
/-! `tg_geom_intersects` with exact arithmetic. -/
set_option linter.unusedSectionVars false
namespace Tg.S

variable {K : Type*} [Field K] [LinearOrder K] [IsStrictOrderedRing K] [FloorRing K] {ε : K} {ns : List (Pt K) → Nat}

/-! ### The plane -/

/-- Inside or not does not change along a chain that does not meet the boundary. -/
theorem inside_const {l m : List (Pt K)} (hm : m.head? = m.getLast?) (hav : ∀ w, OnBoundary (edges l) w → ¬ OnBoundary (edges m) w) {u v : Pt K}
    (hu : OnBoundary (edges l) u) (hv : OnBoundary (edges l) v) (h : Inside (edges m) u) : Inside (edges m) v := by
  have hpar : ∀ s ∈ edges l, ∀ a b, OnSeg s a → OnSeg s b → ncross (edges m) a % 2 = ncross (edges m) b % 2 := by
    intro s hs a b ha hb
    refine parity_same hm ?_
    rintro s' hs' ⟨v, v1, v2⟩
    exact hav v ⟨s, hs, onSeg_mono (t := ⟨a, b⟩) ha hb v1⟩ ⟨s', hs', v2⟩
  have hc := chain_const (l := l) (f := fun v => ncross (edges m) v % 2 = 1) fun s hs => by
    rw [hpar s hs s.a s.b (onSeg_left s) (onSeg_right s)]
  obtain ⟨s, hs, hus⟩ := hu
  have hv' := hv
  obtain ⟨t, ht, hvt⟩ := hv
  refine ⟨hav v hv', ?_⟩
  rw [← hpar t ht t.a v (onSeg_left t) hvt]
  refine (hc s.a (edge_ends hs).1 t.a (edge_ends ht).1).1 ?_
  rw [hpar s hs s.a u (onSeg_left s) hus]
  exact h.2

/-- A chain with a point inside and one not inside meets the boundary. -/
theorem chain_meets {l m : List (Pt K)} (hm : m.head? = m.getLast?) {u v : Pt K} (hu : OnBoundary (edges l) u) (hv : OnBoundary (edges l) v)
    (h : Inside (edges m) u) (h' : ¬ Inside (edges m) v) : ∃ w, OnBoundary (edges l) w ∧ OnBoundary (edges m) w := by
  by_contra hc
  exact h' (inside_const hm (fun w h1 h2 => hc ⟨w, h1, h2⟩) hu hv h)

/-- If two regions have a point in common, then the boundary of one has a point in the other. -/
theorem boundary_common {l m : List (Pt K)} (hl : l.head? = l.getLast?) (hm : m.head? = m.getLast?) (hl3 : 3 ≤ l.length) {z : Pt K}
    (z1 : InRegion (edges l) z) (z2 : InRegion (edges m) z) :
    (∃ w, OnBoundary (edges m) w ∧ InRegion (edges l) w) ∨ ∃ w, OnBoundary (edges l) w ∧ InRegion (edges m) w := by
  by_contra hc
  rw [not_or] at hc
  have h := inside_of_common hl hm (fun w h1 h2 => hc.1 ⟨w, h1, h2⟩) z1 z2
  match l, hl3 with
  | a :: b :: t, _ => exact hc.2 ⟨a, ⟨⟨a, b⟩, by simp [edges], onSeg_left (⟨a, b⟩ : Seg K)⟩, .inr (h a (by simp))⟩

/-- The region of a ring whose boundary is in a set with a connected outside is in the set. -/
theorem region_sub {l : List (Pt K)} (hl : l.head? = l.getLast?) {S : Pt K → Prop} (hS : Escapes S) (hb : ∀ w, OnBoundary (edges l) w → S w) {R : Rect K}
    (hR : ∀ v ∈ l, R.Has v) {w : Pt K} (hw : InRegion (edges l) w) : S w := by
  by_contra hn
  obtain ⟨path, p1, p2, u, p3, p4⟩ := hS w hn R
  have hw : Inside (edges l) w := by
    rcases hw with h | h
    · exact absurd (hb w h) hn
    · exact h
  match path, p1 with
  | [a], p1 =>
    simp only [List.head?_cons, Option.some.injEq] at p1
    simp only [List.mem_singleton] at p3
    rw [p3, p1] at p4
    exact p4 (region_rect hl hR (.inr hw))
  | a :: b :: t, p1 =>
    simp only [List.head?_cons, Option.some.injEq] at p1
    have on : ∀ (l : List (Pt K)) (x : Pt K), ∀ v ∈ x :: l, l ≠ [] → OnBoundary (edges (x :: l)) v := by
      intro l
      induction l with
      | nil => intro x v _ h; exact absurd rfl h
      | cons y l ih =>
        intro x v hv _
        have e : edges (x :: y :: l) = ⟨x, y⟩ :: edges (y :: l) := rfl
        unfold OnBoundary
        rw [e]
        rcases List.mem_cons.1 hv with rfl | hv
        · exact ⟨⟨v, y⟩, by simp, onSeg_left (⟨v, y⟩ : Seg K)⟩
        · rcases List.mem_cons.1 hv with rfl | hv'
          · exact ⟨⟨x, v⟩, by simp, onSeg_right (⟨x, v⟩ : Seg K)⟩
          · obtain ⟨s, h1, h2⟩ := ih y v (by simp [hv']) (by rintro rfl; simp at hv')
            exact ⟨s, by simp [h1], h2⟩
    have ha := on (b :: t) a a (by simp) (by simp)
    have hu := on (b :: t) a u p3 (by simp)
    rw [p1] at ha hu p2
    have := inside_const hl (l := w :: b :: t) (fun x h1 h2 => by
      obtain ⟨s, hs, hx⟩ := h1
      exact p2 s hs x hx (hb x h2)) ha hu hw
    exact p4 (region_rect hl hR (.inr this))

/-! ### The functions -/

/-- The ring is made of the points, with the flags that the code computes. -/
structure FOk (ε : K) (ns : List (Pt K) → Nat) (s : Series K) (r : FRing K K) : Prop where
  ok : s.e.Ok
  made : newIx Ix.exact (exact ε ns) s.e s.pts true s.ix = some r.ring
  convex : ringConvex s.pts = some r.convex
  clockwise : ringClockwise s.pts = some r.clockwise

/-- The search and the point test of the ring are right for the points. -/
structure Sees (ε : K) (ns : List (Pt K) → Nat) (s : Series K) (r : Ring K K) (ps : List (Pt K)) : Prop where
  search : SearchOk s.e s.pts s.ix r
  pip : ∀ p ∈ ps, PipAt ε ns r s.segs p

theorem Sees.mono {s : Series K} {r : Ring K K} {ps qs : List (Pt K)} (h : Sees ε ns s r ps) (hs : ∀ p ∈ qs, p ∈ ps) : Sees ε ns s r qs :=
  ⟨h.search, fun p hp => h.pip p (hs p hp)⟩

/-- If the flag is set, then the inside is convex. -/
def FlagOk (s : Series K) : Prop := ringConvex s.pts = some true → ConvexSet (Inside s.segs)

theorem segments_short {pts : List (Pt K)} (h : pts.length < 3) : segments pts true = [] := by
  unfold segments
  simp [h]

/-- Inside of a ring: a chain and its ends. -/
theorem hasSegs_iff {s : Series K} {r : FRing K K} (hr : FOk ε ns s r) (hf : FlagOk s) (h3 : 3 ≤ s.pts.length) {qts : List (Pt K)} {closed : Bool} {sp : Nat}
    {o : Ring K K} (ho : RingOk Ix.exact qts closed sp o) (hp : Sees ε ns s r.ring qts) (R : RArith K) :
    ∃ b, allSeg o.points (fun t => ringHasSeg Ix.exact (exact ε ns) R r.convex r.clockwise r.ring t false) (List.range o.nsegs) = some b ∧
      (b = true ↔ ∀ w, OnBoundary (segments qts closed) w → Inside s.segs w) := by
  have hone : ∀ t ∈ segments qts closed, ∃ b, ringHasSeg Ix.exact (exact ε ns) R r.convex r.clockwise r.ring t false = some b ∧
      (b = true ↔ ∀ w, OnSeg t w → Inside s.segs w) := by
    intro t ht
    obtain ⟨k1, k2⟩ := seg_mem_pts ht
    have pa := hp.pip _ k1
    have pb := hp.pip _ k2
    cases hc : r.convex with
    | false => exact ringHasSeg_inside hr.ok h3 hr.made hp.search pa pb R r.clockwise
    | true =>
      obtain ⟨b, h1, h2⟩ := ringHasSeg_convex hr.ok h3 hr.made pa pb R r.clockwise false
      refine ⟨b, h1, ?_⟩
      rw [h2, if_neg (by simp)]
      exact ⟨fun h w hw => hf (hc ▸ hr.convex) _ _ w h.1 h.2 hw, fun h => ⟨h _ (onSeg_left t), h _ (onSeg_right t)⟩⟩
  obtain ⟨b, h1, h2⟩ := allSeg_some (segAt_range ho) fun t ht => (hone t ht).imp fun _ h => h.1
  refine ⟨b, h1, ?_⟩
  rw [h2]
  constructor
  · rintro h w ⟨t, ht, hw⟩
    obtain ⟨b', k1, k2⟩ := hone t ht
    rw [h t ht] at k1
    cases k1
    exact k2.1 rfl w hw
  · intro h t ht
    obtain ⟨b', k1, k2⟩ := hone t ht
    rw [k1, k2.2 fun w hw => h w ⟨t, ht, hw⟩]

theorem seg_of_pts {qts : List (Pt K)} {closed : Bool} (h2 : 2 ≤ qts.length) (h3 : closed = true → 3 ≤ qts.length) : ∀ q ∈ qts,
    OnBoundary (segments qts closed) q := by
  have on : ∀ (l : List (Pt K)) (x : Pt K), ∀ v ∈ x :: l, l ≠ [] → OnBoundary (edges (x :: l)) v := by
    intro l
    induction l with
    | nil => intro x v _ h; exact absurd rfl h
    | cons y l ih =>
      intro x v hv _
      have e : edges (x :: y :: l) = ⟨x, y⟩ :: edges (y :: l) := rfl
      unfold OnBoundary
      rw [e]
      rcases List.mem_cons.1 hv with rfl | hv
      · exact ⟨⟨v, y⟩, by simp, onSeg_left (⟨v, y⟩ : Seg K)⟩
      · rcases List.mem_cons.1 hv with rfl | hv'
        · exact ⟨⟨x, v⟩, by simp, onSeg_right (⟨x, v⟩ : Seg K)⟩
        · obtain ⟨s, h1, h2⟩ := ih y v (by simp [hv']) (by rintro rfl; simp at hv')
          exact ⟨s, by simp [h1], h2⟩
  intro q hq
  cases closed with
  | false =>
    have : segments qts false = edges qts := by rw [segments]; simp
    rw [this]
    match qts, h2 with
    | a :: b :: t, _ => exact on (b :: t) a q hq (by simp)
  | true =>
    obtain ⟨l, hl, -, hl3, hmem⟩ := ring_chain (h3 rfl)
    rw [hl]
    have hq := (hmem q).2 hq
    match l, hl3 with
    | a :: b :: t, _ => exact on (b :: t) a q hq (by simp)

/-- A series whose points are all inside of the ring has its rectangle within the ring's. -/
theorem rect_covers_of_inside {s : Series K} {r : FRing K K} (hr : FOk ε ns s r) (h3 : 3 ≤ s.pts.length) {qts : List (Pt K)} {closed : Bool} {sp : Nat}
    {o : Ring K K} (ho : RingOk Ix.exact qts closed sp o) (h2 : 2 ≤ qts.length) (h : ∀ q ∈ qts, Inside s.segs q) : r.ring.rect.covers o.rect = true := by
  obtain ⟨a1, -⟩ := newIx_some Ix.exact_lawful hr.ok hr.made
  obtain ⟨l, hl, hcl, hl3, hmem⟩ := ring_chain h3
  have := ho.rect_least h2 r.ring.rect fun q hq => region_rect (l := l) hcl (fun v hv => a1.rect_has (by omega) v ((hmem v).1 hv))
    (.inr (by have := h q hq; unfold Series.segs at this; rwa [hl] at this))
  obtain ⟨k1, k2, k3, k4⟩ := this
  rw [Rect.covers]
  simp [k1, k2, k3, k4]

/-- `tg_ring_contains_line` without edges: all of the line is inside. -/
theorem hasLine_iff {s : Series K} {r : FRing K K} (hr : FOk ε ns s r) (hf : FlagOk s) {e : Env} (he : e.Ok) {qts : List (Pt K)} {ix : BitVec 32} {o : Ring K K}
    (ho : newIx Ix.exact (exact ε ns) e qts false ix = some o) (h2 : 2 ≤ qts.length) (hp : Sees ε ns s r.ring qts) (P : Par K K) (hPf : P.f = Ix.exact)
    (hPA : P.A = exact ε ns) :
    ∃ b, hasLine P r o false false = some b ∧ (b = true ↔ ∀ w, OnBoundary (edges qts) w → Inside s.segs w) := by
  obtain ⟨a1, -⟩ := newIx_some Ix.exact_lawful hr.ok hr.made
  obtain ⟨b1, -⟩ := newIx_some Ix.exact_lawful he ho
  have hsegs : segments qts false = edges qts := by rw [segments]; simp
  have hq0 : ∃ q ∈ qts, OnBoundary (edges qts) q := by
    match qts, h2 with
    | q :: t, h2 => exact ⟨q, by simp, hsegs ▸ seg_of_pts h2 (by simp) q (by simp)⟩
  unfold hasLine ringHasLine
  rw [hPf, hPA, ring_not_empty a1, ring_not_empty b1, decide_eq_false (by omega : ¬ qts.length < 2)]
  by_cases h3 : 3 ≤ s.pts.length
  · rw [decide_eq_false (by omega : ¬ s.pts.length < 3), decide_eq_false (by omega : ¬ s.pts.length < 2)]
    simp only [Bool.and_false, Bool.or_self, Bool.false_and, Bool.false_eq_true, if_false, Bool.not_false, Bool.true_and]
    cases hc : r.ring.rect.covers o.rect with
    | true =>
      simp only [Bool.not_true, Bool.false_eq_true, if_false]
      obtain ⟨b, g1, g2⟩ := hasSegs_iff hr hf h3 b1 hp P.R
      exact ⟨b, g1, by rw [g2, hsegs]⟩
    | false =>
      refine ⟨false, by simp, iff_of_false (by simp) fun h => ?_⟩
      have := rect_covers_of_inside hr h3 b1 h2 fun q hq => h q (hsegs ▸ seg_of_pts h2 (by simp) q hq)
      rw [hc] at this
      cases this
  · refine ⟨false, by simp [show s.pts.length < 3 by omega], iff_of_false (by simp) fun h => ?_⟩
    obtain ⟨q, -, hq⟩ := hq0
    have := (h q hq).2
    rw [Series.segs, segments_short (by omega)] at this
    simp [ncross] at this

theorem allPts_some {P : Pt K → Option Bool} : ∀ {ps : List (Pt K)}, (∀ p ∈ ps, ∃ b, P p = some b) →
    ∃ b, allPts P ps = some b ∧ (b = true ↔ ∀ p ∈ ps, P p = some true)
  | [], _ => ⟨true, rfl, by simp⟩
  | p :: ps, h => by
    obtain ⟨b, hb⟩ := h p (by simp)
    obtain ⟨c, hc, hc'⟩ := allPts_some (ps := ps) fun q hq => h q (by simp [hq])
    rw [allPts, hb]
    cases b with
    | false => exact ⟨false, rfl, by simp [hb]⟩
    | true => exact ⟨c, hc, by rw [hc']; simp [hb]⟩

/-- `tg_ring_contains_ring` without edges: all of the boundary is inside. -/
theorem hasRing_iff {s : Series K} {r : FRing K K} (hr : FOk ε ns s r) (hf : FlagOk s) {t : Series K} {o : FRing K K} (ho : FOk ε ns t o)
    (h2 : 3 ≤ t.pts.length) (hp : Sees ε ns s r.ring t.pts) (P : Par K K) (hPf : P.f = Ix.exact) (hPA : P.A = exact ε ns) :
    ∃ b, hasRing P r o false = some b ∧ (b = true ↔ ∀ w, OnBoundary t.segs w → Inside s.segs w) := by
  obtain ⟨a1, -⟩ := newIx_some Ix.exact_lawful hr.ok hr.made
  obtain ⟨b1, -⟩ := newIx_some Ix.exact_lawful ho.ok ho.made
  have hon : ∀ q ∈ t.pts, OnBoundary t.segs q := seg_of_pts (by omega) fun _ => h2
  unfold hasRing ringHasRing
  rw [hPf, hPA, ring_not_empty a1, ring_not_empty b1, decide_eq_false (by omega : ¬ t.pts.length < 2), decide_eq_false (by omega : ¬ t.pts.length < 3)]
  by_cases h3 : 3 ≤ s.pts.length
  · rw [decide_eq_false (by omega : ¬ s.pts.length < 3), decide_eq_false (by omega : ¬ s.pts.length < 2)]
    simp only [Bool.and_false, Bool.or_self, Bool.false_eq_true, if_false]
    cases hc : r.ring.rect.covers o.ring.rect with
    | true =>
      simp only [Bool.not_true, Bool.false_eq_true, if_false]
      cases hv : r.convex with
      | false =>
        simp only [Bool.false_eq_true, if_false]
        obtain ⟨b, g1, g2⟩ := hasSegs_iff hr hf h3 b1 hp P.R
        rw [hv] at g1
        exact ⟨b, g1, g2⟩
      | true =>
        simp only [if_true]
        rw [b1.points_eq, b1.npoints_eq, List.take_left]
        have hpt : ∀ q ∈ t.pts, ∃ b, (ringContainsPoint Ix.exact (exact ε ns) r.ring q false).map (·.1) = some b ∧ (b = true ↔ Inside s.segs q) := by
          intro q hq
          obtain ⟨b, idx, k1, k2, -⟩ := hp.pip q hq false
          refine ⟨b, by rw [k1]; rfl, by rw [k2]; simp⟩
        obtain ⟨b, g1, g2⟩ := allPts_some fun q hq => (hpt q hq).imp fun _ h => h.1
        refine ⟨b, g1, ?_⟩
        rw [g2]
        constructor
        · rintro h w ⟨x, hx, hw⟩
          obtain ⟨k1, k2⟩ := seg_mem_pts hx
          have ins : ∀ q ∈ t.pts, Inside s.segs q := by
            intro q hq
            obtain ⟨b', k1, k2⟩ := hpt q hq
            rw [h q hq] at k1
            cases k1
            exact k2.1 rfl
          exact hf (hv ▸ hr.convex) _ _ w (ins _ k1) (ins _ k2) hw
        · intro h q hq
          obtain ⟨b', k1, k2⟩ := hpt q hq
          rw [k1, k2.2 (h q (hon q hq))]
    | false =>
      refine ⟨false, by simp, iff_of_false (by simp) fun h => ?_⟩
      have := rect_covers_of_inside hr h3 b1 (by omega) fun q hq => h q (hon q hq)
      rw [hc] at this
      cases this
  · refine ⟨false, by simp [show s.pts.length < 3 by omega], iff_of_false (by simp) fun h => ?_⟩
    match ht : t.pts, h2 with
    | q :: _, _ =>
      have := (h q (hon q (by rw [ht]; simp))).2
      rw [Series.segs, segments_short (by omega)] at this
      simp [ncross] at this

/-- `tg_ring_intersects_line` with edges. -/
theorem xLine_iff {s : Series K} {r : FRing K K} (hr : FOk ε ns s r) {e : Env} (he : e.Ok) {qts : List (Pt K)} {ix : BitVec 32} {o : Ring K K}
    (ho : newIx Ix.exact (exact ε ns) e qts false ix = some o) (hp : Sees ε ns s r.ring qts) :
    ∃ b, ringXLine Ix.exact (exact ε ns) r.ring o true = some b ∧ (b = true ↔ ∃ w, OnBoundary (edges qts) w ∧ InRegion s.segs w) := by
  obtain ⟨a1, -⟩ := newIx_some Ix.exact_lawful hr.ok hr.made
  obtain ⟨b1, -⟩ := newIx_some Ix.exact_lawful he ho
  have hsegs : segments qts false = edges qts := by rw [segments]; simp
  unfold ringXLine
  rw [ring_not_empty a1, ring_not_empty b1]
  by_cases h3 : 3 ≤ s.pts.length
  swap
  · refine ⟨false, by simp [show s.pts.length < 3 by omega], iff_of_false (by simp) ?_⟩
    rintro ⟨w, -, h⟩
    rw [Series.segs, segments_short (by omega)] at h
    rcases h with ⟨s, hs, -⟩ | ⟨-, h⟩
    · simp at hs
    · simp [ncross] at h
  by_cases h2 : 2 ≤ qts.length
  swap
  · refine ⟨false, by simp [show qts.length < 2 by omega], iff_of_false (by simp) ?_⟩
    rintro ⟨w, ⟨t, ht, -⟩, -⟩
    match qts, h2 with
    | [], _ => simp [edges] at ht
    | [_], _ => simp [edges] at ht
    | _ :: _ :: _, h2 => simp at h2
  obtain ⟨l, hl, hcl, hl3, hmem⟩ := ring_chain h3
  rw [decide_eq_false (by omega : ¬ s.pts.length < 3), decide_eq_false (by omega : ¬ s.pts.length < 2), decide_eq_false (by omega : ¬ qts.length < 2)]
  simp only [Bool.and_false, Bool.or_self, Bool.false_eq_true, if_false, Bool.false_and]
  by_cases hx : r.ring.rect.intersects o.rect = true
  · rw [hx]
    simp only [Bool.not_true, Bool.false_eq_true, if_false]
    obtain ⟨ans, g1, g2⟩ := anyXSeg_iff hr.ok h3 hr.made hp.search b1 hp.pip
    refine ⟨ans, g1, ?_⟩
    rw [g2, hsegs]
    rfl
  · have hx' : r.ring.rect.intersects o.rect = false := by simpa using hx
    rw [hx']
    refine ⟨false, rfl, iff_of_false (by simp) ?_⟩
    rintro ⟨w, ⟨t, hs, w1⟩, w2⟩
    apply hx
    rw [C20_intersects _ _ (ring_rect_valid a1 (by omega)) (ring_rect_valid b1 (by omega))]
    rw [Series.segs, hl] at w2
    refine ⟨w, region_rect hcl (fun v hv => a1.rect_has (by omega) v ((hmem v).1 hv)) w2, ?_⟩
    rw [← hsegs] at hs
    obtain ⟨k1, k2⟩ := seg_mem_pts hs
    have k1 := b1.rect_has h2 _ k1
    have k2 := b1.rect_has h2 _ k2
    have k3 := onSeg_rect w1
    exact ⟨(le_min k1.1 k2.1).trans k3.1, k3.2.1.trans (max_le k1.2.1 k2.2.1), (le_min k1.2.2.1 k2.2.2.1).trans k3.2.2.1,
      k3.2.2.2.trans (max_le k1.2.2.2 k2.2.2.2)⟩

theorem not_region_short {s : Series K} (h : s.pts.length < 3) (w : Pt K) : ¬ InRegion s.segs w := by
  intro hw
  rw [Series.segs, segments_short h] at hw
  rcases hw with ⟨s, hs, -⟩ | ⟨-, h⟩
  · simp at hs
  · simp [ncross] at h

/-- `tg_ring_intersects_ring` with edges. -/
theorem xRing_iff {s t : Series K} {r o : FRing K K} (hr : FOk ε ns s r) (ho : FOk ε ns t o) (hp : Sees ε ns s r.ring t.pts) (hq : Sees ε ns t o.ring s.pts) :
    ∃ b, ringXRing Ix.exact (exact ε ns) exactR r.ring o.ring true = some b ∧ (b = true ↔ ∃ w, InRegion s.segs w ∧ InRegion t.segs w) := by
  obtain ⟨a1, -⟩ := newIx_some Ix.exact_lawful hr.ok hr.made
  obtain ⟨b1, -⟩ := newIx_some Ix.exact_lawful ho.ok ho.made
  unfold ringXRing
  rw [ring_not_empty a1, ring_not_empty b1]
  by_cases h3 : 3 ≤ s.pts.length
  swap
  · refine ⟨false, by simp [show s.pts.length < 3 by omega], iff_of_false (by simp) ?_⟩
    rintro ⟨w, h, -⟩
    exact not_region_short (by omega) w h
  by_cases h3' : 3 ≤ t.pts.length
  swap
  · refine ⟨false, by simp [show t.pts.length < 3 by omega], iff_of_false (by simp) ?_⟩
    rintro ⟨w, -, h⟩
    exact not_region_short (by omega) w h
  obtain ⟨l, hl, hcl, hl3, hmem⟩ := ring_chain h3
  obtain ⟨m, hm, hcm, hm3, hmem'⟩ := ring_chain h3'
  have al : ∀ v ∈ l, r.ring.rect.Has v := fun v hv => a1.rect_has (by omega) v ((hmem v).1 hv)
  have bm : ∀ v ∈ m, o.ring.rect.Has v := fun v hv => b1.rect_has (by omega) v ((hmem' v).1 hv)
  have al' : ∀ T : Rect K, (∀ v ∈ l, T.Has v) → r.ring.rect.Le T := fun T h => a1.rect_least (by omega) T fun v hv => h v ((hmem v).2 hv)
  have bm' : ∀ T : Rect K, (∀ v ∈ m, T.Has v) → o.ring.rect.Le T := fun T h => b1.rect_least (by omega) T fun v hv => h v ((hmem' v).2 hv)
  rw [decide_eq_false (by omega : ¬ s.pts.length < 3), decide_eq_false (by omega : ¬ s.pts.length < 2),
    decide_eq_false (by omega : ¬ t.pts.length < 3), decide_eq_false (by omega : ¬ t.pts.length < 2)]
  simp only [Bool.and_false, Bool.or_self, Bool.false_eq_true, if_false]
  unfold Series.segs
  by_cases hx : r.ring.rect.intersects o.ring.rect = true
  · rw [hx]
    simp only [Bool.not_true, Bool.false_eq_true, if_false]
    split_ifs with harea
    · obtain ⟨ans, g1, g2⟩ := anyXSeg_iff ho.ok h3' ho.made hq.search a1 hq.pip
      refine ⟨ans, g1, ?_⟩
      rw [g2, hl, hm, common_iff hcm hcl (by rintro rfl; simp at hm3) bm bm' al (le_of_lt harea)]
      exact ⟨fun ⟨w, w1, w2⟩ => ⟨w, w2, w1⟩, fun ⟨w, w1, w2⟩ => ⟨w, w2, w1⟩⟩
    · obtain ⟨ans, g1, g2⟩ := anyXSeg_iff hr.ok h3 hr.made hp.search b1 hp.pip
      refine ⟨ans, g1, ?_⟩
      rw [g2, hl, hm, common_iff hcl hcm (by rintro rfl; simp at hl3) al al' bm (not_lt.1 harea)]
  · have hx' : r.ring.rect.intersects o.ring.rect = false := by simpa using hx
    rw [hx']
    refine ⟨false, rfl, iff_of_false (by simp) ?_⟩
    rintro ⟨w, w1, w2⟩
    apply hx
    rw [C20_intersects _ _ (ring_rect_valid a1 (by omega)) (ring_rect_valid b1 (by omega))]
    rw [hl] at w1
    rw [hm] at w2
    exact ⟨w, region_rect hcl al w1, region_rect hcm bm w2⟩

/-! ### Polygons -/

/-- The polygon is made of the series. -/
def PolyIs (ε : K) (ns : List (Pt K) → Nat) (ext : Series K) (holes : List (Series K)) : PolyS K K → Prop
  | .ring r => holes = [] ∧ FOk ε ns ext r
  | .poly e hs => FOk ε ns ext e ∧ List.Forall₂ (FOk ε ns) holes hs

/-- What has to hold of a polygon: the boundaries of all rings belong to it, rings flagged convex are, and the outside of a hole is connected. -/
structure PolyOk (ext : Series K) (holes : List (Series K)) : Prop where
  boundary : ∀ s ∈ ext :: holes, ∀ w, OnBoundary s.segs w → AShape.Has (.poly ext holes) w
  flags : ∀ h ∈ holes, FlagOk h
  escapes : ∀ h ∈ holes, Escapes (Inside h.segs)

theorem PolyIs.ext {ext : Series K} {holes : List (Series K)} {q : PolyS K K} (h : PolyIs ε ns ext holes q) : FOk ε ns ext q.ext := by
  cases q with
  | ring r => exact h.2
  | poly e hs => exact h.1

theorem PolyIs.holes {ext : Series K} {holes : List (Series K)} {q : PolyS K K} (h : PolyIs ε ns ext holes q) : List.Forall₂ (FOk ε ns) holes q.holes := by
  cases q with
  | ring r => rw [h.1]; exact .nil
  | poly e hs => exact h.2

theorem anyOf_forall2 {γ δ : Type*} {t : δ → Option Bool} {R : γ → δ → Prop} {Q : γ → Prop} : ∀ {xs : List γ} {ys : List δ}, List.Forall₂ R xs ys →
    (∀ x ∈ xs, ∀ y, R x y → ∃ b, t y = some b ∧ (b = true ↔ Q x)) → ∃ b, anyOf t ys = some b ∧ (b = true ↔ ∃ x ∈ xs, Q x)
  | [], [], _, _ => ⟨false, rfl, by simp⟩
  | x :: xs, y :: ys, .cons h hs, hq => by
    obtain ⟨b, h1, h2⟩ := hq x (by simp) y h
    obtain ⟨c, h3, h4⟩ := anyOf_forall2 hs fun z hz => hq z (by simp [hz])
    rw [anyOf, h1]
    cases b with
    | true => exact ⟨true, rfl, by simp [h2.1 rfl]⟩
    | false =>
      refine ⟨c, h3, ?_⟩
      rw [h4]
      have : ¬ Q x := fun hx => by cases h2.2 hx
      simp [this]

/-- The tests of the rings are right for the points. -/
def RingsSee (ε : K) (ns : List (Pt K) → Nat) (ss : List (Series K)) (ps : List (Pt K)) : Prop :=
  ∀ s ∈ ss, ∀ r, newIx Ix.exact (exact ε ns) s.e s.pts true s.ix = some r → Sees ε ns s r ps

theorem poly_point {P : Par K K} (hPf : P.f = Ix.exact) (hPA : P.A = exact ε ns) {ext : Series K} {holes : List (Series K)} {q : PolyS K K}
    (hq : PolyIs ε ns ext holes q) {p : Pt K} (hs : RingsSee ε ns (ext :: holes) [p]) :
    ∃ b, polyHasPt P q p true = some b ∧ (b = true ↔ AShape.Has (.poly ext holes) p) := by
  have hhit : ∀ s ∈ ext :: holes, ∀ r, FOk ε ns s r → ∀ edge, ∃ b, hit P r p edge = some b ∧ (b = true ↔ if edge then InRegion s.segs p else Inside s.segs p) := by
    intro s hm r hr edge
    obtain ⟨b, idx, k1, k2, -⟩ := (hs s hm r.ring hr.made).pip p (by simp) edge
    refine ⟨b, ?_, k2⟩
    rw [hit, hPf, hPA, k1]
    rfl
  have hext := hhit ext (by simp)
  cases q with
  | ring r =>
    obtain ⟨rfl, hr⟩ := hq
    obtain ⟨b, h1, h2⟩ := hext r hr true
    exact ⟨b, h1, by rw [h2]; simp [AShape.Has]⟩
  | poly e hs' =>
    obtain ⟨he, hh⟩ := hq
    obtain ⟨b, h1, h2⟩ := hext e he true
    rw [if_pos rfl] at h2
    obtain ⟨c, h3, h4⟩ := anyOf_forall2 (t := fun h => hit P h p (!true)) (Q := fun s => Inside s.segs p) hh fun s hm r hr => by
      obtain ⟨b, k1, k2⟩ := hhit s (by simp [hm]) r hr false
      exact ⟨b, k1, by rw [k2]; simp⟩
    obtain ⟨a1, -⟩ := newIx_some Ix.exact_lawful he.ok he.made
    rw [polyHasPt]
    have hemp : ringEmpty e.ring = decide (ext.pts.length < 3) := by
      rw [ring_not_empty a1]
      by_cases h : ext.pts.length < 3
      · simp [h]
      · simp [h, show ¬ ext.pts.length < 2 by omega]
    rw [hemp, h1, h3]
    by_cases h : ext.pts.length < 3
    · simp only [h, decide_true, if_true]
      exact ⟨false, rfl, iff_of_false (by simp) fun hw => not_region_short h p hw.1⟩
    · simp only [h, decide_false, Bool.false_eq_true, if_false]
      refine ⟨b && !c, by cases b <;> rfl, ?_⟩
      rw [Bool.and_eq_true, h2, Bool.not_eq_true', ← Bool.not_eq_true, h4]
      simp [AShape.Has]

/-- A chain with a point in the region of the exterior, and with no hole around all of it, has a point in the polygon. -/
theorem chain_has {ext : Series K} {holes : List (Series K)} (hok : PolyOk ext holes) {l : List (Pt K)} {w : Pt K} (h1 : OnBoundary (edges l) w)
    (h2 : InRegion ext.segs w) (h3 : ∀ h ∈ holes, ¬ ∀ u, OnBoundary (edges l) u → Inside h.segs u) :
    ∃ u, OnBoundary (edges l) u ∧ AShape.Has (.poly ext holes) u := by
  by_cases hw : ∀ h ∈ holes, ¬ Inside h.segs w
  · exact ⟨w, h1, h2, hw⟩
  · simp only [not_forall, not_not] at hw
    obtain ⟨h, hm, hin⟩ := hw
    have := h3 h hm
    simp only [not_forall] at this
    obtain ⟨u, hu, hn⟩ := this
    by_cases h3' : 3 ≤ h.pts.length
    · obtain ⟨m, hm', hcm, -, -⟩ := ring_chain h3'
      unfold Series.segs at hin hn
      rw [hm'] at hin hn
      obtain ⟨z, z1, z2⟩ := chain_meets hcm h1 hu hin hn
      exact ⟨z, z1, hok.boundary h (by simp [hm]) z (by rw [Series.segs, hm']; exact z2)⟩
    · exact absurd (.inr hin) (not_region_short (by omega) w)

theorem poly_line {P : Par K K} (hPf : P.f = Ix.exact) (hPA : P.A = exact ε ns) {ext : Series K} {holes : List (Series K)} {q : PolyS K K}
    (hq : PolyIs ε ns ext holes q) (hok : PolyOk ext holes) {s : Series K} (hse : s.e.Ok) {o : Ring K K}
    (ho : newIx Ix.exact (exact ε ns) s.e s.pts false s.ix = some o) (hs : RingsSee ε ns (ext :: holes) s.pts) :
    ∃ b, polyXLine P q o = some b ∧ (b = true ↔ ∃ w, AShape.Has (.poly ext holes) w ∧ AShape.Has (.line s) w) := by
  obtain ⟨b1, -⟩ := newIx_some Ix.exact_lawful hse ho
  cases q with
  | ring r =>
    obtain ⟨rfl, hr⟩ := hq
    obtain ⟨b, h1, h2⟩ := xLine_iff hr hse ho (hs ext (by simp) _ hr.made)
    refine ⟨b, by rw [polyXLine, hPf, hPA]; exact h1, ?_⟩
    rw [h2]
    simp only [AShape.Has, List.not_mem_nil, false_implies, implies_true, and_true]
    exact ⟨fun ⟨w, x, y⟩ => ⟨w, y, x⟩, fun ⟨w, x, y⟩ => ⟨w, y, x⟩⟩
  | poly e hs' =>
    obtain ⟨he, hh⟩ := hq
    obtain ⟨a1, -⟩ := newIx_some Ix.exact_lawful he.ok he.made
    obtain ⟨b, h1, h2⟩ := xLine_iff he hse ho (hs ext (by simp) _ he.made)
    rw [polyXLine]
    by_cases hdead : ext.pts.length < 3 ∨ s.pts.length < 2
    · have : (ringEmpty e.ring || ringEmpty o) = true := by
        rw [ring_not_empty a1, ring_not_empty b1]
        rcases hdead with h | h <;> simp [h]
      rw [this]
      refine ⟨false, rfl, iff_of_false (by simp) ?_⟩
      rintro ⟨w, w1, t, ht, w2⟩
      rcases hdead with h | h
      · exact not_region_short h w w1.1
      · match hsp : s.pts, h with
        | [], _ => rw [hsp] at ht; simp [edges] at ht
        | [_], _ => rw [hsp] at ht; simp [edges] at ht
    · rw [not_or, not_lt, not_lt] at hdead
      have : (ringEmpty e.ring || ringEmpty o) = false := by
        rw [ring_not_empty a1, ring_not_empty b1]
        simp [show ¬ ext.pts.length < 3 by omega, show ¬ ext.pts.length < 2 by omega, show ¬ s.pts.length < 2 by omega]
      rw [this]
      simp only [Bool.false_eq_true, if_false]
      obtain ⟨c, h3, h4⟩ := anyOf_forall2 (t := fun h => hasLine P h o false false) (Q := fun h => ∀ w, OnBoundary (edges s.pts) w → Inside h.segs w) hh
        fun h hm r hr => hasLine_iff hr (hok.flags h hm) hse ho hdead.2 (hs h (by simp [hm]) _ hr.made) P hPf hPA
      rw [hPf, hPA, h1, h3]
      refine ⟨b && !c, by cases b <;> rfl, ?_⟩
      rw [Bool.and_eq_true, h2, Bool.not_eq_true', ← Bool.not_eq_true, h4]
      constructor
      · rintro ⟨⟨w, w1, w2⟩, w3⟩
        obtain ⟨u, u1, u2⟩ := chain_has hok w1 w2 fun h hm hc => w3 ⟨h, hm, hc⟩
        exact ⟨u, u2, u1⟩
      · rintro ⟨w, w1, w2⟩
        refine ⟨⟨w, w2, w1.1⟩, ?_⟩
        rintro ⟨h, hm, hc⟩
        exact w1.2 h hm (hc w w2)

theorem poly_poly {P : Par K K} (hPf : P.f = Ix.exact) (hPA : P.A = exact ε ns) (hPR : P.R = exactR) {ea eb : Series K} {ha hb : List (Series K)} {q r : PolyS K K}
    (hq : PolyIs ε ns ea ha q) (hr : PolyIs ε ns eb hb r) (oka : PolyOk ea ha) (okb : PolyOk eb hb) (sa : RingsSee ε ns (ea :: ha) eb.pts)
    (sb : RingsSee ε ns (eb :: hb) ea.pts) :
    ∃ b, polyXPoly P q r = some b ∧ (b = true ↔ ∃ w, AShape.Has (.poly ea ha) w ∧ AShape.Has (.poly eb hb) w) := by
  have fa := hq.ext
  have fb := hr.ext
  obtain ⟨a1, -⟩ := newIx_some Ix.exact_lawful fa.ok fa.made
  obtain ⟨b1, -⟩ := newIx_some Ix.exact_lawful fb.ok fb.made
  -- the answer of the general case
  have gen : ∃ b, (if polyEmpty q || polyEmpty r then some false
      else andM (ringXRing P.f P.A P.R r.ext.ring q.ext.ring true)
        (andM (notM (anyOf (fun h => hasRing P h r.ext false) q.holes)) (notM (anyOf (fun h => hasRing P h q.ext false) r.holes)))) = some b ∧
      (b = true ↔ ∃ w, AShape.Has (.poly ea ha) w ∧ AShape.Has (.poly eb hb) w) := by
    by_cases hdead : ea.pts.length < 3 ∨ eb.pts.length < 3
    · have : (polyEmpty q || polyEmpty r) = true := by
        rw [polyEmpty, polyEmpty, ring_not_empty a1, ring_not_empty b1]
        rcases hdead with h | h <;> simp [h]
      rw [this]
      refine ⟨false, rfl, iff_of_false (by simp) ?_⟩
      rintro ⟨w, w1, w2⟩
      rcases hdead with h | h
      · exact not_region_short h w w1.1
      · exact not_region_short h w w2.1
    rw [not_or, not_lt, not_lt] at hdead
    obtain ⟨h3, h3'⟩ := hdead
    have : (polyEmpty q || polyEmpty r) = false := by
      rw [polyEmpty, polyEmpty, ring_not_empty a1, ring_not_empty b1]
      simp [show ¬ ea.pts.length < 3 by omega, show ¬ ea.pts.length < 2 by omega, show ¬ eb.pts.length < 3 by omega, show ¬ eb.pts.length < 2 by omega]
    rw [this]
    simp only [Bool.false_eq_true, if_false]
    obtain ⟨b, k1, k2⟩ := xRing_iff fb fa (sb eb (by simp) _ fb.made) (sa ea (by simp) _ fa.made)
    obtain ⟨c, k3, k4⟩ := anyOf_forall2 (t := fun h => hasRing P h r.ext false) (Q := fun h => ∀ w, OnBoundary eb.segs w → Inside h.segs w) hq.holes
      fun h hm x hx => hasRing_iff hx (oka.flags h hm) fb h3' (sa h (by simp [hm]) _ hx.made) P hPf hPA
    obtain ⟨d, k5, k6⟩ := anyOf_forall2 (t := fun h => hasRing P h q.ext false) (Q := fun h => ∀ w, OnBoundary ea.segs w → Inside h.segs w) hr.holes
      fun h hm x hx => hasRing_iff hx (okb.flags h hm) fa h3 (sb h (by simp [hm]) _ hx.made) P hPf hPA
    rw [hPR, hPf, hPA, k1, k3, k5]
    refine ⟨b && (!c && !d), by cases b <;> cases c <;> cases d <;> rfl, ?_⟩
    rw [Bool.and_eq_true, Bool.and_eq_true, k2, Bool.not_eq_true', ← Bool.not_eq_true, k4, Bool.not_eq_true', ← Bool.not_eq_true, k6]
    obtain ⟨l, hl, hcl, hl3, hmem⟩ := ring_chain h3
    obtain ⟨m, hm, hcm, hm3, hmem'⟩ := ring_chain h3'
    have el : ea.segs = edges l := hl
    have em : eb.segs = edges m := hm
    constructor
    · rintro ⟨⟨z, z1, z2⟩, n1, n2⟩
      rw [el] at z2
      rw [em] at z1
      rcases boundary_common hcl hcm hl3 z2 z1 with ⟨w, w1, w2⟩ | ⟨w, w1, w2⟩
      · obtain ⟨u, u1, u2⟩ := chain_has oka w1 (by rw [el]; exact w2) fun h hh hc => n1 ⟨h, hh, by rw [em]; exact hc⟩
        exact ⟨u, u2, okb.boundary eb (by simp) u (by rw [em]; exact u1)⟩
      · obtain ⟨u, u1, u2⟩ := chain_has okb w1 (by rw [em]; exact w2) fun h hh hc => n2 ⟨h, hh, by rw [el]; exact hc⟩
        exact ⟨u, oka.boundary ea (by simp) u (by rw [el]; exact u1), u2⟩
    · rintro ⟨w, w1, w2⟩
      refine ⟨⟨w, w2.1, w1.1⟩, ?_, ?_⟩
      · rintro ⟨h, hh, hc⟩
        refine w1.2 h hh (region_sub hcm (oka.escapes h hh) (fun u hu => hc u (by rw [em]; exact hu)) (R := r.ext.ring.rect) ?_ (by rw [← em]; exact w2.1))
        exact fun v hv => b1.rect_has (by omega) v ((hmem' v).1 hv)
      · rintro ⟨h, hh, hc⟩
        refine w2.2 h hh (region_sub hcl (okb.escapes h hh) (fun u hu => hc u (by rw [el]; exact hu)) (R := q.ext.ring.rect) ?_ (by rw [← el]; exact w1.1))
        exact fun v hv => a1.rect_has (by omega) v ((hmem v).1 hv)
  cases q with
  | poly e hs =>
    cases r <;> exact gen
  | ring x =>
    cases r with
    | poly e hs => exact gen
    | ring y =>
      obtain ⟨rfl, hx⟩ := hq
      obtain ⟨rfl, hy⟩ := hr
      obtain ⟨b, k1, k2⟩ := xRing_iff hx hy (sa ea (by simp) _ hx.made) (sb eb (by simp) _ hy.made)
      refine ⟨b, by rw [polyXPoly, hPf, hPA, hPR]; exact k1, ?_⟩
      rw [k2]
      simp [AShape.Has]

/-! ### Simple geometries -/

/-- The geometry is made of the simple shape. -/
def AShape.Is (ε : K) (ns : List (Pt K) → Nat) : AShape K → Atom K K → Prop
  | .point p, .point q => q = p
  | .line s, .line l => s.e.Ok ∧ newIx Ix.exact (exact ε ns) s.e s.pts false s.ix = some l
  | .poly ext holes, .poly q => PolyIs ε ns ext holes q
  | _, _ => False

/-- What has to hold of polygons. -/
def AShape.Ok : AShape K → Prop
  | .poly ext holes => PolyOk ext holes
  | _ => True

theorem line_line {P : Par K K} (hPf : P.f = Ix.exact) (hPA : P.A = exact ε ns) {s t : Series K} (hs : s.e.Ok) (ht : t.e.Ok) {a b : Ring K K}
    (ha : newIx Ix.exact (exact ε ns) s.e s.pts false s.ix = some a) (hb : newIx Ix.exact (exact ε ns) t.e t.pts false t.ix = some b) :
    ∃ r, lineXLine P a b = some r ∧ (r = true ↔ ∃ w, OnBoundary (edges s.pts) w ∧ OnBoundary (edges t.pts) w) := by
  have hlen : ∀ {e : Env} {pts : List (Pt K)} {ix : BitVec 32} {line : Ring K K}, (segments pts false).length < pts.length ∨
      pts.length % spreadOf e ix = 0 ∨ line.index = none := by
    intro e pts ix line
    cases pts with
    | nil => right; left; simp
    | cons a l => left; rw [segments]; simp [edges_length]
  obtain ⟨l, -, h1, h2⟩ := C23_exact_partial hs ht ha hb hlen hlen
  have hsegs : ∀ qts : List (Pt K), segments qts false = edges qts := fun qts => by rw [segments]; simp
  rw [lineXLine, hPf, hPA]
  have := h2 Bool (fun _ _ _ _ _ => (true, false)) false
  rw [this]
  refine ⟨_, rfl, ?_⟩
  rcases hl : l with _ | ⟨⟨⟨s1, i⟩, ⟨t1, j⟩⟩, l'⟩
  · rw [visit]
    refine iff_of_false (by simp) ?_
    rintro ⟨w, ⟨u, hu, w1⟩, ⟨v, hv, w2⟩⟩
    rw [← hsegs] at hu hv
    obtain ⟨i, hi⟩ := List.mem_iff_getElem?.1 hu
    obtain ⟨j, hj⟩ := List.mem_iff_getElem?.1 hv
    have := (h1 u i v j).2 ⟨hi, hj, w, w1, w2⟩
    rw [hl] at this
    simp at this
  · have := (h1 s1 i t1 j).1 (by rw [hl]; simp)
    obtain ⟨k1, k2, w, w1, w2⟩ := this
    rw [visit]
    simp only [Bool.false_eq_true, if_false, true_iff]
    exact ⟨w, ⟨s1, by rw [← hsegs]; exact List.mem_of_getElem? k1, w1⟩, ⟨t1, by rw [← hsegs]; exact List.mem_of_getElem? k2, w2⟩⟩

/-- The tests of simple geometries. -/
theorem atomX_exact {P : Par K K} (hPf : P.f = Ix.exact) (hPA : P.A = exact ε ns) (hPR : P.R = exactR) {x y : AShape K} {a b : Atom K K} (ha : x.Is ε ns a)
    (hb : y.Is ε ns b) (okx : x.Ok) (oky : y.Ok) (sx : RingsSee ε ns x.rings y.verts) (sy : RingsSee ε ns y.rings x.verts) :
    ∃ r, atomX P a b = some r ∧ (r = true ↔ ∃ w, x.Has w ∧ y.Has w) := by
  have swap : ∀ {x y : AShape K}, (∃ w, x.Has w ∧ y.Has w) ↔ ∃ w, y.Has w ∧ x.Has w :=
    ⟨fun ⟨w, h1, h2⟩ => ⟨w, h2, h1⟩, fun ⟨w, h1, h2⟩ => ⟨w, h2, h1⟩⟩
  have ptPoly : ∀ (p : Pt K) (ext : Series K) (holes : List (Series K)), AShape.Has (.poly ext holes) p ↔
      ∃ w, AShape.Has (.point p) w ∧ AShape.Has (.poly ext holes) w :=
    fun p ext holes => ⟨fun h => ⟨p, rfl, h⟩, by rintro ⟨w, rfl, h⟩; exact h⟩
  have ptLine : ∀ (p : Pt K) (s : Series K), (∃ t ∈ edges s.pts, OnSeg t p) ↔ ∃ w, AShape.Has (.point p) w ∧ AShape.Has (.line s) w :=
    fun p s => ⟨fun h => ⟨p, rfl, h⟩, by rintro ⟨w, rfl, h⟩; exact h⟩
  match x, a, ha, y, b, hb, okx, oky, sx, sy with
  | .point p, .point p', ha, .point q, .point q', hb, _, _, _, _ =>
    rw [show p' = p from ha, show q' = q from hb]
    refine ⟨pteq p q, rfl, ?_⟩
    rw [pteq]
    simp only [AShape.Has, exists_eq_left, Bool.and_eq_true, feq_iff]
    constructor
    · rintro ⟨h1, h2⟩; exact Pt.ext h1 h2
    · rintro rfl; exact ⟨rfl, rfl⟩
  | .point p, .point p', ha, .line s, .line l, hb, _, _, _, _ =>
    rw [show p' = p from ha, atomX, hPf, hPA]
    obtain ⟨r, h1, h2⟩ := C46_line_covers_point hb.1 hb.2 p
    exact ⟨r, h1, h2.trans (ptLine p s)⟩
  | .line s, .line l, hb, .point p, .point p', ha, _, _, _, _ =>
    rw [show p' = p from ha, atomX, hPf, hPA]
    obtain ⟨r, h1, h2⟩ := C46_line_covers_point hb.1 hb.2 p
    exact ⟨r, h1, (h2.trans (ptLine p s)).trans swap⟩
  | .point p, .point p', ha, .poly ext holes, .poly q, hb, _, _, _, sy =>
    rw [show p' = p from ha, atomX]
    obtain ⟨r, h1, h2⟩ := poly_point hPf hPA hb (p := p) sy
    exact ⟨r, h1, h2.trans (ptPoly p ext holes)⟩
  | .poly ext holes, .poly q, hb, .point p, .point p', ha, _, _, sy, _ =>
    rw [show p' = p from ha, atomX]
    obtain ⟨r, h1, h2⟩ := poly_point hPf hPA hb (p := p) sy
    exact ⟨r, h1, (h2.trans (ptPoly p ext holes)).trans swap⟩
  | .line s, .line l, ha, .line t, .line m, hb, _, _, _, _ => exact line_line hPf hPA ha.1 hb.1 ha.2 hb.2
  | .line s, .line l, ha, .poly ext holes, .poly q, hb, _, oky, _, sy =>
    obtain ⟨r, h1, h2⟩ := poly_line hPf hPA hb oky ha.1 ha.2 sy
    exact ⟨r, h1, h2.trans swap⟩
  | .poly ext holes, .poly q, hb, .line s, .line l, ha, oky, _, sy, _ => exact poly_line hPf hPA hb oky ha.1 ha.2 sy
  | .poly ea ha', .poly q, ha, .poly eb hb', .poly r, hb, okx, oky, sx, sy => exact poly_poly hPf hPA hPR ha hb okx oky sx sy

/-! ### Collections -/

mutual
/-- The geometry is made of the shape; the flag of a collection without children is free. -/
def Shape.Is (ε : K) (ns : List (Pt K) → Nat) (H : HArith K) (Q : Qsort) : Shape K → Geo K K → Prop
  | .null, .null => True
  | .empty, .empty => True
  | .atom a, .atom b => a.Is ε ns b
  | .coll cs, .multi flag gs rect ix ixg =>
    (flag = true → gs = []) ∧ multiNew Ix.exact H Q Geo.rect gs = some ⟨gs, rect, ix, ixg⟩ ∧ Shape.IsAll ε ns H Q cs gs
  | _, _ => False

/-- The geometries are made of the shapes. -/
def Shape.IsAll (ε : K) (ns : List (Pt K) → Nat) (H : HArith K) (Q : Qsort) : List (Shape K) → List (Geo K K) → Prop
  | [], [] => True
  | c :: cs, g :: gs => c.Is ε ns H Q g ∧ Shape.IsAll ε ns H Q cs gs
  | _, _ => False
end

theorem AShape.Is.made {x : AShape K} {a : Atom K K} (h : x.Is ε ns a) : a.Made Ix.exact (exact ε ns) := by
  match x, a, h with
  | .point p, .point p', _ => trivial
  | .line s, .line l, h => exact ⟨s.e, s.pts, s.ix, h.1, h.2⟩
  | .poly ext holes, .poly q, h =>
    have he := PolyIs.ext h
    have hh := PolyIs.holes h
    intro r hr
    rcases List.mem_cons.1 hr with rfl | hr
    · exact ⟨_, _, _, he.ok, he.made⟩
    · obtain ⟨i, hi⟩ := List.mem_iff_getElem?.1 hr
      have := List.forall₂_iff_get.1 hh
      obtain ⟨hlt, hget⟩ := List.getElem?_eq_some_iff.1 hi
      have h2 := this.2 i (by rw [this.1]; exact hlt) hlt
      simp only [List.get_eq_getElem, hget] at h2
      exact ⟨_, _, _, h2.ok, h2.made⟩

mutual
theorem Shape.Is.made {H : HArith K} {Q : Qsort} : ∀ {s : Shape K} {g : Geo K K}, s.Is ε ns H Q g → g.Made Ix.exact (exact ε ns) H Q
  | .null, .null, _ => by rw [Geo.Made]; trivial
  | .empty, .empty, _ => by rw [Geo.Made]; trivial
  | .atom a, .atom b, h => by rw [Geo.Made]; rw [Shape.Is] at h; exact h.made
  | .coll cs, .multi flag gs rect ix ixg, h => by
    rw [Shape.Is] at h
    rw [Geo.Made]
    exact ⟨h.1, h.2.1, fun c _ => ⟨le_rfl, le_rfl, le_rfl, le_rfl⟩, Shape.IsAll.made h.2.2⟩
theorem Shape.IsAll.made {H : HArith K} {Q : Qsort} : ∀ {ss : List (Shape K)} {gs : List (Geo K K)}, Shape.IsAll ε ns H Q ss gs →
    AllMade Ix.exact (exact ε ns) H Q gs
  | [], [], _ => by rw [AllMade]; trivial
  | c :: cs, g :: gs, h => by rw [Shape.IsAll] at h; rw [AllMade]; exact ⟨Shape.Is.made h.1, Shape.IsAll.made h.2⟩
end

mutual
theorem Shape.has_iff : ∀ (s : Shape K) (w : Pt K), s.Has w ↔ ∃ x ∈ s.atoms, x.Has w
  | .null, w => by simp [Shape.Has, Shape.atoms]
  | .empty, w => by simp [Shape.Has, Shape.atoms]
  | .atom a, w => by simp [Shape.Has, Shape.atoms]
  | .coll cs, w => by rw [Shape.Has, Shape.atoms]; exact Shape.someHas_iff cs w
theorem Shape.someHas_iff : ∀ (ss : List (Shape K)) (w : Pt K), Shape.SomeHas ss w ↔ ∃ x ∈ Shape.allAtoms ss, x.Has w
  | [], w => by simp [Shape.SomeHas, Shape.allAtoms]
  | c :: cs, w => by
    rw [Shape.SomeHas, Shape.allAtoms, Shape.has_iff c w, Shape.someHas_iff cs w]
    simp only [List.mem_append, or_and_right, exists_or]
end

section
variable {H : HArith K} {Q : Qsort} {t : Atom K K → Option Bool} {q : AShape K → Prop}

mutual
theorem someGeo_iff : ∀ {s : Shape K} {g : Geo K K}, s.Is ε ns H Q g → (∀ x ∈ s.atoms, ∀ a, x.Is ε ns a → ∃ r, t a = some r ∧ (r = true ↔ q x)) →
    ∃ r, someGeo t g = some r ∧ (r = true ↔ ∃ x ∈ s.atoms, q x)
  | .null, .null, _, _ => ⟨false, by rw [someGeo], by simp [Shape.atoms]⟩
  | .empty, .empty, _, _ => ⟨false, by rw [someGeo], by simp [Shape.atoms]⟩
  | .atom x, .atom a, h, ht => by
    rw [Shape.Is] at h
    obtain ⟨r, h1, h2⟩ := ht x (by simp [Shape.atoms]) a h
    exact ⟨r, by rw [someGeo, h1], by rw [h2]; simp [Shape.atoms]⟩
  | .coll cs, .multi flag gs rect ix ixg, h, ht => by
    rw [Shape.Is] at h
    rw [Shape.atoms] at ht
    rw [someGeo, Shape.atoms]
    obtain ⟨r, h1, h2⟩ := someGeos_iff h.2.2 ht
    cases hf : flag with
    | false => exact ⟨r, h1, h2⟩
    | true =>
      have hg := h.1 hf
      rw [hg, someGeos] at h1
      cases h1
      exact ⟨false, rfl, h2⟩
theorem someGeos_iff : ∀ {ss : List (Shape K)} {gs : List (Geo K K)}, Shape.IsAll ε ns H Q ss gs →
    (∀ x ∈ Shape.allAtoms ss, ∀ a, x.Is ε ns a → ∃ r, t a = some r ∧ (r = true ↔ q x)) →
    ∃ r, someGeos t gs = some r ∧ (r = true ↔ ∃ x ∈ Shape.allAtoms ss, q x)
  | [], [], _, _ => ⟨false, by rw [someGeos], by simp [Shape.allAtoms]⟩
  | c :: cs, g :: gs, h, ht => by
    rw [Shape.IsAll] at h
    rw [Shape.allAtoms] at ht ⊢
    obtain ⟨r, h1, h2⟩ := someGeo_iff h.1 fun x hx => ht x (List.mem_append_left _ hx)
    obtain ⟨r', h3, h4⟩ := someGeos_iff h.2 fun x hx => ht x (List.mem_append_right _ hx)
    rw [someGeos, h1]
    simp only [List.mem_append, or_and_right, exists_or, ← h2, ← h4]
    cases r with
    | true => exact ⟨true, rfl, by simp⟩
    | false => exact ⟨r', h3, by simp⟩
end
end

section
variable {H : HArith K} {Q : Qsort} (hQ : QsortOk Q) {P : Par K K} (hPf : P.f = Ix.exact) (hPA : P.A = exact ε ns) {b : Geo K K} {q : AShape K → Prop}
include hQ hPf hPA

mutual
theorem geoX_iff : ∀ {s : Shape K} {g : Geo K K}, s.Is ε ns H Q g →
    (∀ x ∈ s.atoms, ∀ a, x.Is ε ns a → ∃ r, someGeo (atomX P a) b = some r ∧ (r = true ↔ q x)) →
    ∃ r, geoX P b g = some r ∧ (r = true ↔ ∃ x ∈ s.atoms, q x)
  | .null, .null, _, _ => ⟨false, by rw [geoX], by simp [Shape.atoms]⟩
  | .empty, .empty, _, _ => ⟨false, by rw [geoX], by simp [Shape.atoms]⟩
  | .atom x, .atom a, h, ht => by
    rw [Shape.Is] at h
    obtain ⟨r, h1, h2⟩ := ht x (by simp [Shape.atoms]) a h
    exact ⟨r, by rw [geoX, h1], by rw [h2]; simp [Shape.atoms]⟩
  | .coll cs, .multi flag gs rect ix ixg, h, ht => by
    have hm := Shape.Is.made h
    rw [Shape.Is] at h
    rw [Shape.atoms] at ht ⊢
    obtain ⟨k1, k2⟩ := geoXs_iff h.2.2 ht
    cases hf : flag with
    | false =>
      rw [hf] at hm
      refine ⟨_, geoX_multi (P := P) (by rw [hPf]; exact Ix.exact_lawful) (by rw [hPf]; exact fun _ _ h => h) hQ (by rw [hPf, hPA]; exact hm) k1, ?_⟩
      rw [List.any_eq_true, ← k2]
      simp
    | true =>
      have hg := h.1 hf
      refine ⟨false, by rw [geoX]; rfl, ?_⟩
      rw [← k2, hg]
      simp
theorem geoXs_iff : ∀ {ss : List (Shape K)} {gs : List (Geo K K)}, Shape.IsAll ε ns H Q ss gs →
    (∀ x ∈ Shape.allAtoms ss, ∀ a, x.Is ε ns a → ∃ r, someGeo (atomX P a) b = some r ∧ (r = true ↔ q x)) →
    (∀ c ∈ gs, geoX P b c ≠ none) ∧ ((∃ c ∈ gs, geoX P b c = some true) ↔ ∃ x ∈ Shape.allAtoms ss, q x)
  | [], [], _, _ => by simp [Shape.allAtoms]
  | c :: cs, g :: gs, h, ht => by
    rw [Shape.IsAll] at h
    rw [Shape.allAtoms] at ht ⊢
    obtain ⟨r, h1, h2⟩ := geoX_iff h.1 fun x hx => ht x (List.mem_append_left _ hx)
    obtain ⟨h3, h4⟩ := geoXs_iff h.2 fun x hx => ht x (List.mem_append_right _ hx)
    simp only [List.mem_append, or_and_right, exists_or, ← h2, ← h4, List.mem_cons, forall_eq_or_imp, exists_eq_or_imp, h1]
    exact ⟨⟨by simp, h3⟩, by cases r <;> simp [h1]⟩
end
end

theorem RingsSee.mono {ss ss' : List (Series K)} {ps ps' : List (Pt K)} (h : RingsSee ε ns ss ps) (hs : ∀ s ∈ ss', s ∈ ss) (hp : ∀ p ∈ ps', p ∈ ps) :
    RingsSee ε ns ss' ps' := fun s hm r hr => (h s (hs s hm) r hr).mono hp

theorem intersects_exact {H : HArith K} {Q : Qsort} (hQ : QsortOk Q) {P : Par K K} (hPf : P.f = Ix.exact) (hPA : P.A = exact ε ns) (hPR : P.R = exactR)
    {a b : Shape K} {ga gb : Geo K K} (ha : a.Is ε ns H Q ga) (hb : b.Is ε ns H Q gb) (oka : ∀ x ∈ a.atoms, x.Ok) (okb : ∀ x ∈ b.atoms, x.Ok)
    (sa : RingsSee ε ns a.rings b.verts) (sb : RingsSee ε ns b.rings a.verts) :
    ∃ r, geoIntersects P ga gb = some r ∧ (r = true ↔ ∃ w, a.Has w ∧ b.Has w) := by
  have key : ∀ x ∈ a.atoms, ∀ xa, x.Is ε ns xa → ∃ r, someGeo (atomX P xa) gb = some r ∧ (r = true ↔ ∃ y ∈ b.atoms, ∃ w, x.Has w ∧ y.Has w) := by
    intro x hx xa hxa
    refine someGeo_iff hb fun y hy yb hyb => ?_
    exact atomX_exact hPf hPA hPR hxa hyb (oka x hx) (okb y hy)
      (sa.mono (fun s hs => List.mem_flatMap.2 ⟨x, hx, hs⟩) fun p hp => List.mem_flatMap.2 ⟨y, hy, hp⟩)
      (sb.mono (fun s hs => List.mem_flatMap.2 ⟨y, hy, hs⟩) fun p hp => List.mem_flatMap.2 ⟨x, hx, hp⟩)
  obtain ⟨r, h1, h2⟩ := geoX_iff hQ hPf hPA ha key
  refine ⟨r, h1, ?_⟩
  rw [h2]
  constructor
  · rintro ⟨x, hx, y, hy, w, w1, w2⟩
    exact ⟨w, (a.has_iff w).2 ⟨x, hx, w1⟩, (b.has_iff w).2 ⟨y, hy, w2⟩⟩
  · rintro ⟨w, w1, w2⟩
    obtain ⟨x, hx, w1⟩ := (a.has_iff w).1 w1
    obtain ⟨y, hy, w2⟩ := (b.has_iff w).1 w2
    exact ⟨x, hx, y, hy, w, w1, w2⟩

/-! ### Small tolerances -/

/-- The rings whose search and point test are right: the environment has sane values, and the search and the stripes are not those of
`C22_open_ring_missed` and of `TopOk`. -/
structure Fit (ns : List (Pt K) → Nat) (s : Series K) (ps : List (Pt K)) : Prop where
  env : s.e.Ok
  good : ∀ ε, 0 < ε → ∀ r : Ring K K, newIx Ix.exact (exact ε ns) s.e s.pts true s.ix = some r → SearchOk s.e s.pts s.ix r ∧ ∀ p ∈ ps, TopOk r s.segs p

theorem pipAt_short {e : Env} (he : e.Ok) {pts : List (Pt K)} (h3 : pts.length < 3) {ix : BitVec 32} {r : Ring K K}
    (hr : newIx Ix.exact (exact ε ns) e pts true ix = some r) (p : Pt K) : PipAt ε ns r (segments pts true) p := by
  have hd : Dead r := MadeRing.dead Ix.exact_lawful ⟨e, pts, ix, he, hr⟩ (by
    rw [ring_not_empty (newIx_some Ix.exact_lawful he hr).1]
    simp [h3])
  intro edge
  refine ⟨false, none, hd.containsPt _ _ p edge, ?_, ?_, by simp⟩
  · rw [segments_short h3]
    refine iff_of_false (by simp) ?_
    split_ifs <;> simp [InRegion, Inside, OnBoundary, ncross]
  · rw [segments_short h3]
    simp [OnBoundary]

theorem ringsSee_of (ns : List (Pt K) → Nat) : ∀ (ss : List (Series K)) (ps : List (Pt K)), (∀ s ∈ ss, Fit ns s ps) →
    ∃ ε₀ > 0, ∀ ε : K, 0 < ε → ε ≤ ε₀ → RingsSee ε ns ss ps
  | [], ps, _ => ⟨1, one_pos, fun ε _ _ s hs => by simp at hs⟩
  | s :: ss, ps, h => by
    obtain ⟨e1, p1, h1⟩ := ringsSee_of ns ss ps fun x hx => h x (by simp [hx])
    have hs := h s (by simp)
    have : ∃ ε₀ > 0, ∀ ε : K, 0 < ε → ε ≤ ε₀ → ∀ r, newIx Ix.exact (exact ε ns) s.e s.pts true s.ix = some r → Sees ε ns s r ps := by
      by_cases h3 : 3 ≤ s.pts.length
      · obtain ⟨e2, p2, h2⟩ := pipAt_all hs.env ns h3 s.ix ps
        refine ⟨e2, p2, fun ε hε hle r hr => ?_⟩
        obtain ⟨g1, g2⟩ := hs.good ε hε r hr
        exact ⟨g1, h2 ε hε hle r hr g1.weaken g2⟩
      · refine ⟨1, one_pos, fun ε hε _ r hr => ⟨(hs.good ε hε r hr).1, fun p _ => pipAt_short hs.env (by omega) hr p⟩⟩
    obtain ⟨e2, p2, h2⟩ := this
    refine ⟨min e1 e2, lt_min p1 p2, fun ε hε hle x hx => ?_⟩
    rcases List.mem_cons.1 hx with rfl | hx
    · exact h2 ε hε (hle.trans (min_le_right _ _))
    · exact h1 ε hε (hle.trans (min_le_left _ _)) x hx

end Tg.S
