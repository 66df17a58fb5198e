import Verif.Spec.MarginMeet
import Verif.Lemmas.MarginGeo
/-! Geometries that intersect, for coordinates that are any doubles of usual size: the answers are those of the same points without an index and without
rounding. -/
set_option linter.unusedSectionVars false
namespace Tg.S

/-! ### Two rings or lines with the same points -/

/-- The same points. -/
structure Alike (r t : Ring ℚ ℚ) : Prop where
  points : r.points = t.points
  npoints : r.npoints = t.npoints
  nsegs : r.nsegs = t.nsegs
  closed : r.closed = t.closed
  rect : r.rect = t.rect

theorem Alike.empty {r t : Ring ℚ ℚ} (h : Alike r t) : ringEmpty r = ringEmpty t := by
  unfold ringEmpty
  rw [h.npoints, h.closed]

theorem alike_of {f g : Ix ℚ ℚ} (hf : f.Lawful) (hg : g.Lawful) {A B : Arith ℚ} {e e' : Env} (he : e.Ok) (he' : e'.Ok) {pts : List (Pt ℚ)} {closed : Bool}
    {ix ix' : BitVec 32} {r t : Ring ℚ ℚ} (hr : newIx f A e pts closed ix = some r) (ht : newIx g B e' pts closed ix' = some t) : Alike r t := by
  obtain ⟨r1, -⟩ := newIx_some hf he hr
  obtain ⟨s1, -⟩ := newIx_some hg he' ht
  refine ⟨by rw [r1.points_eq, s1.points_eq], by rw [r1.npoints_eq, s1.npoints_eq], by rw [r1.nsegs_eq, s1.nsegs_eq], by rw [r1.closed_eq, s1.closed_eq], ?_⟩
  by_cases h2 : pts.length < 2
  · rw [newIx_short hf he hr h2, newIx_short hg he' ht h2]
  · have h2 : 2 ≤ pts.length := by omega
    exact Rect.ext_of_le (r1.rect_least h2 _ (s1.rect_has h2)) (s1.rect_least h2 _ (r1.rect_has h2))

variable {f : Ix ℚ ℚ} {A : Arith ℚ} {ε : ℚ}

/-- The same answers for the points `ps` and the segments `es`. -/
structure AlikeR (f : Ix ℚ ℚ) (A : Arith ℚ) (ε : ℚ) (r t : Ring ℚ ℚ) (ps : List (Pt ℚ)) (es : List (Seg ℚ)) : Prop extends Alike r t where
  search : ∀ (σ : Type) q (it : Iter ℚ σ) st, ringSearch f r q it st = forRange (searchLeaf r.points q it) 0 r.nsegs st
  search' : ∀ (σ : Type) q (it : Iter ℚ σ) st, ringSearch Ix.exact t q it st = forRange (searchLeaf t.points q it) 0 t.nsegs st
  pip : ∀ p ∈ ps, ∀ edge, ∃ b i j, ringContainsPoint f A r p edge = some (b, i) ∧ ringContainsPoint Ix.exact (exact ε fun _ => 0) t p edge = some (b, j)
  meet : ∀ u ∈ es, ∀ i < r.nsegs, ∀ v, segAt r.points i = some v → segIntersects A u v = segIntersects (exact ε fun _ => 0) u v
  ends : ∀ u ∈ es, u.a ∈ ps ∧ u.b ∈ ps

section
variable {r t : Ring ℚ ℚ} {ps : List (Pt ℚ)} {es : List (Seg ℚ)} (h : AlikeR f A ε r t ps es)
include h

theorem AlikeR.search_eq {σ : Type} {q : Rect ℚ} {it it' : Iter ℚ σ} {st : σ}
    (hit : ∀ i < r.nsegs, ∀ v, segAt r.points i = some v → ∀ st, it v i st = it' v i st) : ringSearch f r q it st = ringSearch Ix.exact t q it' st := by
  rw [h.search, h.search', ← h.points, ← h.nsegs]
  refine forRange_congr _ _ _ fun j st _ hj => ?_
  unfold searchLeaf
  cases hs : segAt r.points j with
  | none => rfl
  | some v => dsimp only; rw [hit j (by omega) v hs]

theorem AlikeR.xSeg {u : Seg ℚ} (hu : u ∈ es) : ringXSeg f A r u true = ringXSeg Ix.exact (exact ε fun _ => 0) t u true := by
  obtain ⟨b1, i1, j1, k1, k2⟩ := h.pip _ (h.ends u hu).1 true
  obtain ⟨b2, i2, j2, k3, k4⟩ := h.pip _ (h.ends u hu).2 true
  unfold ringXSeg
  rw [k1, k2, k3, k4, h.rect, h.search_eq (it' := interIter (exact ε fun _ => 0) u true) fun i hi v hv st => by
    unfold interIter; rw [h.meet u hu i hi v hv]; simp only [if_true]]

theorem AlikeR.hasSeg {u : Seg ℚ} (hu : u ∈ es) (R S : RArith ℚ) (cv cw cw' : Bool) :
    ringHasSeg f A R cv cw r u false = ringHasSeg Ix.exact (exact ε fun _ => 0) S cv cw' t u false := by
  obtain ⟨b1, i1, j1, k1, k2⟩ := h.pip _ (h.ends u hu).1 false
  obtain ⟨b2, i2, j2, k3, k4⟩ := h.pip _ (h.ends u hu).2 false
  unfold ringHasSeg noneMeets
  rw [k1, k2, k3, k4, h.rect, h.search_eq (it' := contIter (exact ε fun _ => 0) u fun _ => true) fun i hi v hv st => by
    unfold contIter; rw [h.meet u hu i hi v hv]]
  rfl
end

theorem anySeg_same {pts : List (Pt ℚ)} {P Q : Seg ℚ → Option Bool} : ∀ {l : List Nat}, (∀ i ∈ l, ∀ s, segAt pts i = some s → P s = Q s) →
    anySeg pts P l = anySeg pts Q l
  | [], _ => rfl
  | i :: is, hPQ => by
    unfold anySeg
    cases hs : segAt pts i with
    | none => rfl
    | some s =>
      dsimp only
      rw [hPQ i (by simp) s hs, anySeg_same fun j hj => hPQ j (by simp [hj])]

theorem allSeg_same {pts : List (Pt ℚ)} {P Q : Seg ℚ → Option Bool} : ∀ {l : List Nat}, (∀ i ∈ l, ∀ s, segAt pts i = some s → P s = Q s) →
    allSeg pts P l = allSeg pts Q l
  | [], _ => rfl
  | i :: is, hPQ => by
    unfold allSeg
    cases hs : segAt pts i with
    | none => rfl
    | some s =>
      dsimp only
      rw [hPQ i (by simp) s hs, allSeg_same fun j hj => hPQ j (by simp [hj])]

theorem allPts_same {P Q : Pt ℚ → Option Bool} : ∀ {l : List (Pt ℚ)}, (∀ p ∈ l, P p = Q p) → allPts P l = allPts Q l
  | [], _ => rfl
  | p :: ps, h => by
    unfold allPts
    rw [h p (by simp), allPts_same fun q hq => h q (by simp [hq])]

/-- The segments and the points of the other series are among those. -/
structure Within (o : Ring ℚ ℚ) (ps : List (Pt ℚ)) (es : List (Seg ℚ)) : Prop where
  segs : ∀ i < o.nsegs, ∀ v, segAt o.points i = some v → v ∈ es
  pts : ∀ p ∈ o.points.take o.npoints, p ∈ ps

section
variable {r t o o' : Ring ℚ ℚ} {ps : List (Pt ℚ)} {es : List (Seg ℚ)} (h : AlikeR f A ε r t ps es) (ho : Alike o o') (hw : Within o ps es)
include h ho hw

theorem AlikeR.anyX : anyXSeg f A r o true = anyXSeg Ix.exact (exact ε fun _ => 0) t o' true := by
  unfold anyXSeg
  rw [← ho.points, ← ho.nsegs]
  exact anySeg_same fun i hi s hs => h.xSeg (hw.segs i (List.mem_range.1 hi) s hs)

theorem AlikeR.xLine : ringXLine f A r o true = ringXLine Ix.exact (exact ε fun _ => 0) t o' true := by
  unfold ringXLine
  rw [h.anyX ho hw, h.empty, ho.empty, h.rect, ho.rect]

theorem AlikeR.hasLine (R S : RArith ℚ) (cv cw cw' : Bool) :
    ringHasLine f A R cv cw r o false false = ringHasLine Ix.exact (exact ε fun _ => 0) S cv cw' t o' false false := by
  unfold ringHasLine
  rw [h.empty, ho.empty, h.rect, ho.rect, ← ho.points, ← ho.nsegs,
    allSeg_same fun i hi s hs => h.hasSeg (hw.segs i (List.mem_range.1 hi) s hs) R S cv cw cw']
  rfl

theorem AlikeR.hasRing (R S : RArith ℚ) (cv cw cw' : Bool) :
    ringHasRing f A R cv cw r o false = ringHasRing Ix.exact (exact ε fun _ => 0) S cv cw' t o' false := by
  unfold ringHasRing
  rw [h.empty, ho.empty, h.rect, ho.rect, ← ho.points, ← ho.nsegs, ← ho.npoints,
    allSeg_same fun i hi s hs => h.hasSeg (hw.segs i (List.mem_range.1 hi) s hs) R S cv cw cw',
    allPts_same fun p hp => by
      obtain ⟨b1, i1, j1, k1, k2⟩ := h.pip _ (hw.pts p hp) false
      show _ = (ringContainsPoint Ix.exact (exact ε fun _ => 0) t p false).map (·.1)
      rw [k1, k2]; rfl]
end

/-! ### The order of two rings by area -/

/-- If the box of the first is not strictly within that of the second, it is enough to look at the boundary of the second. -/
theorem common_box {l m : List (Pt ℚ)} (hl : l.head? = l.getLast?) (hm : m.head? = m.getLast?) (hl0 : l ≠ []) {ra rb : Rect ℚ}
    (ha' : ∀ T : Rect ℚ, (∀ v ∈ l, T.Has v) → ra.Le T) (hb : ∀ v ∈ m, rb.Has v)
    (hno : ¬ (rb.lo.x < ra.lo.x ∧ ra.hi.x < rb.hi.x ∧ rb.lo.y < ra.lo.y ∧ ra.hi.y < rb.hi.y)) :
    (∃ w, OnBoundary (edges m) w ∧ InRegion (edges l) w) ↔ ∃ w, InRegion (edges l) w ∧ InRegion (edges m) w := by
  constructor
  · rintro ⟨w, w1, w2⟩
    exact ⟨w, w2, .inl w1⟩
  · rintro ⟨w, w1, w2⟩
    by_contra hn
    have hav : ∀ w, OnBoundary (edges m) w → ¬ InRegion (edges l) w := fun w h1 h2 => hn ⟨w, h1, h2⟩
    have hin := inside_of_common hl hm hav w1 w2
    have hst : ∀ v ∈ l, rb.lo.x < v.x ∧ v.x < rb.hi.x ∧ rb.lo.y < v.y ∧ v.y < rb.hi.y := fun v hv => inside_rect hm hb (hin v hv)
    have : ∃ T : Rect ℚ, (∀ v ∈ l, T.Has v) ∧ rb.lo.x < T.lo.x ∧ T.hi.x < rb.hi.x ∧ rb.lo.y < T.lo.y ∧ T.hi.y < rb.hi.y := by
      clear * - hl0 hst
      induction l with
      | nil => exact absurd rfl hl0
      | cons v l ih =>
        have h0 := hst v (by simp)
        by_cases hl : l = []
        · subst hl
          exact ⟨⟨v, v⟩, by simp [Rect.Has], h0⟩
        · obtain ⟨T, hT, h1, h2, h3, h4⟩ := ih hl fun u hu => hst u (by simp [hu])
          refine ⟨⟨⟨min v.x T.lo.x, min v.y T.lo.y⟩, ⟨max v.x T.hi.x, max v.y T.hi.y⟩⟩, ?_, lt_min h0.1 h1, max_lt h0.2.1 h2, lt_min h0.2.2.1 h3, max_lt h0.2.2.2 h4⟩
          intro u hu
          rcases List.mem_cons.1 hu with rfl | hu
          · exact ⟨min_le_left _ _, le_max_left _ _, min_le_left _ _, le_max_left _ _⟩
          · have := hT u hu
            exact ⟨(min_le_right _ _).trans this.1, this.2.1.trans (le_max_right _ _), (min_le_right _ _).trans this.2.2.1,
              this.2.2.2.trans (le_max_right _ _)⟩
    obtain ⟨T, hT, h1, h2, h3, h4⟩ := this
    obtain ⟨k1, k2, k3, k4⟩ := ha' T hT
    exact hno ⟨by linarith, by linarith, by linarith, by linarith⟩

/-- `tg_ring_intersects_ring` with an arithmetic that is right about boxes that are strictly within the other. -/
theorem AlikeR.xRing {s t : Series ℚ} {r o : Ring ℚ ℚ} {r' o' : FRing ℚ ℚ} (h3 : 3 ≤ s.pts.length) (h3' : 3 ≤ t.pts.length)
    (hr : FOk ε (fun _ => 0) s r') (ho : FOk ε (fun _ => 0) t o') (hp : Sees ε (fun _ => 0) s r'.ring t.pts) (hq : Sees ε (fun _ => 0) t o'.ring s.pts)
    {ps qs : List (Pt ℚ)} {es ds : List (Seg ℚ)} (h : AlikeR f A ε r r'.ring ps es) (h' : AlikeR f A ε o o'.ring qs ds) (hw : Within o ps es)
    (hw' : Within r qs ds) {R : RArith ℚ}
    (har : r.rect.lo.x < o.rect.lo.x → o.rect.hi.x < r.rect.hi.x → r.rect.lo.y < o.rect.lo.y → o.rect.hi.y < r.rect.hi.y → R.area o.rect < R.area r.rect)
    (har' : o.rect.lo.x < r.rect.lo.x → r.rect.hi.x < o.rect.hi.x → o.rect.lo.y < r.rect.lo.y → r.rect.hi.y < o.rect.hi.y → R.area r.rect < R.area o.rect) :
    ringXRing f A R r o true = ringXRing Ix.exact (exact ε fun _ => 0) exactR r'.ring o'.ring true := by
  obtain ⟨b, e1, e2⟩ := xRing_iff hr ho hp hq
  obtain ⟨a1, -⟩ := newIx_some Ix.exact_lawful hr.ok hr.made
  obtain ⟨b1, -⟩ := newIx_some Ix.exact_lawful ho.ok ho.made
  obtain ⟨l, hl, hcl, hl3, hmem⟩ := ring_chain h3
  obtain ⟨m, hm, hcm, hm3, hmem'⟩ := ring_chain h3'
  have al : ∀ v ∈ l, r'.ring.rect.Has v := fun v hv => a1.rect_has (by omega) v ((hmem v).1 hv)
  have bm : ∀ v ∈ m, o'.ring.rect.Has v := fun v hv => b1.rect_has (by omega) v ((hmem' v).1 hv)
  have al' : ∀ T : Rect ℚ, (∀ v ∈ l, T.Has v) → r'.ring.rect.Le T := fun T h => a1.rect_least (by omega) T fun v hv => h v ((hmem v).2 hv)
  have bm' : ∀ T : Rect ℚ, (∀ v ∈ m, T.Has v) → o'.ring.rect.Le T := fun T h => b1.rect_least (by omega) T fun v hv => h v ((hmem' v).2 hv)
  unfold Series.segs at e2
  rw [hl, hm] at e2
  rw [h.rect, h'.rect] at har har'
  have key : ∀ c : Bool, (if c then anyXSeg f A o r true else anyXSeg f A r o true) =
      some b ∨ (c = true ∧ ¬ R.area o'.ring.rect > R.area r'.ring.rect) ∨ (c = false ∧ R.area o'.ring.rect > R.area r'.ring.rect) := by
    intro c
    cases c with
    | true =>
      by_cases hc : R.area o'.ring.rect > R.area r'.ring.rect
      · left
        rw [if_pos rfl, h'.anyX h.toAlike hw']
        obtain ⟨ans, g1, g2⟩ := anyXSeg_iff ho.ok h3' ho.made hq.search a1 hq.pip
        rw [g1]
        congr 1
        rw [Bool.eq_iff_iff, g2, e2, hl, hm, common_box hcm hcl (by rintro rfl; simp at hm3) bm' al fun h => by
          have := har h.1 h.2.1 h.2.2.1 h.2.2.2
          order]
        exact ⟨fun ⟨w, w1, w2⟩ => ⟨w, w2, w1⟩, fun ⟨w, w1, w2⟩ => ⟨w, w2, w1⟩⟩
      · exact .inr (.inl ⟨rfl, hc⟩)
    | false =>
      by_cases hc : R.area o'.ring.rect > R.area r'.ring.rect
      · exact .inr (.inr ⟨rfl, hc⟩)
      · left
        rw [if_neg (by simp), h.anyX h'.toAlike hw]
        obtain ⟨ans, g1, g2⟩ := anyXSeg_iff hr.ok h3 hr.made hp.search b1 hp.pip
        rw [g1]
        congr 1
        rw [Bool.eq_iff_iff, g2, e2, hl, hm, common_box hcl hcm (by rintro rfl; simp at hl3) al' bm fun h => by
          have := har' h.1 h.2.1 h.2.2.1 h.2.2.2
          order]
  unfold ringXRing at e1 ⊢
  rw [h.empty, h'.empty, h.rect, h'.rect]
  by_cases c1 : (ringEmpty r'.ring || ringEmpty o'.ring) = true
  · rw [if_pos c1, if_pos c1]
  rw [if_neg c1] at e1 ⊢
  by_cases c2 : (!r'.ring.rect.intersects o'.ring.rect) = true
  · rw [if_pos c2, if_neg c1, if_pos c2]
  rw [if_neg c2] at e1 ⊢
  rw [if_neg c1, if_neg c2, e1]
  by_cases c3 : R.area o'.ring.rect > R.area r'.ring.rect
  · rw [if_pos c3]
    rcases key true with k | k | k
    · simpa using k
    · exact absurd c3 k.2
    · cases k.1
  · rw [if_neg c3]
    rcases key false with k | k | k
    · simpa using k
    · cases k.1
    · exact absurd k.2 c3

/-! ### Rings of doubles -/

/-- The series without an index. -/
def Series.bare (s : Series ℚ) : Series ℚ := ⟨Env.initial, 1#32, s.pts⟩

theorem initial_ok : Env.initial.Ok := ⟨by decide, by decide⟩

theorem bare_kinds (n : Nat) : (kindsOf Env.initial n true 1#32).2 = false := by
  rw [kindsOf, show (extractSpread Env.initial 1#32).1.toNat = 1 from by decide]
  unfold indexKinds
  by_cases h : n ≥ spreadOf Env.initial 1#32 * 2
  · rw [if_pos h]; decide
  · rw [if_neg h]

theorem closed_segs {s : Series ℚ} (h : Closed s) : (segments s.pts true).length < s.pts.length := by
  have h3 := h.1
  unfold segments
  rw [if_neg (by simp), if_neg (by omega), if_pos h.2, edges_length]
  omega

theorem bare_fit {s : Series ℚ} (h : Closed s) (ps : List (Pt ℚ)) : Fit (fun _ => 0) s.bare ps := by
  refine ⟨initial_ok, fun ε _ r hr => ⟨.inl (closed_segs h), fun p _ hy => absurd ?_ hy⟩⟩
  obtain ⟨-, -, b3, -⟩ := newIx_some Ix.exact_lawful initial_ok hr
  rw [show s.bare.pts = s.pts from rfl, show s.bare.ix = 1#32 from rfl, bare_kinds] at b3
  cases h : r.ystripes with
  | none => rfl
  | some st => rw [h] at b3; simp at b3

theorem orient_exact_some (pts : List (Pt ℚ)) : ∃ o, orient pts = some o := by
  by_cases h : 2 ≤ pts.length
  · obtain ⟨o, ho, -⟩ := orient_ok h
    exact ⟨o, ho⟩
  · exact ⟨_, by rw [orient]; exact if_pos (by omega)⟩

variable {F : Fp} (hF : F.Ok) {M : ℚ} (hM : M ≤ 2 ^ 100)
include hF hM

/-- The rounded areas of boxes. -/
theorem area_tells {l m : List (Pt ℚ)} (hl : ∀ q ∈ l, UsualPt M q) (hm : ∀ q ∈ m, UsualPt M q) (ht : BoxTells l m) {cl cm : Bool} {sl sm : Nat}
    {g g' : Ix ℚ ℚ} {r o : Ring ℚ ℚ} (hr : RingOk g l cl sl r) (ho : RingOk g' m cm sm o) (l2 : 2 ≤ l.length) (m2 : 2 ≤ m.length)
    (h1 : o.rect.lo.x < r.rect.lo.x) (h2 : r.rect.hi.x < o.rect.hi.x) (h3 : o.rect.lo.y < r.rect.lo.y) (h4 : r.rect.hi.y < o.rect.hi.y) :
    F.rarith.area r.rect < F.rarith.area o.rect := by
  have us : ∀ {n : List (Pt ℚ)} {c : Bool} {sp : Nat} {k : Ix ℚ ℚ} {t : Ring ℚ ℚ}, RingOk k n c sp t → 2 ≤ n.length → (∀ q ∈ n, UsualPt M q) →
      Ap (1 / 2 ^ 51) (F.rarith.area t.rect) ((t.rect.hi.x - t.rect.lo.x) * (t.rect.hi.y - t.rect.lo.y)) ∧ 0 ≤ t.rect.hi.x - t.rect.lo.x ∧
        0 ≤ t.rect.hi.y - t.rect.lo.y := by
    intro n c sp k t h n2 hu
    obtain ⟨⟨p1, c1, d1⟩, ⟨p2, c2, d2⟩, ⟨p3, c3, d3⟩, ⟨p4, c4, d4⟩⟩ := Sh.sides h n2
    have u1 : Usual M t.rect.lo.x := d1 ▸ (hu p1 c1).1
    have u2 : Usual M t.rect.hi.x := d2 ▸ (hu p2 c2).1
    have u3 : Usual M t.rect.lo.y := d3 ▸ (hu p3 c3).2
    have u4 : Usual M t.rect.hi.y := d4 ▸ (hu p4 c4).2
    have hh := h.rect_has n2 p1 c1
    refine ⟨mul_ap hF (fun h => diff_mid hM u2 u1 fun e => h (sub_eq_zero.2 e)) (fun h => diff_mid hM u4 u3 fun e => h (sub_eq_zero.2 e))
      (sub_ap hF hM u2 u1) (sub_ap hF hM u4 u3), sub_nonneg.2 (hh.1.trans hh.2.1), sub_nonneg.2 (hh.2.2.1.trans hh.2.2.2)⟩
  obtain ⟨a1, a2, a3⟩ := us hr l2 hl
  obtain ⟨b1, b2, b3⟩ := us ho m2 hm
  have tell := ht _ _ ⟨hr.rect_has l2, hr.rect_least l2⟩ ⟨ho.rect_has m2, ho.rect_least m2⟩ h1 h2 h3 h4
  generalize F.rarith.area r.rect = x at *
  generalize F.rarith.area o.rect = y at *
  have wl : r.rect.hi.x - r.rect.lo.x ≤ o.rect.hi.x - o.rect.lo.x := by linarith
  have hl' : r.rect.hi.y - r.rect.lo.y ≤ o.rect.hi.y - o.rect.lo.y := by linarith
  have wp : 0 < o.rect.hi.x - o.rect.lo.x := by linarith
  have hp : 0 < o.rect.hi.y - o.rect.lo.y := by linarith
  generalize r.rect.hi.x - r.rect.lo.x = w at *
  generalize r.rect.hi.y - r.rect.lo.y = k at *
  generalize o.rect.hi.x - o.rect.lo.x = w' at *
  generalize o.rect.hi.y - o.rect.lo.y = k' at *
  have hprod : w * k ≤ (1 - 1 / 2 ^ 48) * (w' * k') := by
    rcases tell with h | h
    · calc w * k ≤ ((1 - 1 / 2 ^ 48) * w') * k' := mul_le_mul h hl' a3 (mul_nonneg (by norm_num) b2)
        _ = _ := by ring
    · calc w * k ≤ w' * ((1 - 1 / 2 ^ 48) * k') := mul_le_mul wl h a3 b2
        _ = _ := by ring
  have hpos : 0 < w' * k' := mul_pos wp hp
  have a5 := a1.abs_sub
  have b5 := b1.abs_sub
  rw [abs_of_nonneg (mul_nonneg a2 a3)] at a5
  rw [abs_of_pos hpos] at b5
  have a6 := (abs_le.1 a5).2
  have b6 := (abs_le.1 b5).1
  generalize w * k = P at *
  generalize w' * k' = Q at *
  norm_num at a6 b6 hprod ⊢
  linarith

variable {f : Ix ℚ ℚ} (hf : f.Lawful) (hn : ∀ pts, F.ns pts < 2 ^ 31)
include hf hn

/-- The ring and the one without an index and rounding. -/
theorem ring_twin {s : Series ℚ} (hc : Closed s) (hu : ∀ q ∈ s.pts, UsualPt M q) {r : FRing ℚ ℚ} (hr : FBy (F.maker f) s r) {ps : List (Pt ℚ)}
    {es : List (Seg ℚ)} (hps : ∀ p ∈ ps, UsualPt M p ∧ RingClear M s p) (hes : ∀ u ∈ es, u.a ∈ ps ∧ u.b ∈ ps) (hap : ∀ u ∈ es, ∀ v ∈ s.segs, Apart M u v)
    {ε : ℚ} (hsee : RingsSee ε (fun _ => 0) [s.bare] ps) :
    ∃ t : FRing ℚ ℚ, FOk ε (fun _ => 0) s.bare t ∧ AlikeR f F.arith ε r.ring t.ring ps es ∧ (F.ringConvex s.pts = ringConvex s.pts → r.convex = t.convex) := by
  obtain ⟨t, ht⟩ := C24_built Ix.exact_lawful (exact ε fun _ => 0) initial_ok s.pts true 1#32 fun h => by rw [bare_kinds] at h; cases h
  obtain ⟨o, ho⟩ := orient_exact_some s.pts
  obtain ⟨a1, -⟩ := newIx_some hf hr.ok hr.made
  obtain ⟨b1, -⟩ := newIx_some Ix.exact_lawful initial_ok ht
  have sees := hsee s.bare (by simp) t ht
  refine ⟨⟨t, o.convex, o.clockwise⟩, ⟨initial_ok, ht, ?_, ?_⟩, ⟨alike_of hf Ix.exact_lawful hr.ok initial_ok hr.made ht, ?_, ?_, ?_, ?_, hes⟩, ?_⟩
  · rw [ringConvex, show s.bare.pts = s.pts from rfl, ho]; rfl
  · rw [ringClockwise, show s.bare.pts = s.pts from rfl, ho]; rfl
  · exact fun σ q it st => ringSearch_eq hf a1 (.inl (Sh.closed_leaves hc)) q it st
  · exact fun σ q it st => ringSearch_eq Ix.exact_lawful b1 (.inl (Sh.closed_leaves hc)) q it st
  · intro p hp edge
    obtain ⟨b, i, k1, k2⟩ := ring_far hF hM hf hn hr.ok (hps p hp).1 (hps p hp).2 hr.made edge
    obtain ⟨b', j, k3, k4, -⟩ := sees.pip p hp edge
    have : b = b' := by rw [Bool.eq_iff_iff, k2, k4]; rfl
    exact ⟨b, i, j, k1, by rw [this]; exact k3⟩
  · intro u hu' i hi v hv
    have hv' : v ∈ s.segs := by
      rw [a1.segAt] at hv
      · rw [← Option.some.inj hv]
        exact List.getElem_mem _
      · rw [← a1.nsegs_eq]; exact hi
    have hus := usual_seg hF hM hu hv'
    rw [Bool.eq_iff_iff, C27_intersects, seg_meet_far hF hM ⟨(hps _ (hes u hu').1).1, (hps _ (hes u hu').2).1⟩ hus (hap u hu' v hv')]
  · intro he
    have := hr.convex
    change F.ringConvex s.pts = _ at this
    rw [he, ringConvex, ho] at this
    exact (Option.some.inj this).symm

theorem rings_twin {ps : List (Pt ℚ)} {es : List (Seg ℚ)} (hes : ∀ u ∈ es, u.a ∈ ps ∧ u.b ∈ ps) {ε : ℚ} : ∀ {ss : List (Series ℚ)} {rs : List (FRing ℚ ℚ)},
    List.Forall₂ (FBy (F.maker f)) ss rs → (∀ s ∈ ss, Closed s ∧ ∀ q ∈ s.pts, UsualPt M q) → (∀ s ∈ ss, F.ringConvex s.pts = ringConvex s.pts) →
    (∀ s ∈ ss, ∀ p ∈ ps, UsualPt M p ∧ RingClear M s p) → (∀ s ∈ ss, ∀ u ∈ es, ∀ v ∈ s.segs, Apart M u v) →
    RingsSee ε (fun _ => 0) (ss.map Series.bare) ps →
    ∃ ts : List (FRing ℚ ℚ), List.Forall₂ (FOk ε fun _ => 0) (ss.map Series.bare) ts ∧
      List.Forall₂ (fun r t => AlikeR f F.arith ε r.ring t.ring ps es ∧ r.convex = t.convex) rs ts
  | _, _, .nil, _, _, _, _, _ => ⟨[], .nil, .nil⟩
  | _, _, .cons (a := s) h hs, h1, h2, h3, h4, h5 => by
    obtain ⟨t, t1, t2, t3⟩ := ring_twin hF hM hf hn (h1 s (by simp)).1 (h1 s (by simp)).2 h (h3 s (by simp)) hes (h4 s (by simp))
      (h5.mono (by simp) fun _ h => h)
    obtain ⟨ts, u1, u2⟩ := rings_twin hes hs (fun x hx => h1 x (by simp [hx])) (fun x hx => h2 x (by simp [hx])) (fun x hx => h3 x (by simp [hx]))
      (fun x hx => h4 x (by simp [hx])) (h5.mono (fun x hx => by simp only [List.map_cons, List.mem_cons]; exact .inr hx) fun _ h => h)
    exact ⟨t :: ts, .cons t1 u1, .cons ⟨t2, t3 (h2 s (by simp))⟩ u2⟩

/-! ### Polygons -/

omit hF hM hf hn in
theorem has_bare {ext : Series ℚ} {holes : List (Series ℚ)} {w : Pt ℚ} :
    AShape.Has (.poly ext.bare (holes.map Series.bare)) w ↔ AShape.Has (.poly ext holes) w := by
  simp only [AShape.Has, List.mem_map, forall_exists_index, and_imp, forall_apply_eq_imp_iff₂]
  rfl

omit hF hM hf hn in
theorem ok_bare {ext : Series ℚ} {holes : List (Series ℚ)} (h : PolyOk ext holes) : PolyOk ext.bare (holes.map Series.bare) := by
  refine ⟨fun s hs w hw => has_bare.2 ?_, fun s hs => ?_, fun s hs => ?_⟩
  · rw [← List.map_cons (f := Series.bare)] at hs
    obtain ⟨t, ht, rfl⟩ := List.mem_map.1 hs
    exact h.boundary t ht w hw
  · obtain ⟨t, ht, rfl⟩ := List.mem_map.1 hs
    exact h.flags t ht
  · obtain ⟨t, ht, rfl⟩ := List.mem_map.1 hs
    exact h.escapes t ht

omit hF hM hn in
theorem within_of {A : Arith ℚ} {e : Env} (he : e.Ok) {pts : List (Pt ℚ)} {closed : Bool} {ix : BitVec 32} {o : Ring ℚ ℚ}
    (ho : newIx f A e pts closed ix = some o) : Within o pts (segments pts closed) := by
  obtain ⟨a1, -⟩ := newIx_some hf he ho
  refine ⟨fun i hi v hv => ?_, fun p hp => ?_⟩
  · rw [a1.segAt] at hv
    · rw [← Option.some.inj hv]
      exact List.getElem_mem _
    · rw [← a1.nsegs_eq]; exact hi
  · rwa [a1.points_eq, a1.npoints_eq, List.take_left] at hp

variable {R : RArith ℚ} {fuel : Nat}

theorem poly_line_far {ext : Series ℚ} {holes : List (Series ℚ)} {q : PolyS ℚ ℚ} (hq : PolyBy (F.maker f) ext holes q)
    (hs : ∀ s ∈ ext :: holes, Closed s ∧ ∀ q ∈ s.pts, UsualPt M q) (hok : PolyOk ext holes) (hfl : ∀ h ∈ holes, F.ringConvex h.pts = ringConvex h.pts) {s : Series ℚ} (hse : s.e.Ok)
    (hu : ∀ p ∈ s.pts, UsualPt M p) (hc : ∀ x ∈ ext :: holes, ∀ p ∈ s.pts, RingClear M x p) (hap : ∀ x ∈ ext :: holes, ∀ u ∈ edges s.pts, ∀ v ∈ x.segs, Apart M u v)
    {l : Ring ℚ ℚ} (hl : newIx f F.arith s.e s.pts false s.ix = some l) :
    ∃ b, polyXLine ⟨f, F.arith, R, fuel⟩ q l = some b ∧ (b = true ↔ ∃ w, AShape.Has (.poly ext holes) w ∧ AShape.Has (.line s) w) := by
  obtain ⟨ε, ε0, hsee⟩ := ringsSee_of (fun _ => 0) ((ext :: holes).map Series.bare) s.pts fun x hx => by
    obtain ⟨t, ht, rfl⟩ := List.mem_map.1 hx
    exact bare_fit (hs t ht).1 _
  have hsee := hsee ε ε0 le_rfl
  obtain ⟨l', hl'⟩ := C24_built Ix.exact_lawful (exact ε fun _ => 0) initial_ok s.pts false 1#32 fun h => absurd (indexKinds_closed h) (by simp)
  have hal := alike_of hf Ix.exact_lawful hse initial_ok hl hl'
  have hsegs : segments s.pts false = edges s.pts := by rw [segments]; simp
  have hw := within_of hf hse hl
  rw [hsegs] at hw
  have hes : ∀ u ∈ edges s.pts, u.a ∈ s.pts ∧ u.b ∈ s.pts := fun u hu => seg_mem_pts (closed := false) (by rw [hsegs]; exact hu)
  have key : ∃ q', PolyIs ε (fun _ => 0) ext.bare (holes.map Series.bare) q' ∧
      polyXLine ⟨f, F.arith, R, fuel⟩ q l = polyXLine ⟨Ix.exact, exact ε fun _ => 0, exactR, fuel⟩ q' l' := by
    cases q with
    | ring r =>
      obtain ⟨rfl, hr⟩ := hq
      obtain ⟨t, t1, t2, -⟩ := ring_twin hF hM hf hn (hs ext (by simp)).1 (hs ext (by simp)).2 hr (fun p hp => ⟨hu p hp, hc ext (by simp) p hp⟩) hes
        (hap ext (by simp)) (hsee.mono (by simp) fun _ h => h)
      exact ⟨.ring t, ⟨rfl, t1⟩, t2.xLine hal hw⟩
    | poly e hs' =>
      obtain ⟨he, hh⟩ := hq
      obtain ⟨t, t1, t2, -⟩ := ring_twin hF hM hf hn (hs ext (by simp)).1 (hs ext (by simp)).2 he (fun p hp => ⟨hu p hp, hc ext (by simp) p hp⟩) hes
        (hap ext (by simp)) (hsee.mono (by simp) fun _ h => h)
      obtain ⟨ts, u1, u2⟩ := rings_twin hF hM hf hn hes hh (fun x hx => hs x (by simp [hx])) hfl (fun x hx p hp => ⟨hu p hp, hc x (by simp [hx]) p hp⟩)
        (fun x hx => hap x (by simp [hx])) (hsee.mono (fun x hx => by rw [List.map_cons]; exact List.mem_cons_of_mem _ hx) fun _ h => h)
      refine ⟨.poly t ts, ⟨t1, u1⟩, ?_⟩
      unfold polyXLine
      dsimp only
      rw [t2.empty, hal.empty, t2.xLine hal hw, Ag.anyOf_congr (t' := fun h => hasLine ⟨Ix.exact, exact ε fun _ => 0, exactR, fuel⟩ h l' false false)
        (fun x y hxy => by unfold hasLine; dsimp only; rw [hxy.2]; exact hxy.1.hasLine hal hw R exactR _ _ _) u2]
  obtain ⟨q', k1, k2⟩ := key
  obtain ⟨b, h1, h2⟩ := poly_line (P := ⟨Ix.exact, exact ε fun _ => 0, exactR, fuel⟩) rfl rfl k1 (ok_bare hok) (s := s.bare) initial_ok hl'
    (hsee.mono (fun _ h => h) fun _ h => h)
  refine ⟨b, by rw [k2]; exact h1, ?_⟩
  rw [h2]
  simp only [has_bare]
  rfl

theorem poly_poly_far {ea eb : Series ℚ} {ha hb : List (Series ℚ)} {q r : PolyS ℚ ℚ} (hq : PolyBy (F.maker f) ea ha q) (hr : PolyBy (F.maker f) eb hb r)
    (sa : ∀ s ∈ ea :: ha, Closed s ∧ ∀ q ∈ s.pts, UsualPt M q) (sb : ∀ s ∈ eb :: hb, Closed s ∧ ∀ q ∈ s.pts, UsualPt M q) (oka : PolyOk ea ha) (okb : PolyOk eb hb)
    (fa : ∀ h ∈ ha, F.ringConvex h.pts = ringConvex h.pts) (fb : ∀ h ∈ hb, F.ringConvex h.pts = ringConvex h.pts)
    (ca : ∀ x ∈ ea :: ha, ∀ p ∈ eb.pts, RingClear M x p) (cb : ∀ x ∈ eb :: hb, ∀ p ∈ ea.pts, RingClear M x p)
    (pa : ∀ x ∈ ea :: ha, ∀ u ∈ eb.segs, ∀ v ∈ x.segs, Apart M u v) (pb : ∀ x ∈ eb :: hb, ∀ u ∈ ea.segs, ∀ v ∈ x.segs, Apart M u v)
    (ba : BoxTells ea.pts eb.pts) (bb : BoxTells eb.pts ea.pts) :
    ∃ b, polyXPoly ⟨f, F.arith, F.rarith, fuel⟩ q r = some b ∧ (b = true ↔ ∃ w, AShape.Has (.poly ea ha) w ∧ AShape.Has (.poly eb hb) w) := by
  obtain ⟨e1, p1, s1⟩ := ringsSee_of (fun _ => 0) ((ea :: ha).map Series.bare) eb.pts fun x hx => by
    obtain ⟨t, ht, rfl⟩ := List.mem_map.1 hx
    exact bare_fit (sa t ht).1 _
  obtain ⟨e2, p2, s2⟩ := ringsSee_of (fun _ => 0) ((eb :: hb).map Series.bare) ea.pts fun x hx => by
    obtain ⟨t, ht, rfl⟩ := List.mem_map.1 hx
    exact bare_fit (sb t ht).1 _
  obtain ⟨ε, ε0, ε1, ε2⟩ : ∃ ε : ℚ, 0 < ε ∧ ε ≤ e1 ∧ ε ≤ e2 := ⟨min e1 e2, lt_min p1 p2, min_le_left _ _, min_le_right _ _⟩
  have s1 := s1 ε ε0 ε1
  have s2 := s2 ε ε0 ε2
  obtain ⟨ca', ua⟩ := sa ea (by simp)
  obtain ⟨cb', ub⟩ := sb eb (by simp)
  have esa : ∀ u ∈ ea.segs, u.a ∈ ea.pts ∧ u.b ∈ ea.pts := fun u hu => seg_mem_pts hu
  have esb : ∀ u ∈ eb.segs, u.a ∈ eb.pts ∧ u.b ∈ eb.pts := fun u hu => seg_mem_pts hu
  have exA : FBy (F.maker f) ea q.ext := by cases q with | ring r => exact hq.2 | poly e hs => exact hq.1
  have exB : FBy (F.maker f) eb r.ext := by cases r with | ring r => exact hr.2 | poly e hs => exact hr.1
  have hoA : List.Forall₂ (FBy (F.maker f)) ha q.holes := by cases q with | ring r => rw [hq.1]; exact .nil | poly e hs => exact hq.2
  have hoB : List.Forall₂ (FBy (F.maker f)) hb r.holes := by cases r with | ring r => rw [hr.1]; exact .nil | poly e hs => exact hr.2
  obtain ⟨tA, tA1, tA2, -⟩ := ring_twin hF hM hf hn ca' ua exA (fun p hp => ⟨ub p hp, ca ea (by simp) p hp⟩) esb (pa ea (by simp)) (s1.mono (by simp) fun _ h => h)
  obtain ⟨tB, tB1, tB2, -⟩ := ring_twin hF hM hf hn cb' ub exB (fun p hp => ⟨ua p hp, cb eb (by simp) p hp⟩) esa (pb eb (by simp)) (s2.mono (by simp) fun _ h => h)
  obtain ⟨tsA, uA1, uA2⟩ := rings_twin hF hM hf hn esb hoA (fun x hx => sa x (by simp [hx])) fa (fun x hx p hp => ⟨ub p hp, ca x (by simp [hx]) p hp⟩)
    (fun x hx => pa x (by simp [hx])) (s1.mono (fun x hx => by rw [List.map_cons]; exact List.mem_cons_of_mem _ hx) fun _ h => h)
  obtain ⟨tsB, uB1, uB2⟩ := rings_twin hF hM hf hn esa hoB (fun x hx => sb x (by simp [hx])) fb (fun x hx p hp => ⟨ua p hp, cb x (by simp [hx]) p hp⟩)
    (fun x hx => pb x (by simp [hx])) (s2.mono (fun x hx => by rw [List.map_cons]; exact List.mem_cons_of_mem _ hx) fun _ h => h)
  have wA := within_of hf exA.ok exA.made
  have wB := within_of hf exB.ok exB.made
  obtain ⟨a1, -⟩ := newIx_some hf exA.ok exA.made
  obtain ⟨b1, -⟩ := newIx_some hf exB.ok exB.made
  have la := ca'.1
  have lb := cb'.1
  have ar1 := area_tells hF hM ua ub ba a1 b1 (by omega) (by omega)
  have ar2 := area_tells hF hM ub ua bb b1 a1 (by omega) (by omega)
  have seeA := s1 ea.bare (by simp) _ tA1.made
  have seeB := s2 eb.bare (by simp) _ tB1.made
  have x1 : ringXRing f F.arith F.rarith q.ext.ring r.ext.ring true = ringXRing Ix.exact (exact ε fun _ => 0) exactR tA.ring tB.ring true :=
    AlikeR.xRing (s := ea.bare) (t := eb.bare) la lb tA1 tB1 seeA seeB tA2 tB2 wB wA ar2 ar1
  have x2 : ringXRing f F.arith F.rarith r.ext.ring q.ext.ring true = ringXRing Ix.exact (exact ε fun _ => 0) exactR tB.ring tA.ring true :=
    AlikeR.xRing (s := eb.bare) (t := ea.bare) lb la tB1 tA1 seeB seeA tB2 tA2 wA wB ar1 ar2
  have hA : anyOf (fun h => hasRing ⟨f, F.arith, F.rarith, fuel⟩ h r.ext false) q.holes =
      anyOf (fun h => hasRing ⟨Ix.exact, exact ε fun _ => 0, exactR, fuel⟩ h tB false) tsA :=
    Ag.anyOf_congr (fun x y hxy => by unfold hasRing; dsimp only; rw [hxy.2]; exact hxy.1.hasRing tB2.toAlike wB _ exactR _ _ _) uA2
  have hB : anyOf (fun h => hasRing ⟨f, F.arith, F.rarith, fuel⟩ h q.ext false) r.holes =
      anyOf (fun h => hasRing ⟨Ix.exact, exact ε fun _ => 0, exactR, fuel⟩ h tA false) tsB :=
    Ag.anyOf_congr (fun x y hxy => by unfold hasRing; dsimp only; rw [hxy.2]; exact hxy.1.hasRing tA2.toAlike wA _ exactR _ _ _) uB2
  have key : ∃ q' r', PolyIs ε (fun _ => 0) ea.bare (ha.map Series.bare) q' ∧ PolyIs ε (fun _ => 0) eb.bare (hb.map Series.bare) r' ∧
      polyXPoly ⟨f, F.arith, F.rarith, fuel⟩ q r = polyXPoly ⟨Ix.exact, exact ε fun _ => 0, exactR, fuel⟩ q' r' := by
    have big : (if polyEmpty q || polyEmpty r then some false
        else andM (ringXRing f F.arith F.rarith r.ext.ring q.ext.ring true)
          (andM (notM (anyOf (fun h => hasRing ⟨f, F.arith, F.rarith, fuel⟩ h r.ext false) q.holes))
            (notM (anyOf (fun h => hasRing ⟨f, F.arith, F.rarith, fuel⟩ h q.ext false) r.holes)))) =
        (if ringEmpty tA.ring || ringEmpty tB.ring then some false
        else andM (ringXRing Ix.exact (exact ε fun _ => 0) exactR tB.ring tA.ring true)
          (andM (notM (anyOf (fun h => hasRing ⟨Ix.exact, exact ε fun _ => 0, exactR, fuel⟩ h tB false) tsA))
            (notM (anyOf (fun h => hasRing ⟨Ix.exact, exact ε fun _ => 0, exactR, fuel⟩ h tA false) tsB)))) := by
      unfold polyEmpty
      rw [tA2.empty, tB2.empty, x2, hA, hB]
    cases q with
    | ring q0 =>
      obtain ⟨rfl, -⟩ := hq
      cases r with
      | ring r0 =>
        obtain ⟨rfl, -⟩ := hr
        exact ⟨.ring tA, .ring tB, ⟨rfl, tA1⟩, ⟨rfl, tB1⟩, x1⟩
      | poly r0 hs =>
        cases uA1
        exact ⟨.ring tA, .poly tB tsB, ⟨rfl, tA1⟩, ⟨tB1, uB1⟩, big⟩
    | poly q0 hs =>
      cases r with
      | ring r0 =>
        obtain ⟨rfl, -⟩ := hr
        cases uB1
        exact ⟨.poly tA tsA, .ring tB, ⟨tA1, uA1⟩, ⟨rfl, tB1⟩, big⟩
      | poly r0 hs' =>
        exact ⟨.poly tA tsA, .poly tB tsB, ⟨tA1, uA1⟩, ⟨tB1, uB1⟩, big⟩
  obtain ⟨q', r', k1, k2, k3⟩ := key
  obtain ⟨b, h1, h2⟩ := poly_poly (P := ⟨Ix.exact, exact ε fun _ => 0, exactR, fuel⟩) rfl rfl rfl k1 k2 (ok_bare oka) (ok_bare okb)
    (s1.mono (fun _ h => h) fun _ h => h) (s2.mono (fun _ h => h) fun _ h => h)
  refine ⟨b, by rw [k3]; exact h1, ?_⟩
  rw [h2]
  simp only [has_bare]

end Tg.S
