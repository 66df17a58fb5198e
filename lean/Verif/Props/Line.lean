import Verif.Lemmas.Line
import Verif.Props.Series
/-! C37 and C46: lines against points and lines, with exact arithmetic. -/
namespace Tg

open S

variable {K : Type*} [Field K] [LinearOrder K] [IsStrictOrderedRing K] [FloorRing K] {ε : K} {ns : List (Pt K) → Nat}

/-! ### C46  Line and point -/

/-- C46. Whichever the index, a line covers exactly the points that lie on one of its segments. -/
theorem C46_line_covers_point {e : Env} (he : e.Ok) {pts : List (Pt K)} {ix : BitVec 32} {line : Ring K K}
    (h : newIx Ix.exact (exact ε ns) e pts false ix = some line) (p : Pt K) :
    ∃ r, lineCoversPt Ix.exact (exact ε ns) line p = some r ∧ (r = true ↔ ∃ s ∈ edges pts, OnSeg s p) := by
  classical
  have hlen : (segments pts false).length < pts.length ∨ pts.length % spreadOf e ix = 0 ∨ line.index = none := by
    cases pts with
    | nil => right; left; simp
    | cons a l => left; rw [segments]; simp [edges_length]
  have hq : (p.rect : Rect K).Valid := ⟨le_rfl, le_rfl⟩
  have hs := C22_search_partial Ix.exact_lawful he h hlen p.rect hq (coversPtIter (exact ε ns) p) false
  refine ⟨_, hs, ?_⟩
  have hv : visit (fun x : Seg K × Nat => coversPtIter (exact ε ns) p x.1 x.2)
      ((segments pts false).zipIdx.filter fun x => decide (Meets p.rect x.1)) false
      = ((segments pts false).zipIdx.filter fun x => decide (Meets p.rect x.1)).any fun x => segCoversPt (exact ε ns) x.1 p :=
    visit_any (fun x : Seg K × Nat => segCoversPt (exact ε ns) x.1 p) _
  have hsegs : segments pts false = edges pts := by rw [segments]; simp
  rw [hv, List.any_eq_true, hsegs]
  constructor
  · rintro ⟨⟨s, i⟩, h1, h2⟩
    rw [List.mem_filter, List.mem_zipIdx_iff_getElem?] at h1
    exact ⟨s, List.mem_of_getElem? h1.1, (segCoversPt_iff s p).1 h2⟩
  · rintro ⟨s, h1, h2⟩
    obtain ⟨i, hi⟩ := List.getElem?_of_mem h1
    refine ⟨(s, i), ?_, (segCoversPt_iff s p).2 h2⟩
    rw [List.mem_filter, List.mem_zipIdx_iff_getElem?]
    refine ⟨hi, decide_eq_true ((intersects_iff_meets hq s).1 ?_)⟩
    have hr := onSeg_rect h2
    rw [C20_intersects _ _ hq s.rect_valid]
    exact ⟨p, ⟨le_rfl, le_rfl, le_rfl, le_rfl⟩, hr⟩

/-! ### C37  Line and line -/

theorem S.line_segAt {e : Env} (he : e.Ok) {pts : List (Pt K)} {ix : BitVec 32} {line : Ring K K}
    (h : newIx Ix.exact (exact ε ns) e pts false ix = some line) {i : Nat} (hi : i < line.nsegs) :
    ∃ s, segAt line.points i = some s ∧ (edges pts)[i]? = some s := by
  obtain ⟨h1, -⟩ := newIx_some Ix.exact_lawful he h
  have hsegs : segments pts false = edges pts := by rw [segments]; simp
  have hi' : i < (segments pts false).length := by rw [← h1.nsegs_eq]; exact hi
  refine ⟨_, h1.segAt hi', ?_⟩
  rw [hsegs] at hi'
  rw [List.getElem?_eq_getElem hi']
  simp only [hsegs]

theorem S.line_nsegs {e : Env} (he : e.Ok) {pts : List (Pt K)} {ix : BitVec 32} {line : Ring K K}
    (h : newIx Ix.exact (exact ε ns) e pts false ix = some line) :
    line.nsegs = pts.length - 1 ∧ (ringEmpty line = true ↔ pts.length < 2) := by
  obtain ⟨h1, -⟩ := newIx_some Ix.exact_lawful he h
  have hsegs : segments pts false = edges pts := by rw [segments]; simp
  refine ⟨by rw [h1.nsegs_eq, hsegs, edges_length], ?_⟩
  rw [ringEmpty, h1.closed_eq, h1.npoints_eq]
  simp

/-- C37, the part that always holds: the answer true means that one segment of the first line covers the first segment of the second. Nothing
is implied for the other segments (`C37_wrong`). -/
theorem C37_first {e₁ e₂ : Env} (he₁ : e₁.Ok) (he₂ : e₂.Ok) {pa pb : List (Pt K)} {ix₁ ix₂ : BitVec 32} {a b : Ring K K}
    (ha : newIx Ix.exact (exact ε ns) e₁ pa false ix₁ = some a) (hb : newIx Ix.exact (exact ε ns) e₂ pb false ix₂ = some b)
    {fuel : Nat} (h : lineCoversLine (exact ε ns) fuel a b = some true) :
    ∃ t, (edges pb)[0]? = some t ∧ ∃ s ∈ edges pa, ∀ p, OnSeg t p → OnSeg s p := by
  unfold lineCoversLine at h
  split_ifs at h with c1 c2
  · simp at h
  · simp at h
  · obtain ⟨n1, n2⟩ := line_nsegs he₂ hb
    have hb2 : ¬ ringEmpty b = true := by intro hb'; simp [hb'] at c1
    rw [n2] at hb2
    obtain ⟨t, ht, ht'⟩ := line_segAt he₂ hb (i := 0) (by omega)
    rw [ht] at h
    dsimp only at h
    refine ⟨t, ht', ?_⟩
    cases hf : firstCovering (exact ε ns) a t (List.range a.nsegs) with
    | none => rw [hf] at h; cases h
    | some r =>
      cases r with
      | none => rw [hf] at h; cases h
      | some j =>
        obtain ⟨j1, s, j2, j3⟩ := firstCovering_spec hf
        obtain ⟨s', k1, k2⟩ := line_segAt he₁ ha (i := j) (by simpa using j1)
        rw [j2] at k1
        cases k1
        exact ⟨s, List.mem_of_getElem? k2, (segCoversSeg_iff s t).1 j3⟩

/-- C37 for a second line of one segment: the function ends and answers true exactly if one segment of the first line covers it; so the
points of the second line are points of the first. What is missing: longer second lines, for which the answer can be wrong (`C37_wrong`) and the
loop need not end (`C37_hangs`). -/
theorem C37_segment_partial {e₁ e₂ : Env} (he₁ : e₁.Ok) (he₂ : e₂.Ok) {pa : List (Pt K)} {t : Seg K} {ix₁ ix₂ : BitVec 32} {a b : Ring K K}
    (ha : newIx Ix.exact (exact ε ns) e₁ pa false ix₁ = some a) (hb : newIx Ix.exact (exact ε ns) e₂ [t.a, t.b] false ix₂ = some b)
    (fuel : Nat) (hfuel : 0 < fuel) :
    ∃ r, lineCoversLine (exact ε ns) fuel a b = some r ∧ (r = true ↔ ∃ s ∈ edges pa, ∀ p, OnSeg t p → OnSeg s p) ∧
      (r = true → ∀ p, OnSeg t p → ∃ s ∈ edges pa, OnSeg s p) := by
  suffices hmain : ∃ r, lineCoversLine (exact ε ns) fuel a b = some r ∧ (r = true ↔ ∃ s ∈ edges pa, ∀ p, OnSeg t p → OnSeg s p) by
    obtain ⟨r, h1, h2⟩ := hmain
    exact ⟨r, h1, h2, fun hr p hp => by obtain ⟨s, hs, hs'⟩ := h2.1 hr; exact ⟨s, hs, hs' p hp⟩⟩
  obtain ⟨m1, m2⟩ := line_nsegs he₁ ha
  obtain ⟨n1, n2⟩ := line_nsegs he₂ hb
  obtain ⟨oka, -⟩ := newIx_some Ix.exact_lawful he₁ ha
  obtain ⟨okb, -⟩ := newIx_some Ix.exact_lawful he₂ hb
  obtain ⟨t', ht, ht'⟩ := line_segAt he₂ hb (i := 0) (by rw [n1]; simp)
  have htt : t' = t := by
    simp only [edges, List.getElem?_cons_zero] at ht'
    cases ht'
    rfl
  subst htt
  unfold lineCoversLine
  have hbe : ringEmpty b = false := by rw [Bool.eq_false_iff, Ne, n2]; simp
  rw [hbe, Bool.or_false]
  split_ifs with c1 c2
  · refine ⟨false, rfl, by simp, ?_⟩
    rintro ⟨s, hs, -⟩
    rw [m2] at c1
    rcases pa with - | ⟨x, - | ⟨y, l⟩⟩
    · simp [edges] at hs
    · simp [edges] at hs
    · rw [List.length_cons, List.length_cons] at c1; omega
  · refine ⟨false, rfl, by simp, ?_⟩
    rintro ⟨s, hs, hcov⟩
    exfalso
    rw [m2] at c1
    have hrect : a.rect.covers b.rect = true := by
      have hps : ∀ q ∈ pa, a.rect.Has q := oka.rect_has (by omega)
      obtain ⟨i, hi⟩ := List.getElem?_of_mem hs
      have hsrect : s.rect.Le a.rect := by
        rw [edges_getElem?, segAt] at hi
        cases h1 : pa[i]? with
        | none => rw [h1] at hi; cases hi
        | some x =>
          cases h2 : pa[i + 1]? with
          | none => rw [h1, h2] at hi; cases hi
          | some y =>
            rw [h1, h2] at hi
            cases hi
            have hx := hps x (List.mem_of_getElem? h1)
            have hy := hps y (List.mem_of_getElem? h2)
            exact Seg.rect_le hx hy
      have hle : b.rect.Le a.rect := okb.rect_least (by simp) _ (by
        intro q hq
        have hq' : OnSeg t' q := by
          rcases List.mem_cons.1 hq with rfl | hq
          · exact onSeg_left t'
          · rcases List.mem_cons.1 hq with rfl | hq
            · exact onSeg_right t'
            · cases hq
        have := onSeg_rect (hcov q hq')
        exact ⟨hsrect.1.trans this.1, this.2.1.trans hsrect.2.1, hsrect.2.2.1.trans this.2.2.1, this.2.2.2.trans hsrect.2.2.2⟩)
      rw [covers_iff]
      exact hle
    rw [hrect] at c2
    simp at c2
  · rw [ht]
    dsimp only
    obtain ⟨r, hr⟩ := firstCovering_some (A := exact ε ns) (a := a) (b0 := t') (ks := List.range a.nsegs) (by
      intro k hk
      obtain ⟨s, hs, -⟩ := line_segAt he₁ ha (i := k) (by simpa using hk)
      exact ⟨s, hs⟩)
    rw [hr]
    cases r with
    | none =>
      refine ⟨false, rfl, by simp, ?_⟩
      rintro ⟨s, hs, hcov⟩
      obtain ⟨i, hi⟩ := List.getElem?_of_mem hs
      have hin : i < a.nsegs := by
        have : i < (edges pa).length := by
          by_contra hlt
          rw [List.getElem?_eq_none (by omega)] at hi
          cases hi
        rw [m1, ← edges_length]
        exact this
      obtain ⟨s', k1, k2⟩ := line_segAt he₁ ha hin
      rw [hi] at k2
      cases k2
      have := firstCovering_none hr i (by simpa using hin) s k1
      rw [(segCoversSeg_iff s t').2 hcov] at this
      cases this
    | some j =>
      dsimp only
      obtain ⟨f, rfl⟩ : ∃ f, fuel = f + 1 := ⟨fuel - 1, by omega⟩
      rw [coversLoop, if_neg (by rw [n1]; simp)]
      obtain ⟨j1, s, j2, j3⟩ := firstCovering_spec hr
      obtain ⟨s', k1, k2⟩ := line_segAt he₁ ha (i := j) (by simpa using j1)
      rw [j2] at k1
      cases k1
      exact ⟨true, rfl, by simpa using ⟨s, List.mem_of_getElem? k2, (segCoversSeg_iff s t').1 j3⟩⟩

/-- The full statement of C37 fails: the loop does not end for any second line that follows the first one to an inner vertex `q` and leaves it
there. -/
theorem C37_hangs {e₁ e₂ : Env} (he₁ : e₁.Ok) (he₂ : e₂.Ok) {pa pb : List (Pt K)} {ix₁ ix₂ : BitVec 32} {a b : Ring K K}
    (ha : newIx Ix.exact (exact ε ns) e₁ pa false ix₁ = some a) (hb : newIx Ix.exact (exact ε ns) e₂ pb false ix₂ = some b)
    (hrect : a.rect.covers b.rect = true) {j : Nat} {p q r b0 b2 : Pt K} (hp : pa[j]? = some p) (hq : pa[j + 1]? = some q) (hr : pa[j + 2]? = some r)
    (hb0 : pb[0]? = some b0) (hb1 : pb[1]? = some q) (hb2 : pb[2]? = some b2) (hpq : p ≠ q) (hon : OnSeg ⟨p, q⟩ b0)
    (hfirst : ∀ k s, k < j → (edges pa)[k]? = some s → ¬ (OnSeg s b0 ∧ OnSeg s q)) (h1 : ¬ OnSeg ⟨p, q⟩ b2) (h2 : ¬ OnSeg ⟨q, r⟩ b2) :
    ∀ fuel, lineCoversLine (exact ε ns) fuel a b = none := by
  have hla : j + 2 < pa.length := (List.getElem?_eq_some_iff.1 hr).1
  have hlb : 2 < pb.length := (List.getElem?_eq_some_iff.1 hb2).1
  obtain ⟨m1, m2⟩ := line_nsegs he₁ ha
  obtain ⟨n1, n2⟩ := line_nsegs he₂ hb
  have hsa : ∀ k x y, pa[k]? = some x → pa[k + 1]? = some y → segAt a.points k = some ⟨x, y⟩ := by
    intro k x y hx hy
    have hk : k + 1 < pa.length := (List.getElem?_eq_some_iff.1 hy).1
    obtain ⟨s, k1, k2⟩ := line_segAt he₁ ha (i := k) (by omega)
    rw [edges_getElem?, segAt, hx, hy] at k2
    cases k2
    exact k1
  have hsb : ∀ k x y, pb[k]? = some x → pb[k + 1]? = some y → segAt b.points k = some ⟨x, y⟩ := by
    intro k x y hx hy
    have hk : k + 1 < pb.length := (List.getElem?_eq_some_iff.1 hy).1
    obtain ⟨s, k1, k2⟩ := line_segAt he₂ hb (i := k) (by omega)
    rw [edges_getElem?, segAt, hx, hy] at k2
    cases k2
    exact k1
  have sj := hsa j p q hp hq
  have sj1 := hsa (j + 1) q r hq hr
  have s0 := hsb 0 b0 q hb0 hb1
  have s1 := hsb 1 q b2 hb1 hb2
  have nc1 : segCoversSeg (exact ε ns) ⟨p, q⟩ ⟨q, b2⟩ = false := by
    rw [Bool.eq_false_iff, Ne, segCoversSeg_iff]
    exact fun h => h1 (h b2 (onSeg_right (⟨q, b2⟩ : Seg K)))
  have nc2 : segCoversSeg (exact ε ns) ⟨q, r⟩ ⟨q, b2⟩ = false := by
    rw [Bool.eq_false_iff, Ne, segCoversSeg_iff]
    exact fun h => h2 (h b2 (onSeg_right (⟨q, b2⟩ : Seg K)))
  have hloop : ∀ fuel, coversLoop (exact ε ns) a b fuel 1 j = none ∧ coversLoop (exact ε ns) a b fuel 1 (j + 1) = none := by
    intro fuel
    induction fuel with
    | zero => exact ⟨rfl, rfl⟩
    | succ fuel ih =>
      constructor
      · rw [coversLoop, if_pos ⟨by omega, by omega⟩, sj, s1]
        dsimp only
        rw [nc1, if_neg (by simp), if_neg (by rw [pteq_iff]; exact fun h => hpq h.symm), if_pos (by rw [pteq_iff])]
        exact ih.2
      · rw [coversLoop, if_pos ⟨by omega, by omega⟩, sj1, s1]
        dsimp only
        rw [nc2, if_neg (by simp), if_pos (by rw [pteq_iff]), if_neg (by omega), Nat.add_sub_cancel]
        exact ih.1
  intro fuel
  unfold lineCoversLine
  have hae : ringEmpty a = false := by rw [Bool.eq_false_iff, Ne, m2]; omega
  have hbe : ringEmpty b = false := by rw [Bool.eq_false_iff, Ne, n2]; omega
  rw [hae, hbe, hrect, if_neg (by simp), if_neg (by simp), s0]
  dsimp only
  have hcov0 : segCoversSeg (exact ε ns) ⟨p, q⟩ ⟨b0, q⟩ = true := by
    rw [segCoversSeg_iff]
    exact fun x hx => onSeg_mono (t := ⟨b0, q⟩) hon (onSeg_right (⟨p, q⟩ : Seg K)) hx
  obtain ⟨o, ho⟩ := firstCovering_some (A := exact ε ns) (a := a) (b0 := ⟨b0, q⟩) (ks := List.range a.nsegs) (by
    intro k hk
    obtain ⟨s, hs, -⟩ := line_segAt he₁ ha (i := k) (by simpa using hk)
    exact ⟨s, hs⟩)
  have hfj : firstCovering (exact ε ns) a ⟨b0, q⟩ (List.range a.nsegs) = some (some j) := by
    have hsplit : List.range a.nsegs = List.range j ++ (j :: (List.range' (j + 1) (a.nsegs - (j + 1)))) := by
      rw [List.range_eq_range', List.range_eq_range', ← List.range'_succ]
      have h3 := List.range'_append_1 (s := 0) (m := j) (n := a.nsegs - (j + 1) + 1)
      rw [Nat.zero_add] at h3
      rw [h3]
      congr 1
      omega
    rw [hsplit]
    have hskip : ∀ (ks : List Nat) (rest : List Nat), (∀ k ∈ ks, k < j) →
        firstCovering (exact ε ns) a ⟨b0, q⟩ (ks ++ rest) = firstCovering (exact ε ns) a ⟨b0, q⟩ rest := by
      intro ks rest
      induction ks with
      | nil => intro _; rfl
      | cons k ks ih =>
        intro hk
        have hkj := hk k (by simp)
        obtain ⟨s, k1, k2⟩ := line_segAt he₁ ha (i := k) (by omega)
        have hnc : segCoversSeg (exact ε ns) s ⟨b0, q⟩ = false := by
          rw [Bool.eq_false_iff, Ne, segCoversSeg_iff]
          exact fun h => hfirst k s hkj k2 ⟨h b0 (onSeg_left (⟨b0, q⟩ : Seg K)), h q (onSeg_right (⟨b0, q⟩ : Seg K))⟩
        rw [List.cons_append, firstCovering, k1]
        dsimp only
        rw [hnc, if_neg (by simp)]
        exact ih fun k' hk' => hk k' (by simp [hk'])
    rw [hskip _ _ (by simp), firstCovering, sj]
    dsimp only
    rw [hcov0, if_pos rfl]
  rw [hfj]
  exact (hloop fuel).1

/-- The function on two lists of points. -/
def S.linesCover (fuel : Nat) (pa pb : List (Pt ℚ)) : Option Bool :=
  (newIx Ix.exact arithQ Env.initial pa false 0#32).bind fun a =>
    (newIx Ix.exact arithQ Env.initial pb false 0#32).bind fun b => lineCoversLine arithQ fuel a b

theorem S.C37_on (s : Seg ℚ) (p : Pt ℚ) : segCoversPt arithQ s p = true ↔ OnSeg s p := segCoversPt_iff s p

/-- Also wrong answers: these lines are not covered, as the last point is not on the first line, and the answer is true. The first leaves the line
in the middle of a segment, the second at its last vertex. -/
theorem C37_wrong : linesCover 10 [⟨0, 0⟩, ⟨10, 0⟩, ⟨10, 10⟩] [⟨1, 0⟩, ⟨2, 0⟩, ⟨3, 5⟩] = some true ∧
    linesCover 10 [⟨0, 0⟩, ⟨10, 10⟩] [⟨1, 1⟩, ⟨10, 10⟩, ⟨10, 5⟩] = some true ∧
    (∀ s ∈ edges ([⟨0, 0⟩, ⟨10, 0⟩, ⟨10, 10⟩] : List (Pt ℚ)), ¬ OnSeg s ⟨3, 5⟩) ∧
    (∀ s ∈ edges ([⟨0, 0⟩, ⟨10, 10⟩] : List (Pt ℚ)), ¬ OnSeg s ⟨10, 5⟩) := by
  refine ⟨by decide +kernel, by decide +kernel, ?_, ?_⟩
  · intro s hs
    simp only [edges, List.mem_cons, List.not_mem_nil, or_false] at hs
    rcases hs with rfl | rfl
    · rw [← C37_on]; decide +kernel
    · rw [← C37_on]; decide +kernel
  · intro s hs
    simp only [edges, List.mem_cons, List.not_mem_nil, or_false] at hs
    subst hs
    rw [← C37_on]; decide +kernel

/-- A line that meets the hypotheses of `C37_hangs`, and others that are covered as they should be. -/
example : linesCover 1000 [⟨0, 0⟩, ⟨10, 0⟩, ⟨10, 10⟩] [⟨5, 0⟩, ⟨10, 0⟩, ⟨5, 5⟩] = none ∧
    linesCover 10 [⟨0, 0⟩, ⟨10, 0⟩, ⟨10, 10⟩] [⟨1, 0⟩, ⟨10, 0⟩, ⟨10, 10⟩] = some true ∧
    linesCover 10 [⟨0, 0⟩, ⟨10, 0⟩, ⟨10, 10⟩] [⟨10, 3⟩, ⟨10, 7⟩] = some true ∧
    linesCover 10 [⟨0, 0⟩, ⟨10, 0⟩, ⟨10, 10⟩] [⟨10, 3⟩, ⟨9, 7⟩] = some false := by
  refine ⟨?_, ?_, ?_, ?_⟩ <;> decide +kernel

end Tg
