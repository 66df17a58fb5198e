import Verif.Model.Relate
import Verif.Lemmas.JordanRings
import Verif.Lemmas.Line
import Verif.Props.Series
import Verif.Props.Plane
/-! Lemmas about rings against segments. -/
set_option linter.unusedSectionVars false
namespace Tg.S

section
variable {α β : Type*} [LinearOrder α] [LinearOrder β]

theorem visit_count {A : Arith α} {seg : Seg α} : ∀ (l : List (Seg α × Nat)) (st : InterSt), st.count < 2 →
    (visit (fun x : Seg α × Nat => interIter A seg true x.1 x.2) l st).count = min 2 (st.count + l.countP fun x => segIntersects A seg x.1)
  | [], st, h => by simp [visit]; omega
  | x :: l, st, h => by
    rw [visit, List.countP_cons]
    by_cases hx : segIntersects A seg x.1 = true
    · simp only [interIter, hx, Bool.not_true, Bool.false_eq_true, if_false, if_true, decide_eq_true_eq]
      by_cases h1 : st.count + 1 < 2
      · rw [if_pos h1, visit_count l _ h1]
        simp only
        omega
      · rw [if_neg h1]
        simp only
        omega
    · simp only [Bool.not_eq_true] at hx
      simp only [interIter, hx, Bool.not_false, if_true, Bool.false_eq_true, if_false, Nat.add_zero]
      rw [visit_count l st h]

theorem visit_cont {A : Arith α} {seg : Seg α} {test : Seg α → Bool} (l : List (Seg α × Nat)) :
    visit (fun x : Seg α × Nat => contIter A seg test x.1 x.2) l false = l.any fun x => segIntersects A seg x.1 && test x.1 :=
  visit_any (fun x : Seg α × Nat => segIntersects A seg x.1 && test x.1) l

theorem anySeg_some {points : List (Pt α)} {P : Seg α → Option Bool} : ∀ {is : List Nat} {ss : List (Seg α)}, is.map (segAt points) = ss.map some →
    (∀ s ∈ ss, ∃ b, P s = some b) → ∃ b, anySeg points P is = some b ∧ (b = true ↔ ∃ s ∈ ss, P s = some true)
  | [], ss, h, _ => by
    cases ss with
    | nil => exact ⟨false, rfl, by simp⟩
    | cons => simp at h
  | i :: is, [], h, _ => by simp at h
  | i :: is, s :: ss, h, hP => by
    simp only [List.map_cons, List.cons.injEq] at h
    obtain ⟨h1, h2⟩ := h
    obtain ⟨b, hb⟩ := hP s (by simp)
    rw [anySeg, h1]
    dsimp only
    rw [hb]
    cases b with
    | true => exact ⟨true, rfl, by simp [hb]⟩
    | false =>
      obtain ⟨c, hc1, hc2⟩ := anySeg_some h2 fun s hs => hP s (by simp [hs])
      exact ⟨c, hc1, by rw [hc2]; simp [hb]⟩

theorem allSeg_some {points : List (Pt α)} {P : Seg α → Option Bool} : ∀ {is : List Nat} {ss : List (Seg α)}, is.map (segAt points) = ss.map some →
    (∀ s ∈ ss, ∃ b, P s = some b) → ∃ b, allSeg points P is = some b ∧ (b = true ↔ ∀ s ∈ ss, P s = some true)
  | [], ss, h, _ => by
    cases ss with
    | nil => exact ⟨true, rfl, by simp⟩
    | cons => simp at h
  | i :: is, [], h, _ => by simp at h
  | i :: is, s :: ss, h, hP => by
    simp only [List.map_cons, List.cons.injEq] at h
    obtain ⟨h1, h2⟩ := h
    obtain ⟨b, hb⟩ := hP s (by simp)
    rw [allSeg, h1]
    dsimp only
    rw [hb]
    cases b with
    | false => exact ⟨false, rfl, by simp [hb]⟩
    | true =>
      obtain ⟨c, hc1, hc2⟩ := allSeg_some h2 fun s hs => hP s (by simp [hs])
      exact ⟨c, hc1, by rw [hc2]; simp [hb]⟩

/-- The segments that a loop over a series reads. -/
theorem segAt_range {f : Ix α β} {pts : List (Pt α)} {closed : Bool} {sp : Nat} {r : Ring α β} (h : RingOk f pts closed sp r) :
    (List.range r.nsegs).map (segAt r.points) = (segments pts closed).map some := by
  apply List.ext_getElem
  · simp [h.nsegs_eq]
  · intro i h1 h2
    simp only [List.getElem_map, List.getElem_range]
    rw [h.segAt]

end

variable {K : Type*} [Field K] [LinearOrder K] [IsStrictOrderedRing K] [FloorRing K] {ε : K} {ns : List (Pt K) → Nat}

/-- The segments of a ring form a closed chain. -/
theorem ring_chain {pts : List (Pt K)} (h3 : 3 ≤ pts.length) :
    ∃ l : List (Pt K), segments pts true = edges l ∧ l.head? = l.getLast? ∧ 3 ≤ l.length ∧ ∀ v, v ∈ l ↔ v ∈ pts := by
  unfold segments
  simp only [Bool.not_true, Bool.false_eq_true, if_false, if_neg (show ¬ pts.length < 3 by omega)]
  split_ifs with h
  · exact ⟨pts, rfl, h.symm, h3, fun _ => Iff.rfl⟩
  · match pts, h3 with
    | a :: t, h3 =>
      refine ⟨a :: t ++ [a], rfl, ?_, by simp at h3 ⊢; omega, ?_⟩
      · rw [List.getLast?_append]
        rfl
      · intro v
        simp only [List.mem_append, List.mem_cons, List.not_mem_nil]
        tauto

/-- Y-stripes are right for a point that is below the top, or if no segment is at the top. -/
def TopOk (r : Ring K K) (es : List (Seg K)) (p : Pt K) : Prop :=
  r.ystripes ≠ none → p.y < r.rect.hi.y ∨ ∀ s ∈ es, s.a.y < r.rect.hi.y ∨ s.b.y < r.rect.hi.y

/-- The point test gives the answer of the even-odd rule, and the number of a segment that the point is on. -/
def PipAt (ε : K) (ns : List (Pt K) → Nat) (r : Ring K K) (es : List (Seg K)) (p : Pt K) : Prop :=
  ∀ edge : Bool, ∃ b idx, ringContainsPoint Ix.exact (exact ε ns) r p edge = some (b, idx) ∧
    (b = true ↔ if edge then InRegion es p else Inside es p) ∧ (idx = none ↔ ¬ OnBoundary es p) ∧
    ∀ i, idx = some i → ∃ s, es[i]? = some s ∧ OnSeg s p

theorem pip_eq {e : Env} (he : e.Ok) {pts : List (Pt K)} (h3 : 3 ≤ pts.length) {ix : BitVec 32} {r : Ring K K}
    (hr : newIx Ix.exact (exact ε ns) e pts true ix = some r)
    (hcov : (segments pts true).length < pts.length ∨ pts.length % spreadOf e ix = 0 ∨ r.index = none ∨ r.ystripes ≠ none)
    (p : Pt K) (edge : Bool) (htop : TopOk r (segments pts true) p) :
    ringContainsPoint Ix.exact (exact ε ns) r p edge =
      some (if r.rect.coversPt p then pipAll (exact ε ns) p edge (segments pts true).zipIdx (false, none) else (false, none)) := by
  obtain ⟨a1, -, a3, a4⟩ := newIx_some Ix.exact_lawful he hr
  have hsegs : ∀ s ∈ segments pts true, r.rect.Has s.a ∧ r.rect.Has s.b := fun s hs =>
    ⟨a1.rect_has (by omega) _ (seg_mem_pts hs).1, a1.rect_has (by omega) _ (seg_mem_pts hs).2⟩
  have hn : 0 < stripesOf (exact ε ns) pts := by unfold stripesOf; omega
  have key : ∀ st, r.ystripes = some st → StripesOk (exact ε ns) (segments pts true) r.rect st ∧ OffTop (exact ε ns) r.rect st.length (segments pts true) p := by
    intro st hst
    have e1 := a4 st hst
    have hlt : r.rect.lo.y < r.rect.hi.y := by
      have hle : r.rect.lo.y ≤ r.rect.hi.y := by
        match pts, h3 with
        | q :: _, _ =>
          have := a1.rect_has (by omega) q (by simp)
          exact this.2.2.1.trans this.2.2.2
      refine lt_of_le_of_ne hle fun heq => ?_
      rw [exact_stripes_flat (pts := pts) ?_ heq] at e1
      · cases e1
      · have := segments_ge pts true (by omega)
        intro h0
        rw [h0] at this
        simp only [List.length_nil] at this
        omega
    obtain ⟨st', p1, p2, p3⟩ := processStripes_ok (segs := segments pts true) hn (exact_stripeOk (ε := ε) (ns := ns) hlt) hsegs
    rw [e1] at p1
    cases p1
    refine ⟨p2, ?_⟩
    rw [p3]
    rcases htop (by rw [hst]; simp) with h | h
    · exact .inl fun k hk => exact_stripe_lt hn hlt h hk
    · exact .inr fun s hs k hk => exact_stripe_lt hn hlt (min_lt_iff.2 (h s hs)) hk
  exact ringContainsPoint_eq Ix.exact_lawful a1 (by omega) (fun st h => (key st h).1) (by rcases hcov with h | h | h; exacts [.inl (.inl h), .inl (.inr h), .inr h])
    p edge (fun st h => (key st h).2)

theorem pipAll_idx (A : Arith K) (p : Pt K) (edge : Bool) : ∀ (l : List (Seg K × Nat)) (st : Pip),
    ((pipAll A p edge l st).2 = none ↔ st.2 = none ∧ ∀ x ∈ l, raycast A x.1 p ≠ .on) ∧
    ∀ i, (pipAll A p edge l st).2 = some i → st.2 = some i ∨ ∃ s, (s, i) ∈ l ∧ raycast A s p = .on
  | [], st => by simp [pipAll]
  | (s, k) :: l, st => by
    rw [pipAll]
    obtain ⟨h1, h2⟩ := pipAll_idx A p edge l (pipSlow A s k p edge st)
    have hst : (pipSlow A s k p edge st).2 = if raycast A s p = .on then some k else st.2 := by
      rw [pipSlow]
      cases raycast A s p with
      | out => simp
      | in_ => simp; split_ifs <;> rfl
      | on => simp
    rw [h1, hst]
    constructor
    · by_cases ho : raycast A s p = .on
      · simp [ho]
      · simp [ho]
    · intro i hi
      rcases h2 i hi with h | ⟨s', h, h'⟩
      · rw [hst] at h
        split_ifs at h with ho
        · cases h
          exact .inr ⟨s, by simp, ho⟩
        · exact .inl h
      · exact .inr ⟨s', by simp [h], h'⟩

open Classical in
theorem pipAt_of {e : Env} (he : e.Ok) (ns : List (Pt K) → Nat) {pts : List (Pt K)} (h3 : 3 ≤ pts.length) (ix : BitVec 32) (p : Pt K) :
    ∃ ε₀ > 0, ∀ ε, 0 < ε → ε ≤ ε₀ → ∀ r : Ring K K, newIx Ix.exact (exact ε ns) e pts true ix = some r →
      ((segments pts true).length < pts.length ∨ pts.length % spreadOf e ix = 0 ∨ r.index = none ∨ r.ystripes ≠ none) →
      TopOk r (segments pts true) p → PipAt ε ns r (segments pts true) p := by
  obtain ⟨e1, p1, h1⟩ := C26_point_in_ring (K := K) ns he h3 ix p true
  obtain ⟨e2, p2, h2⟩ := C26_point_in_ring (K := K) ns he h3 ix p false
  refine ⟨min e1 e2, lt_min p1 p2, fun ε hε hle r hr hcov htop edge => ?_⟩
  have hans : (ringContainsPoint Ix.exact (exact ε ns) r p edge).map (·.1) = some (if ∃ s ∈ segments pts true, OnSeg s p then edge
        else decide (((segments pts true).countP fun s => decide (Crosses s p)) % 2 = 1)) := by
    cases edge with
    | true => exact h1 ε hε (hle.trans (min_le_left _ _)) r hr hcov htop
    | false => exact h2 ε hε (hle.trans (min_le_right _ _)) r hr hcov htop
  have heq := pip_eq he h3 hr hcov p edge htop
  rw [heq] at hans ⊢
  obtain ⟨X, hX⟩ : ∃ X : Pip, X = (if r.rect.coversPt p then pipAll (exact ε ns) p edge (segments pts true).zipIdx (false, none) else (false, none)) := ⟨_, rfl⟩
  rw [← hX] at hans ⊢
  refine ⟨X.1, X.2, rfl, ?_, ?_, ?_⟩
  · rw [Option.map_some, Option.some.injEq] at hans
    rw [hans]
    by_cases hb : OnBoundary (segments pts true) p
    · rw [if_pos (show ∃ s ∈ segments pts true, OnSeg s p from hb)]
      cases edge <;> simp [InRegion, Inside, hb]
    · rw [if_neg (show ¬ ∃ s ∈ segments pts true, OnSeg s p from hb)]
      cases edge <;> simp [InRegion, Inside, hb, ncross]
  · by_cases hp : r.rect.coversPt p = true
    · rw [hX, if_pos hp, (pipAll_idx _ _ _ _ _).1]
      simp only [true_and, ne_eq, raycast_on_iff]
      constructor
      · rintro h ⟨s, hs, hon⟩
        obtain ⟨i, hi⟩ := List.getElem?_of_mem hs
        exact h (s, i) (List.mem_zipIdx_iff_getElem?.2 hi) hon
      · rintro h ⟨s, i⟩ hx hon
        exact h ⟨s, List.fst_mem_of_mem_zipIdx hx, hon⟩
    · rw [hX, if_neg hp]
      refine iff_of_true rfl ?_
      rintro ⟨s, hs, hon⟩
      obtain ⟨a1, -⟩ := newIx_some Ix.exact_lawful he hr
      obtain ⟨ha, hb⟩ := seg_mem_pts hs
      have ha := a1.rect_has (by omega) _ ha
      have hb := a1.rect_has (by omega) _ hb
      have := onSeg_rect hon
      rw [coversPt_iff] at hp
      exact hp ⟨(le_min ha.1 hb.1).trans this.1, this.2.1.trans (max_le ha.2.1 hb.2.1), (le_min ha.2.2.1 hb.2.2.1).trans this.2.2.1,
        this.2.2.2.trans (max_le ha.2.2.2 hb.2.2.2)⟩
  · intro i hi
    by_cases hp : r.rect.coversPt p = true
    · rw [hX, if_pos hp] at hi
      rcases (pipAll_idx _ _ _ _ _).2 i hi with h | ⟨s, hs, hon⟩
      · cases h
      · exact ⟨s, List.mem_zipIdx_iff_getElem?.1 hs, raycast_on_iff.1 hon⟩
    · rw [hX, if_neg hp] at hi
      cases hi

/-- For finitely many points. -/
theorem pipAt_all {e : Env} (he : e.Ok) (ns : List (Pt K) → Nat) {pts : List (Pt K)} (h3 : 3 ≤ pts.length) (ix : BitVec 32) : ∀ ps : List (Pt K),
    ∃ ε₀ > 0, ∀ ε, 0 < ε → ε ≤ ε₀ → ∀ r : Ring K K, newIx Ix.exact (exact ε ns) e pts true ix = some r →
      ((segments pts true).length < pts.length ∨ pts.length % spreadOf e ix = 0 ∨ r.index = none ∨ r.ystripes ≠ none) →
      (∀ p ∈ ps, TopOk r (segments pts true) p) → ∀ p ∈ ps, PipAt ε ns r (segments pts true) p
  | [] => ⟨1, one_pos, by simp⟩
  | p :: ps => by
    obtain ⟨e1, p1, h1⟩ := pipAt_of he ns h3 ix p
    obtain ⟨e2, p2, h2⟩ := pipAt_all he ns h3 ix ps
    refine ⟨min e1 e2, lt_min p1 p2, fun ε hε hle r hr hcov htop q hq => ?_⟩
    rcases List.mem_cons.1 hq with rfl | hq
    · exact h1 ε hε (hle.trans (min_le_left _ _)) r hr hcov (htop q (by simp))
    · exact h2 ε hε (hle.trans (min_le_right _ _)) r hr hcov (fun x hx => htop x (by simp [hx])) q hq

theorem share_meets {s t : Seg K} (h : Share s t) : Meets s.rect t :=
  (intersects_iff_meets (s.rect_valid) t).1 (by
    rw [C20_intersects _ _ s.rect_valid t.rect_valid]
    obtain ⟨p, h1, h2⟩ := h
    exact ⟨p, onSeg_rect h1, onSeg_rect h2⟩)

open Classical in
/-- `tg_ring_intersects_segment`, edges allowed. -/
theorem ringXSeg_iff {e : Env} (he : e.Ok) {pts : List (Pt K)} (h3 : 3 ≤ pts.length) {ix : BitVec 32} {r : Ring K K}
    (hr : newIx Ix.exact (exact ε ns) e pts true ix = some r)
    (hcov : (segments pts true).length < pts.length ∨ pts.length % spreadOf e ix = 0 ∨ r.index = none)
    {seg : Seg K} (ha : PipAt ε ns r (segments pts true) seg.a) (hb : PipAt ε ns r (segments pts true) seg.b) :
    ∃ b, ringXSeg Ix.exact (exact ε ns) r seg true = some b ∧ (b = true ↔ ∃ w, OnSeg seg w ∧ InRegion (segments pts true) w) := by
  obtain ⟨l, hl, hcl, hl3, hmem⟩ := ring_chain h3
  obtain ⟨a1, -⟩ := newIx_some Ix.exact_lawful he hr
  have hrect : ∀ v ∈ l, r.rect.Has v := fun v hv => a1.rect_has (by omega) v ((hmem v).1 hv)
  have hrv : r.rect.Valid := by
    match pts, h3 with
    | q :: _, _ =>
      have := a1.rect_has (by omega) q (by simp)
      exact ⟨this.1.trans this.2.1, this.2.2.1.trans this.2.2.2⟩
  have hiff := meets_region_iff hcl hl3 seg.a seg.b
  rw [← hl] at hiff
  unfold ringXSeg
  by_cases h1 : seg.rect.intersects r.rect = true
  · rw [h1]
    simp only [Bool.not_true, Bool.false_eq_true, if_false]
    obtain ⟨b1, i1, e1, f1, -⟩ := ha true
    obtain ⟨b2, i2, e2, f2, -⟩ := hb true
    simp only [if_true] at f1 f2
    rw [e1]
    dsimp only
    by_cases c1 : b1 = true
    · rw [if_pos c1]
      exact ⟨true, rfl, iff_of_true rfl ⟨seg.a, onSeg_left seg, f1.1 c1⟩⟩
    rw [if_neg c1, e2]
    dsimp only
    by_cases c2 : b2 = true
    · rw [if_pos c2]
      exact ⟨true, rfl, iff_of_true rfl ⟨seg.b, onSeg_right seg, f2.1 c2⟩⟩
    rw [if_neg c2]
    have hs := C22_search_partial Ix.exact_lawful he hr hcov seg.rect seg.rect_valid (interIter (exact ε ns) seg true) ⟨0, false, false⟩
    obtain ⟨x, hx1, hx2⟩ := Option.map_eq_some_iff.1 hs
    rw [hx1]
    refine ⟨_, rfl, ?_⟩
    rw [decide_eq_true_eq, hx2, visit_count _ _ (by simp)]
    have hcount : (((segments pts true).zipIdx.filter fun x => decide (Meets seg.rect x.1)).countP fun x => segIntersects (exact ε ns) seg x.1) =
        (segments pts true).countP fun s => decide (Share seg s) := by
      rw [List.countP_filter]
      have : segments pts true = (segments pts true).zipIdx.map Prod.fst := by rw [List.zipIdx_map_fst]
      conv_rhs => rw [this, List.countP_map]
      refine List.countP_congr fun x _ => ?_
      simp only [Bool.and_eq_true, Function.comp_apply, decide_eq_true_eq]
      rw [C27_intersects]
      exact ⟨fun h => h.1, fun h => ⟨h, share_meets h⟩⟩
    rw [hcount]
    have hiff' : (∃ w, OnSeg seg w ∧ InRegion (segments pts true) w) ↔ _ := hiff
    rw [hiff']
    have k1 : ¬ InRegion (segments pts true) seg.a := fun h => c1 (f1.2 h)
    have k2 : ¬ InRegion (segments pts true) seg.b := fun h => c2 (f2.2 h)
    simp only [k1, k2, false_or]
    show 2 ≤ min 2 (0 + _) ↔ _
    rw [Nat.zero_add, le_min_iff]
    exact ⟨fun h => h.2, fun h => ⟨le_rfl, h⟩⟩
  · have h1' : seg.rect.intersects r.rect = false := by simpa using h1
    rw [h1']
    refine ⟨false, rfl, iff_of_false (by simp) ?_⟩
    rintro ⟨w, w1, w2⟩
    rw [hl] at w2
    apply h1
    rw [C20_intersects _ _ seg.rect_valid hrv]
    exact ⟨w, onSeg_rect w1, region_rect hcl hrect w2⟩

/-- The search at the end of the cases of `tg_ring_contains_segment`. -/
theorem noneMeets_iff {e : Env} (he : e.Ok) {pts : List (Pt K)} {ix : BitVec 32} {r : Ring K K}
    (hr : newIx Ix.exact (exact ε ns) e pts true ix = some r)
    (hcov : (segments pts true).length < pts.length ∨ pts.length % spreadOf e ix = 0 ∨ r.index = none) (seg : Seg K) (test : Seg K → Bool) :
    ∃ b, noneMeets Ix.exact (exact ε ns) r seg test = some b ∧ (b = true ↔ ∀ s ∈ segments pts true, Share seg s → test s = false) := by
  classical
  have hs := C22_search_partial Ix.exact_lawful he hr hcov seg.rect seg.rect_valid (contIter (exact ε ns) seg test) false
  obtain ⟨x, hx1, hx2⟩ := Option.map_eq_some_iff.1 hs
  unfold noneMeets
  rw [hx1]
  refine ⟨_, rfl, ?_⟩
  show (!x.1) = true ↔ _
  rw [hx2, visit_cont, Bool.not_eq_true', List.any_eq_false]
  constructor
  · intro h s hs hsh
    obtain ⟨i, hi⟩ := List.getElem?_of_mem hs
    have := h (s, i) (List.mem_filter.2 ⟨List.mem_zipIdx_iff_getElem?.2 hi, decide_eq_true (share_meets hsh)⟩)
    rw [Bool.and_eq_true, C27_intersects, not_and, Bool.not_eq_true] at this
    exact this hsh
  · rintro h ⟨s, i⟩ hx
    have := List.fst_mem_of_mem_zipIdx (List.mem_filter.1 hx).1
    rw [Bool.and_eq_true, C27_intersects, not_and, Bool.not_eq_true]
    exact h s this

theorem rect_of_seg {r : Rect K} {s : Seg K} : r.covers s.rect = true ↔ r.Has s.a ∧ r.Has s.b := by
  rw [covers_iff]
  constructor
  · intro h
    have h1 := onSeg_rect (onSeg_left s)
    have h2 := onSeg_rect (onSeg_right s)
    have key : ∀ p : Pt K, s.rect.Has p → r.Has p := fun p hp =>
      ⟨h.1.trans hp.1, hp.2.1.trans h.2.1, h.2.2.1.trans hp.2.2.1, hp.2.2.2.trans h.2.2.2⟩
    exact ⟨key _ h1, key _ h2⟩
  · rintro ⟨h1, h2⟩
    exact ⟨le_min h1.1 h2.1, max_le h1.2.1 h2.2.1, le_min h1.2.2.1 h2.2.2.1, max_le h1.2.2.2 h2.2.2.2⟩

/-- `tg_ring_contains_segment`, edges not allowed. -/
theorem ringHasSeg_inside {e : Env} (he : e.Ok) {pts : List (Pt K)} (h3 : 3 ≤ pts.length) {ix : BitVec 32} {r : Ring K K}
    (hr : newIx Ix.exact (exact ε ns) e pts true ix = some r)
    (hcov : (segments pts true).length < pts.length ∨ pts.length % spreadOf e ix = 0 ∨ r.index = none)
    {seg : Seg K} (ha : PipAt ε ns r (segments pts true) seg.a) (hb : PipAt ε ns r (segments pts true) seg.b) (R : RArith K) (cw : Bool) :
    ∃ b, ringHasSeg Ix.exact (exact ε ns) R false cw r seg false = some b ∧ (b = true ↔ ∀ w, OnSeg seg w → Inside (segments pts true) w) := by
  obtain ⟨l, hl, hcl, hl3, hmem⟩ := ring_chain h3
  obtain ⟨a1, -⟩ := newIx_some Ix.exact_lawful he hr
  have hrect : ∀ v ∈ l, r.rect.Has v := fun v hv => a1.rect_has (by omega) v ((hmem v).1 hv)
  have hiff := all_inside_iff hcl seg.a seg.b
  rw [← hl] at hiff
  have hiff' : (∀ w, OnSeg seg w → Inside (segments pts true) w) ↔ _ := hiff
  rw [hiff']
  unfold ringHasSeg
  by_cases h1 : r.rect.covers seg.rect = true
  · rw [h1]
    simp only [Bool.not_true, Bool.false_eq_true, if_false]
    obtain ⟨b1, i1, e1, f1, -⟩ := ha false
    obtain ⟨b2, i2, e2, f2, -⟩ := hb false
    simp only [Bool.false_eq_true, if_false] at f1 f2
    rw [e1]
    dsimp only
    cases b1 with
    | false =>
      refine ⟨false, rfl, iff_of_false (by simp) fun h => ?_⟩
      simpa using f1.2 h.1
    | true =>
      simp only [Bool.not_true, Bool.false_eq_true, if_false]
      have ia := f1.1 rfl
      by_cases hpt : pteq seg.b seg.a = true
      · rw [if_pos hpt]
        refine ⟨true, rfl, iff_of_true rfl ?_⟩
        rw [pteq_iff] at hpt
        rw [← hiff]
        rintro w ⟨t, -, -, hx, hy⟩
        have : w = seg.a := by
          apply Pt.ext
          · simp only at hx; rw [hx, hpt]; ring
          · simp only at hy; rw [hy, hpt]; ring
        rw [this]
        exact ia
      · rw [if_neg hpt, e2]
        dsimp only
        cases b2 with
        | false =>
          refine ⟨false, rfl, iff_of_false (by simp) fun h => ?_⟩
          simpa using f2.2 h.2.1
        | true =>
          simp only [Bool.not_true, Bool.false_eq_true, if_false]
          obtain ⟨b, hb1, hb2⟩ := noneMeets_iff he hr hcov seg fun _ => true
          refine ⟨b, hb1, ?_⟩
          rw [hb2]
          simp only [Bool.true_eq_false, imp_false]
          exact ⟨fun h => ⟨ia, f2.1 rfl, h⟩, fun h => h.2.2⟩
  · have h1' : r.rect.covers seg.rect = false := by simpa using h1
    rw [h1']
    refine ⟨false, rfl, iff_of_false (by simp) ?_⟩
    rintro ⟨w1, w2, -⟩
    rw [hl] at w1 w2
    exact h1 (rect_of_seg.2 ⟨region_rect hcl hrect (.inr w1), region_rect hcl hrect (.inr w2)⟩)

/-- The loop over the segments of a series. -/
theorem anyXSeg_iff {e : Env} (he : e.Ok) {pts : List (Pt K)} (h3 : 3 ≤ pts.length) {ix : BitVec 32} {r : Ring K K}
    (hr : newIx Ix.exact (exact ε ns) e pts true ix = some r)
    (hcov : (segments pts true).length < pts.length ∨ pts.length % spreadOf e ix = 0 ∨ r.index = none)
    {qts : List (Pt K)} {closed : Bool} {sp : Nat} {o : Ring K K} (ho : RingOk Ix.exact qts closed sp o)
    (hp : ∀ q ∈ qts, PipAt ε ns r (segments pts true) q) :
    ∃ b, anyXSeg Ix.exact (exact ε ns) r o true = some b ∧
      (b = true ↔ ∃ w, OnBoundary (segments qts closed) w ∧ InRegion (segments pts true) w) := by
  have hseg : ∀ s ∈ segments qts closed, ∃ b, ringXSeg Ix.exact (exact ε ns) r s true = some b ∧
      (b = true ↔ ∃ w, OnSeg s w ∧ InRegion (segments pts true) w) := fun s hs =>
    ringXSeg_iff he h3 hr hcov (hp _ (seg_mem_pts hs).1) (hp _ (seg_mem_pts hs).2)
  obtain ⟨b, hb1, hb2⟩ := anySeg_some (P := fun s => ringXSeg Ix.exact (exact ε ns) r s true) (segAt_range ho) (fun s hs => by
    obtain ⟨b, h, -⟩ := hseg s hs
    exact ⟨b, h⟩)
  refine ⟨b, hb1, ?_⟩
  rw [hb2]
  constructor
  · rintro ⟨s, hs, h⟩
    obtain ⟨b', h1, h2⟩ := hseg s hs
    rw [h1, Option.some.injEq] at h
    obtain ⟨w, w1, w2⟩ := h2.1 h
    exact ⟨w, ⟨s, hs, w1⟩, w2⟩
  · rintro ⟨w, ⟨s, hs, w1⟩, w2⟩
    obtain ⟨b', h1, h2⟩ := hseg s hs
    exact ⟨s, hs, by rw [h1, h2.2 ⟨w, w1, w2⟩]⟩

/-- With the smaller area second, it is enough to look at the boundary of the second. -/
theorem common_iff {l m : List (Pt K)} (hl : l.head? = l.getLast?) (hm : m.head? = m.getLast?) (hl0 : l ≠ []) {ra rb : Rect K}
    (ha : ∀ v ∈ l, ra.Has v) (ha' : ∀ T : Rect K, (∀ v ∈ l, T.Has v) → ra.Le T) (hb : ∀ v ∈ m, rb.Has v)
    (harea : (exactR : RArith K).area rb ≤ (exactR : RArith K).area ra) :
    (∃ w, OnBoundary (edges m) w ∧ InRegion (edges l) w) ↔ ∃ w, InRegion (edges l) w ∧ InRegion (edges m) w := by
  constructor
  · rintro ⟨w, w1, w2⟩
    exact ⟨w, w2, .inl w1⟩
  · rintro ⟨w, w1, w2⟩
    by_contra hn
    have hav : ∀ w, OnBoundary (edges m) w → ¬ InRegion (edges l) w := fun w h1 h2 => hn ⟨w, h1, h2⟩
    have hin := inside_of_common hl hm hav w1 w2
    have hst : ∀ v ∈ l, rb.lo.x < v.x ∧ v.x < rb.hi.x ∧ rb.lo.y < v.y ∧ v.y < rb.hi.y := fun v hv => inside_rect hm hb (hin v hv)
    -- the vertices of `l` span a rectangle strictly within that of `m`
    have : ∃ T : Rect K, (∀ v ∈ l, T.Has v) ∧ rb.lo.x < T.lo.x ∧ T.hi.x < rb.hi.x ∧ rb.lo.y < T.lo.y ∧ T.hi.y < rb.hi.y := by
      clear * - hl0 hst
      induction l with
      | nil => exact absurd rfl hl0
      | cons v l ih =>
        have h0 := hst v (by simp)
        by_cases hl : l = []
        · subst hl
          exact ⟨⟨v, v⟩, by simp [Rect.Has], h0⟩
        · obtain ⟨T, hT, h1, h2, h3, h4⟩ := ih hl fun u hu => hst u (by simp [hu])
          refine ⟨⟨⟨min v.x T.lo.x, min v.y T.lo.y⟩, ⟨max v.x T.hi.x, max v.y T.hi.y⟩⟩, ?_, lt_min h0.1 h1, max_lt h0.2.1 h2, lt_min h0.2.2.1 h3, max_lt h0.2.2.2 h4⟩
          intro u hu
          rcases List.mem_cons.1 hu with rfl | hu
          · exact ⟨min_le_left _ _, le_max_left _ _, min_le_left _ _, le_max_left _ _⟩
          · have := hT u hu
            exact ⟨(min_le_right _ _).trans this.1, this.2.1.trans (le_max_right _ _), (min_le_right _ _).trans this.2.2.1,
              this.2.2.2.trans (le_max_right _ _)⟩
    obtain ⟨T, hT, h1, h2, h3, h4⟩ := this
    obtain ⟨k1, k2, k3, k4⟩ := ha' T hT
    match l, hl0 with
    | v :: t, _ =>
      obtain ⟨v1, v2, v3, v4⟩ := ha v (by simp)
      have w1 : ra.hi.x - ra.lo.x < rb.hi.x - rb.lo.x := by linarith
      have w2 : ra.hi.y - ra.lo.y < rb.hi.y - rb.lo.y := by linarith
      have : (ra.hi.x - ra.lo.x) * (ra.hi.y - ra.lo.y) < (rb.hi.x - rb.lo.x) * (rb.hi.y - rb.lo.y) :=
        mul_lt_mul'' w1 w2 (by linarith) (by linarith)
      simp only [exactR] at harea
      linarith

/-- Beyond a point of a segment. -/
theorem on_before {a b w u : Pt K} (hw : OnSeg ⟨a, b⟩ w) (hu : OnSeg ⟨w, b⟩ u) : OnSeg ⟨a, u⟩ w := by
  obtain ⟨t, t0, t1, tx, ty⟩ := hw
  obtain ⟨r, r0, r1, rx, ry⟩ := hu
  simp only at tx ty rx ry
  have h0 := mul_nonneg r0 (sub_nonneg.2 t1)
  rcases eq_or_lt_of_le t0 with h | h
  · refine ⟨0, le_rfl, zero_le_one, ?_, ?_⟩
    · simp only; rw [tx, ← h]; ring
    · simp only; rw [ty, ← h]; ring
  · have hd : 0 < t + r * (1 - t) := by linarith
    refine ⟨t / (t + r * (1 - t)), div_nonneg t0 hd.le, (div_le_one hd).2 (by linarith), ?_, ?_⟩
    · simp only
      rw [rx, tx]
      field_simp
      ring
    · simp only
      rw [ry, ty]
      field_simp
      ring

/-- If every edge that the segment meets contains the first end, and the second is inside, then all of the segment is in the region. -/
theorem region_of_first {l : List (Pt K)} (hl : l.head? = l.getLast?) {a b : Pt K} (hb : Inside (edges l) b)
    (h : ∀ s ∈ edges l, Share ⟨a, b⟩ s → OnSeg s a) : ∀ w, OnSeg ⟨a, b⟩ w → InRegion (edges l) w := by
  intro w hw
  by_cases hbd : OnBoundary (edges l) w
  · exact .inl hbd
  · refine .inr ⟨hbd, ?_⟩
    rw [parity_same hl (p := w) (q := b)]
    · exact hb.2
    · rintro s hs ⟨u, u1, u2⟩
      have hu : OnSeg ⟨a, b⟩ u := onSeg_mono (t := ⟨w, b⟩) hw (onSeg_right (⟨a, b⟩ : Seg K)) u1
      have ha := h s hs ⟨u, hu, u2⟩
      exact hbd ⟨s, hs, onSeg_mono (t := ⟨a, u⟩) ha u2 (on_before hw u1)⟩

theorem offSeg_iff {s : Seg K} {p : Pt K} : offSeg (exact ε ns) s p = false ↔ OnSeg s p := by
  rw [offSeg, bne_eq_false_iff_eq, raycast_on_iff]

/-- `tg_ring_contains_segment`, edges allowed and not flagged convex, unless both ends are on the boundary. -/
theorem ringHasSeg_region {e : Env} (he : e.Ok) {pts : List (Pt K)} (h3 : 3 ≤ pts.length) {ix : BitVec 32} {r : Ring K K}
    (hr : newIx Ix.exact (exact ε ns) e pts true ix = some r)
    (hcov : (segments pts true).length < pts.length ∨ pts.length % spreadOf e ix = 0 ∨ r.index = none)
    {seg : Seg K} (ha : PipAt ε ns r (segments pts true) seg.a) (hb : PipAt ε ns r (segments pts true) seg.b) (R : RArith K) (cw : Bool)
    (hends : ¬ (OnBoundary (segments pts true) seg.a ∧ OnBoundary (segments pts true) seg.b)) :
    ∃ b, ringHasSeg Ix.exact (exact ε ns) R false cw r seg true = some b ∧ ((∀ w, OnSeg seg w → Inside (segments pts true) w) → b = true) ∧
      (b = true → OnBoundary (segments pts true) seg.a ∨ OnBoundary (segments pts true) seg.b ∨ (∀ v ∈ pts, ¬ OnSeg seg v) →
        ∀ w, OnSeg seg w → InRegion (segments pts true) w) := by
  obtain ⟨l, hl, hcl, hl3, hmem⟩ := ring_chain h3
  obtain ⟨a1, -⟩ := newIx_some Ix.exact_lawful he hr
  have hrect : ∀ v ∈ l, r.rect.Has v := fun v hv => a1.rect_has (by omega) v ((hmem v).1 hv)
  unfold ringHasSeg
  by_cases h1 : r.rect.covers seg.rect = true
  · rw [h1]
    simp only [Bool.not_true, Bool.false_eq_true, if_false, if_true]
    obtain ⟨b1, i1, e1, f1, g1, -⟩ := ha true
    obtain ⟨b2, i2, e2, f2, g2, -⟩ := hb true
    simp only [if_true] at f1 f2
    rw [e1]
    dsimp only
    cases b1 with
    | false => exact ⟨false, rfl, fun h => absurd (f1.2 (.inr (h _ (onSeg_left seg)))) (by simp), by simp⟩
    | true =>
      simp only [Bool.not_true, Bool.false_eq_true, if_false]
      have ia := f1.1 rfl
      by_cases hpt : pteq seg.b seg.a = true
      · rw [if_pos hpt]
        refine ⟨true, rfl, fun _ => rfl, ?_⟩
        rw [pteq_iff] at hpt
        rintro - - w ⟨t, -, -, hx, hy⟩
        have : w = seg.a := by
          apply Pt.ext
          · rw [hx, hpt]; ring
          · rw [hy, hpt]; ring
        rw [this]
        exact ia
      · rw [if_neg hpt, e2]
        dsimp only
        cases b2 with
        | false => exact ⟨false, rfl, fun h => absurd (f2.2 (.inr (h _ (onSeg_right seg)))) (by simp), by simp⟩
        | true =>
          simp only [Bool.not_true, Bool.false_eq_true, if_false]
          have ib := f2.1 rfl
          cases i1 with
          | some k1 =>
            have oa : OnBoundary (segments pts true) seg.a := by
              by_contra hn
              have := g1.2 hn
              cases this
            cases i2 with
            | some k2 =>
              exfalso
              refine hends ⟨oa, ?_⟩
              by_contra hn
              have := g2.2 hn
              cases this
            | none =>
              have ob := g2.1 rfl
              obtain ⟨b, hb1, hb2⟩ := noneMeets_iff he hr hcov seg fun t => offSeg (exact ε ns) t seg.a
              refine ⟨b, hb1, fun h => absurd oa (h _ (onSeg_left seg)).1, fun h _ => ?_⟩
              have h := hb2.1 h
              rw [hl] at h ob ib ⊢
              refine region_of_first hcl (a := seg.a) (b := seg.b) ?_ fun s hs hsh => offSeg_iff.1 (h s hs hsh)
              rcases ib with hh | hh
              exacts [absurd hh ob, hh]
          | none =>
            have oa := g1.1 rfl
            cases i2 with
            | some k2 =>
              have ob : OnBoundary (segments pts true) seg.b := by
                by_contra hn
                have := g2.2 hn
                cases this
              obtain ⟨b, hb1, hb2⟩ := noneMeets_iff he hr hcov seg fun t => offSeg (exact ε ns) t seg.b
              refine ⟨b, hb1, fun h => absurd ob (h _ (onSeg_right seg)).1, fun h _ w hw => ?_⟩
              have h := hb2.1 h
              rw [hl] at h oa ia ⊢
              refine region_of_first hcl (a := seg.b) (b := seg.a) ?_ (fun s hs hsh => offSeg_iff.1 (h s hs (share_rev.1 hsh))) w (onSeg_swap hw)
              rcases ia with hh | hh
              exacts [absurd hh oa, hh]
            | none =>
              have ob := g2.1 rfl
              obtain ⟨b, hb1, hb2⟩ := noneMeets_iff he hr hcov seg fun t => offSeg (exact ε ns) seg t.a && offSeg (exact ε ns) seg t.b
              refine ⟨b, hb1, fun h => ?_, fun h hv => ?_⟩
              · rw [hb2]
                rintro s hs ⟨z, z1, z2⟩
                exact absurd ⟨s, hs, z2⟩ (h z z1).1
              · have hv : ∀ v ∈ pts, ¬ OnSeg seg v := by
                  rcases hv with hv | hv | hv
                  exacts [absurd hv oa, absurd hv ob, hv]
                have h := hb2.1 h
                have hno : ∀ s ∈ segments pts true, ¬ Share seg s := by
                  intro s hs hsh
                  have := h s hs hsh
                  rw [Bool.and_eq_false_iff, offSeg_iff, offSeg_iff] at this
                  rcases this with hh | hh
                  · exact hv _ (seg_mem_pts hs).1 hh
                  · exact hv _ (seg_mem_pts hs).2 hh
                rw [hl] at hno ia oa ib ob ⊢
                have ia' : Inside (edges l) seg.a := by rcases ia with hh | hh; exacts [absurd hh oa, hh]
                have ib' : Inside (edges l) seg.b := by rcases ib with hh | hh; exacts [absurd hh ob, hh]
                exact fun w hw => .inr ((all_inside_iff hcl seg.a seg.b).2 ⟨ia', ib', hno⟩ w hw)
  · have h1' : r.rect.covers seg.rect = false := by simpa using h1
    rw [h1']
    refine ⟨false, rfl, fun h => ?_, by simp⟩
    rw [hl] at h
    exact absurd (rect_of_seg.2 ⟨region_rect hcl hrect (.inr (h _ (onSeg_left seg))), region_rect hcl hrect (.inr (h _ (onSeg_right seg)))⟩) h1

/-- `tg_ring_contains_segment` of a ring flagged convex: only the ends count. -/
theorem ringHasSeg_convex {e : Env} (he : e.Ok) {pts : List (Pt K)} (h3 : 3 ≤ pts.length) {ix : BitVec 32} {r : Ring K K}
    (hr : newIx Ix.exact (exact ε ns) e pts true ix = some r)
    {seg : Seg K} (ha : PipAt ε ns r (segments pts true) seg.a) (hb : PipAt ε ns r (segments pts true) seg.b) (R : RArith K) (cw edge : Bool) :
    ∃ b, ringHasSeg Ix.exact (exact ε ns) R true cw r seg edge = some b ∧ (b = true ↔
      if edge then InRegion (segments pts true) seg.a ∧ InRegion (segments pts true) seg.b else Inside (segments pts true) seg.a ∧ Inside (segments pts true) seg.b) := by
  obtain ⟨l, hl, hcl, hl3, hmem⟩ := ring_chain h3
  obtain ⟨a1, -⟩ := newIx_some Ix.exact_lawful he hr
  have hrect : ∀ v ∈ l, r.rect.Has v := fun v hv => a1.rect_has (by omega) v ((hmem v).1 hv)
  have hif : (if edge then InRegion (segments pts true) seg.a ∧ InRegion (segments pts true) seg.b else Inside (segments pts true) seg.a ∧ Inside (segments pts true) seg.b) ↔
      (if edge then InRegion (segments pts true) seg.a else Inside (segments pts true) seg.a) ∧
      (if edge then InRegion (segments pts true) seg.b else Inside (segments pts true) seg.b) := by cases edge <;> simp
  rw [hif]
  obtain ⟨b1, i1, e1, f1, -⟩ := ha edge
  obtain ⟨b2, i2, e2, f2, -⟩ := hb edge
  rw [← f1, ← f2]
  have hreg : ∀ p, (if edge then InRegion (segments pts true) p else Inside (segments pts true) p) → r.rect.Has p := by
    intro p hp
    rw [hl] at hp
    refine region_rect hcl hrect ?_
    cases edge with
    | true => exact hp
    | false => exact .inr hp
  unfold ringHasSeg
  by_cases h1 : r.rect.covers seg.rect = true
  · rw [h1]
    simp only [Bool.not_true, Bool.false_eq_true, if_false, if_true]
    rw [e1]
    dsimp only
    cases b1 with
    | false => exact ⟨false, rfl, by simp⟩
    | true =>
      simp only [Bool.not_true, Bool.false_eq_true, if_false]
      by_cases hpt : pteq seg.b seg.a = true
      · rw [if_pos hpt]
        refine ⟨true, rfl, by simp only [true_and, true_iff]; rw [pteq_iff] at hpt; exact f2.2 (by rw [hpt]; exact f1.1 rfl)⟩
      · rw [if_neg hpt, e2]
        dsimp only
        cases b2 with
        | false => exact ⟨false, rfl, by simp⟩
        | true => exact ⟨true, rfl, by simp⟩
  · have h1' : r.rect.covers seg.rect = false := by simpa using h1
    rw [h1']
    refine ⟨false, rfl, iff_of_false (by simp) ?_⟩
    rintro ⟨w1, w2⟩
    exact h1 (rect_of_seg.2 ⟨hreg _ (f1.1 w1), hreg _ (f2.1 w2)⟩)

/-! ### Deciding membership -/

/-- Decides `Crosses`. -/
def crossB (s : Seg K) (p : Pt K) : Bool :=
  let (a, b) := if s.a.y ≤ s.b.y then (s.a, s.b) else (s.b, s.a)
  decide (a.y ≤ p.y) && decide (p.y < b.y) && decide ((p.x - a.x) * (b.y - a.y) < (p.y - a.y) * (b.x - a.x))

theorem crossB_iff (s : Seg K) (p : Pt K) : crossB s p = true ↔ Crosses s p := by
  unfold crossB
  by_cases h : s.a.y ≤ s.b.y
  · rw [if_pos h]
    simp only [Bool.and_eq_true, decide_eq_true_eq, and_assoc]
    exact (crosses_iff h).symm
  · rw [if_neg h]
    simp only [Bool.and_eq_true, decide_eq_true_eq, and_assoc]
    rw [← crosses_iff (not_le.1 h).le]
    exact ⟨crosses_swap, crosses_swap⟩

/-- Decides `OnBoundary`. -/
def boundaryB (es : List (Seg K)) (p : Pt K) : Bool := es.any fun s => exactOnSeg 1 p s
/-- Decides `Inside`. -/
def insideB (es : List (Seg K)) (p : Pt K) : Bool := !boundaryB es p && es.countP (fun s => crossB s p) % 2 == 1

theorem boundaryB_iff (es : List (Seg K)) (p : Pt K) : boundaryB es p = true ↔ OnBoundary es p := by
  unfold boundaryB OnBoundary
  rw [List.any_eq_true]
  simp only [exactOnSeg_iff]

theorem insideB_iff (es : List (Seg K)) (p : Pt K) : insideB es p = true ↔ Inside es p := by
  classical
  unfold insideB Inside ncross
  rw [Bool.and_eq_true, Bool.not_eq_true', ← Bool.not_eq_true, boundaryB_iff, beq_iff_eq]
  have : es.countP (fun s => crossB s p) = es.countP fun s => decide (Crosses s p) :=
    List.countP_congr fun s _ => by rw [crossB_iff, decide_eq_true_eq]
  rw [this]

theorem regionB_iff (es : List (Seg K)) (p : Pt K) : (boundaryB es p || insideB es p) = true ↔ InRegion es p := by
  rw [Bool.or_eq_true, boundaryB_iff, insideB_iff]
  rfl

end Tg.S
