import Verif.Lemmas.PlaneRing
import Verif.Props.Series
/-!
C23 without rounding, C25 to C28: the predicates on segments and the point test of rings. `Spec/Plane` has the points of a segment.
`exact ε ns` is the arithmetic of the code over an ordered field (`Model/Exact`).
-/
namespace Tg

open S

section order
variable {α β : Type*} [LinearOrder α] [LinearOrder β]

/-! ### C25  Start vertex and direction -/

/-- C25. Starting at another vertex does not change the answer, for any index options and any arithmetic in the predicates. With Y-stripes the
number of stripes, which is computed from area and perimeter, has to be the same; without rounding it does not (`C25_exact_rotate`). -/
theorem C25_rotate [Zero α] {f : Ix α β} (hf : f.Lawful) {A : Arith α} {e : Env} (he : e.Ok) {c : List (Pt α)} (k : Nat)
    {ix : BitVec 32} {r₁ r₂ : Ring α β} (hc : 2 ≤ c.length)
    (h₁ : newIx f A e (closeUp c) true ix = some r₁) (h₂ : newIx f A e (closeUp (c.rotate k)) true ix = some r₂)
    (hn : r₁.ystripes ≠ none → A.nstripes (closeUp c) = A.nstripes (closeUp (c.rotate k))) (p : Pt α) (edge : Bool) :
    (ringContainsPoint f A r₁ p edge).map (·.1) = (ringContainsPoint f A r₂ p edge).map (·.1) :=
  ringContainsPoint_congr hf he hc (by rw [List.length_rotate]) (fun q => by rw [List.mem_rotate])
    (fun P _ p edge => pipAns_perm ((edges_rotate c k).symm.filter P)) h₁ h₂ p edge hn

/-- C25. Going round the other way does not change the answer. -/
theorem C25_reverse [Zero α] {f : Ix α β} (hf : f.Lawful) {A : Arith α} {e : Env} (he : e.Ok) {c : List (Pt α)}
    {ix : BitVec 32} {r₁ r₂ : Ring α β} (hc : 2 ≤ c.length)
    (h₁ : newIx f A e (closeUp c) true ix = some r₁) (h₂ : newIx f A e (closeUp c.reverse) true ix = some r₂)
    (hn : r₁.ystripes ≠ none → A.nstripes (closeUp c) = A.nstripes (closeUp c.reverse)) (p : Pt α) (edge : Bool) :
    (ringContainsPoint f A r₁ p edge).map (·.1) = (ringContainsPoint f A r₂ p edge).map (·.1) := by
  refine ringContainsPoint_congr hf he hc (by rw [List.length_reverse]) (fun q => by rw [List.mem_reverse])
    (fun P hP p edge => ?_) h₁ h₂ p edge hn
  rw [pipAns_perm ((edges_reverse_closeUp c).filter P), List.filter_map, pipAns_swap]
  congr 2
  funext s
  exact (hP s).symm

end order

section exact
variable {K : Type*} [Field K] [LinearOrder K] [IsStrictOrderedRing K] [FloorRing K] {ε : K} {ns : List (Pt K) → Nat}

theorem S.exact_congr {e : Env} (he : e.Ok) {c d : List (Pt K)}
    {ix : BitVec 32} {r₁ r₂ : Ring K K} (hc : 2 ≤ c.length) (hd : d.length = c.length) (hm : ∀ q, q ∈ c ↔ q ∈ d)
    (hA : ∀ (P : Seg K → Bool), (∀ s, P s.swap = P s) → ∀ p edge, pipAns (exact ε ns) p edge ((edges (closeUp c)).filter P) = pipAns (exact ε ns) p edge ((edges (closeUp d)).filter P))
    (h₁ : newIx Ix.exact (exact ε ns) e (closeUp c) true ix = some r₁) (h₂ : newIx Ix.exact (exact ε ns) e (closeUp d) true ix = some r₂) (p : Pt K) (edge : Bool) :
    (ringContainsPoint Ix.exact (exact ε ns) r₁ p edge).map (·.1) = (ringContainsPoint Ix.exact (exact ε ns) r₂ p edge).map (·.1) := by
  cases hys : r₁.ystripes with
  | none => exact ringContainsPoint_congr Ix.exact_lawful he hc hd hm hA h₁ h₂ p edge (fun h => absurd hys h)
  | some st =>
    obtain ⟨a1, -, a3, a4⟩ := newIx_some Ix.exact_lawful he h₁
    obtain ⟨b1, -, b3, b4⟩ := newIx_some Ix.exact_lawful he h₂
    obtain ⟨c1, c2, c3⟩ := segments_closeUp hc
    obtain ⟨d1, d2, d3⟩ := segments_closeUp (c := d) (by omega)
    have hrect : r₁.rect = r₂.rect := rect_eq_of_mem a1 b1 (by omega) (by omega) (fun q => by rw [mem_closeUp, mem_closeUp, hm])
    have hlen : (closeUp c).length = (closeUp d).length := by omega
    obtain ⟨st2, hys2⟩ : ∃ st2, r₂.ystripes = some st2 := by
      rw [← Option.isSome_iff_exists, b3, ← hlen, ← a3, hys]
      rfl
    by_cases hp : r₂.rect.coversPt p = true
    · have e1 := a4 st hys
      have e2 := b4 st2 hys2
      have hle : r₁.rect.lo.y ≤ r₁.rect.hi.y := by
        match c, hc with
        | q :: _, _ =>
          have := a1.rect_has (by omega) q (mem_closeUp.2 (by simp))
          exact this.2.2.1.trans this.2.2.2
      have hlt : r₁.rect.lo.y < r₁.rect.hi.y := by
        refine lt_of_le_of_ne hle fun heq => ?_
        rw [exact_stripes_flat (pts := c) ?_ heq] at e1
        · cases e1
        · have := segments_ge (closeUp c) true (by omega)
          intro h0
          rw [h0] at this
          simp only [List.length_nil] at this
          omega
      rw [exact_stripes_ans a1 (by omega) hys (by unfold stripesOf; omega) e1 (by rw [hrect]; exact hp) hlt,
        exact_stripes_ans b1 (by omega) hys2 (by unfold stripesOf; omega) e2 hp (by rw [← hrect]; exact hlt), hrect, c1, d1]
      congr 1
      exact hA (fun s => decide (p.y < r₂.rect.hi.y ∨ min s.a.y s.b.y < r₂.rect.hi.y)) (fun s => by simp only [Seg.swap, min_comm]) p edge
    · have h1 : (!r₁.rect.coversPt p) = true := by rw [hrect]; simpa using hp
      have h2 : (!r₂.rect.coversPt p) = true := by simpa using hp
      unfold ringContainsPoint
      rw [if_pos h1, if_pos h2]

/-- C25 without rounding: no condition on the number of stripes. -/
theorem C25_exact_rotate {e : Env} (he : e.Ok) {c : List (Pt K)} (k : Nat) {ix : BitVec 32} {r₁ r₂ : Ring K K} (hc : 2 ≤ c.length)
    (h₁ : newIx Ix.exact (exact ε ns) e (closeUp c) true ix = some r₁) (h₂ : newIx Ix.exact (exact ε ns) e (closeUp (c.rotate k)) true ix = some r₂)
    (p : Pt K) (edge : Bool) : (ringContainsPoint Ix.exact (exact ε ns) r₁ p edge).map (·.1) = (ringContainsPoint Ix.exact (exact ε ns) r₂ p edge).map (·.1) :=
  exact_congr he hc (by rw [List.length_rotate]) (fun q => by rw [List.mem_rotate])
    (fun P _ p edge => pipAns_perm ((edges_rotate c k).symm.filter P)) h₁ h₂ p edge

/-- C25 without rounding: no condition on the number of stripes. -/
theorem C25_exact_reverse {e : Env} (he : e.Ok) {c : List (Pt K)} {ix : BitVec 32} {r₁ r₂ : Ring K K} (hc : 2 ≤ c.length)
    (h₁ : newIx Ix.exact (exact ε ns) e (closeUp c) true ix = some r₁) (h₂ : newIx Ix.exact (exact ε ns) e (closeUp c.reverse) true ix = some r₂)
    (p : Pt K) (edge : Bool) : (ringContainsPoint Ix.exact (exact ε ns) r₁ p edge).map (·.1) = (ringContainsPoint Ix.exact (exact ε ns) r₂ p edge).map (·.1) := by
  refine exact_congr he hc (by rw [List.length_reverse]) (fun q => by rw [List.mem_reverse])
    (fun P hP p edge => ?_) h₁ h₂ p edge
  rw [pipAns_perm ((edges_reverse_closeUp c).filter P), List.filter_map, pipAns_swap]
  congr 2
  funext s
  exact (hP s).symm

/-! ### C26  Ray cast -/

/-- C26. `ON` exactly for the points of the closed segment, whatever the step `ε`. -/
theorem C26_on (s : Seg K) (p : Pt K) : raycast (exact ε ns) s p = .on ↔ OnSeg s p := raycast_on_iff

/-- C26. `IN` exactly if the ray to the right crosses the segment without its upper end, for all small steps. (The code moves a point at the height of
an end one double up, `ε` here.) -/
theorem C26_in (ns : List (Pt K) → Nat) (s : Seg K) (p : Pt K) : ∃ ε₀ > 0, ∀ ε, 0 < ε → ε ≤ ε₀ → (raycast (exact ε ns) s p = .in_ ↔ Crosses s p) := by
  obtain ⟨e, h1, h2⟩ := exists_small s p
  exact ⟨e, h1, fun ε h3 h4 => raycast_in_iff h3 (h2 ε h4)⟩

open Classical in
/-- C26 for a whole ring: the point test answers `edge` on the boundary and otherwise whether the number of crossings is odd, for all index
options. Excluded are the cases in which C24 fails: not closed by the last point with a natural index, and Y-stripes at the top. -/
theorem C26_point_in_ring (ns : List (Pt K) → Nat) {e : Env} (he : e.Ok) {pts : List (Pt K)} (h3 : 3 ≤ pts.length) (ix : BitVec 32) (p : Pt K) (edge : Bool) :
    ∃ ε₀ > 0, ∀ ε, 0 < ε → ε ≤ ε₀ → ∀ r : Ring K K, newIx Ix.exact (exact ε ns) e pts true ix = some r →
      ((segments pts true).length < pts.length ∨ pts.length % spreadOf e ix = 0 ∨ r.index = none ∨ r.ystripes ≠ none) →
      (r.ystripes ≠ none → p.y < r.rect.hi.y ∨ ∀ s ∈ segments pts true, s.a.y < r.rect.hi.y ∨ s.b.y < r.rect.hi.y) →
      (ringContainsPoint Ix.exact (exact ε ns) r p edge).map (·.1) = some (if ∃ s ∈ segments pts true, OnSeg s p then edge
        else decide (((segments pts true).countP fun s => decide (Crosses s p)) % 2 = 1)) := by
  obtain ⟨e0, h1, h2⟩ := exists_small_all p (segments pts true)
  refine ⟨e0, h1, fun ε hε hle r hr hcov htop => ?_⟩
  obtain ⟨a1, -, a3, a4⟩ := newIx_some Ix.exact_lawful he hr
  have hsegs : ∀ s ∈ segments pts true, r.rect.Has s.a ∧ r.rect.Has s.b := fun s hs =>
    ⟨a1.rect_has (by omega) _ (seg_mem_pts hs).1, a1.rect_has (by omega) _ (seg_mem_pts hs).2⟩
  have hn : 0 < stripesOf (exact ε ns) pts := by unfold stripesOf; omega
  have key : ∀ st, r.ystripes = some st → StripesOk (exact ε ns) (segments pts true) r.rect st ∧ OffTop (exact ε ns) r.rect st.length (segments pts true) p := by
    intro st hst
    have e1 := a4 st hst
    have hlt : r.rect.lo.y < r.rect.hi.y := by
      have hle : r.rect.lo.y ≤ r.rect.hi.y := by
        match pts, h3 with
        | q :: _, _ =>
          have := a1.rect_has (by omega) q (by simp)
          exact this.2.2.1.trans this.2.2.2
      refine lt_of_le_of_ne hle fun heq => ?_
      rw [exact_stripes_flat (pts := pts) ?_ heq] at e1
      · cases e1
      · have := segments_ge pts true (by omega)
        intro h0
        rw [h0] at this
        simp only [List.length_nil] at this
        omega
    obtain ⟨st', p1, p2, p3⟩ := processStripes_ok (segs := segments pts true) hn (exact_stripeOk (ε := ε) (ns := ns) hlt) hsegs
    rw [e1] at p1
    cases p1
    refine ⟨p2, ?_⟩
    rw [p3]
    rcases htop (by rw [hst]; simp) with h | h
    · exact .inl fun k hk => exact_stripe_lt hn hlt h hk
    · exact .inr fun s hs k hk => exact_stripe_lt hn hlt (min_lt_iff.2 (h s hs)) hk
  rw [ringContainsPoint_eq Ix.exact_lawful a1 (by omega) (fun st h => (key st h).1) (by rcases hcov with h | h | h; exacts [.inl (.inl h), .inl (.inr h), .inr h])
    p edge (fun st h => (key st h).2)]
  rw [Option.map_some, Option.some.injEq]
  by_cases hp : r.rect.coversPt p = true
  · rw [if_pos hp, pipAll_ans, List.zipIdx_map_fst, pipAns]
    simp only [raycast_on_iff]
    congr 3
    have : ((segments pts true).countP fun s => decide (raycast (exact ε ns) s p = .in_)) = (segments pts true).countP fun s => decide (Crosses s p) := by
      refine List.countP_congr fun s hs => ?_
      rw [decide_eq_true_eq, decide_eq_true_eq]
      exact raycast_in_iff hε (h2 ε hle s hs)
    rw [this]
  · rw [if_neg hp]
    rw [coversPt_iff] at hp
    have hno : ¬ ∃ s ∈ segments pts true, OnSeg s p := by
      rintro ⟨s, hs, hon⟩
      obtain ⟨ha, hb⟩ := hsegs s hs
      have := onSeg_rect hon
      exact hp ⟨(le_min ha.1 hb.1).trans this.1, this.2.1.trans (max_le ha.2.1 hb.2.1), (le_min ha.2.2.1 hb.2.2.1).trans this.2.2.1,
        this.2.2.2.trans (max_le ha.2.2.2 hb.2.2.2)⟩
    rw [if_neg hno]
    have heven : ((segments pts true).countP fun s => decide (Crosses s p)) % 2 = 0 := by
      unfold segments
      rw [if_neg (by simp), if_neg (by omega)]
      split_ifs with hcl
      · exact crosses_even (a1.rect_has (by omega)) hcl.symm hp
      · refine crosses_even (l := pts ++ pts.take 1) (r := r.rect) ?_ ?_ hp
        · intro q hq
          rcases List.mem_append.1 hq with hq | hq
          exacts [a1.rect_has (by omega) q hq, a1.rect_has (by omega) q (List.mem_of_mem_take hq)]
        · match pts, h3 with
          | q :: l, _ =>
            show some q = (q :: l ++ [q]).getLast?
            rw [List.getLast?_append]
            rfl
    rw [heven]
    rfl

/-! ### C27  Segment against segment -/

/-- C27. The test holds exactly if the closed segments share a point. -/
theorem C27_intersects (s t : Seg K) : segIntersects (exact ε ns) s t = true ↔ Share s t := by
  unfold segIntersects
  by_cases h1 : s.rect.intersects t.rect = true
  · rw [h1]
    simp only [Bool.not_true, Bool.false_eq_true, ↓reduceIte]
    split_ifs with h2
    · simp only [true_iff]
      simp only [Bool.or_eq_true, pteq_iff] at h2
      rcases h2 with ((h | h) | h) | h
      · exact ⟨s.a, onSeg_left s, by rw [h]; exact onSeg_left t⟩
      · exact ⟨s.a, onSeg_left s, by rw [h]; exact onSeg_right t⟩
      · exact ⟨s.b, onSeg_right s, by rw [h]; exact onSeg_left t⟩
      · exact ⟨s.b, onSeg_right s, by rw [h]; exact onSeg_right t⟩
    · exact exactSegX_iff _ _ _
  · have h1' : s.rect.intersects t.rect = false := by simpa using h1
    rw [h1']
    simp only [Bool.not_false, ↓reduceIte, Bool.false_eq_true, false_iff]
    rintro ⟨p, h2, h3⟩
    apply h1
    have h2 := onSeg_rect h2
    have h3 := onSeg_rect h3
    rw [C20_intersects s.rect t.rect ⟨min_le_max, min_le_max⟩ ⟨min_le_max, min_le_max⟩]
    exact ⟨p, h2, h3⟩

/-- C27. Symmetric. -/
theorem C27_symm (s t : Seg K) : segIntersects (exact ε ns) s t = segIntersects (exact ε ns) t s := by
  rw [Bool.eq_iff_iff, C27_intersects, C27_intersects]
  exact ⟨fun ⟨p, h1, h2⟩ => ⟨p, h2, h1⟩, fun ⟨p, h1, h2⟩ => ⟨p, h2, h1⟩⟩

/-- C27. The direction of the segments does not matter. -/
theorem C27_direction (s t : Seg K) : segIntersects (exact ε ns) ⟨s.b, s.a⟩ t = segIntersects (exact ε ns) s t ∧
    segIntersects (exact ε ns) s ⟨t.b, t.a⟩ = segIntersects (exact ε ns) s t := by
  constructor
  · rw [Bool.eq_iff_iff, C27_intersects, C27_intersects]
    exact ⟨fun ⟨p, h1, h2⟩ => ⟨p, onSeg_swap h1, h2⟩, fun ⟨p, h1, h2⟩ => ⟨p, onSeg_swap h1, h2⟩⟩
  · rw [Bool.eq_iff_iff, C27_intersects, C27_intersects]
    exact ⟨fun ⟨p, h1, h2⟩ => ⟨p, h1, onSeg_swap h2⟩, fun ⟨p, h1, h2⟩ => ⟨p, h1, onSeg_swap h2⟩⟩

/-! ### C28  Segment and point, segment and segment -/

omit [FloorRing K] in
/-- C28. `tg_segment_covers_point` holds exactly for the points of the closed segment. -/
theorem C28_covers_point (s : Seg K) (p : Pt K) : exactOnSeg ε p s = true ↔ OnSeg s p := exactOnSeg_iff _ _ _

omit [FloorRing K] in
/-- C28. `tg_segment_covers_segment` holds exactly if the second segment is a subset of the first. -/
theorem C28_covers_segment (a b : Seg K) : exactCoversSeg ε a b = true ↔ ∀ p, OnSeg b p → OnSeg a p := by
  rw [exactCoversSeg, Bool.and_eq_true, exactOnSeg_iff, exactOnSeg_iff]
  exact ⟨fun h p hp => onSeg_mono h.1 h.2 hp, fun h => ⟨h _ (onSeg_left b), h _ (onSeg_right b)⟩⟩

/-! ### C23 without rounding -/

/-- C23 without rounding: the callback gets exactly the pairs of segments that share a point, each once. -/
theorem C23_exact_partial.{u} {e₁ e₂ : Env} (he₁ : e₁.Ok) (he₂ : e₂.Ok) {pa pb : List (Pt K)} {ca cb : Bool} {ix₁ ix₂ : BitVec 32} {a b : Ring K K}
    (ha : newIx Ix.exact (exact ε ns) e₁ pa ca ix₁ = some a) (hb : newIx Ix.exact (exact ε ns) e₂ pb cb ix₂ = some b)
    (hca : (segments pa ca).length < pa.length ∨ pa.length % spreadOf e₁ ix₁ = 0 ∨ a.index = none)
    (hcb : (segments pb cb).length < pb.length ∨ pb.length % spreadOf e₂ ix₂ = 0 ∨ b.index = none) :
    ∃ l : List (Pair K), l.Nodup ∧ (∀ s i t j, ((s, i), (t, j)) ∈ l ↔ (segments pa ca)[i]? = some s ∧ (segments pb cb)[j]? = some t ∧ Share s t) ∧
      ∀ (σ : Type u) (iter : Iter2 K σ) (st : σ), (ringRingSearch Ix.exact (exact ε ns) a b iter st).map (·.1) =
        some (visit (fun x : Pair K => iter x.1.1 x.1.2 x.2.1 x.2.2) l st) := by
  obtain ⟨l, h1, h2⟩ := C23_pairs_partial Ix.exact_lawful (A := exact ε ns) (fun s t => by
    show exactSegX ε s t = exactSegX ε t s
    rw [Bool.eq_iff_iff, exactSegX_iff, exactSegX_iff]
    exact ⟨fun ⟨p, h1, h2⟩ => ⟨p, h2, h1⟩, fun ⟨p, h1, h2⟩ => ⟨p, h2, h1⟩⟩) he₁ he₂ ha hb hca hcb (Ix.exact_tight _) (Ix.exact_tight _)
  refine ⟨l, ?_, ?_, h2⟩
  · refine h1.nodup_iff.2 (List.Nodup.filter _ ?_)
    have nd : ∀ l : List (Seg K), l.zipIdx.Nodup := fun l => by
      refine List.Nodup.of_map Prod.snd ?_
      rw [List.zipIdx_map_snd]
      exact List.nodup_range'
    exact (nd _).product (nd _)
  · intro s i t j
    rw [h1.mem_iff, List.mem_filter, List.pair_mem_product, List.mem_zipIdx_iff_getElem?, List.mem_zipIdx_iff_getElem?, C27_intersects]
    exact and_assoc

end exact

/-! ### Witnesses -/

/-- The hypotheses of C25 hold for the square with each kind of index, started at another corner and gone round the other way. -/
example : closeUp ((square.take 4).rotate 1) = [⟨4, 0⟩, ⟨4, 4⟩, ⟨0, 4⟩, ⟨0, 0⟩, ⟨4, 0⟩] ∧
    inside (closeUp ((square.take 4).rotate 1)) (indexWithSpread 3#32 2) ⟨1, 1⟩ true = some (true, none) ∧
    inside (closeUp (square.take 4).reverse) (indexWithSpread 3#32 2) ⟨1, 1⟩ true = some (true, none) ∧
    inside (closeUp (square.take 4).reverse) (indexWithSpread 2#32 2) ⟨1, 1⟩ true = some (true, none) := by
  refine ⟨rfl, ?_, ?_, ?_⟩ <;> decide +kernel

/-- Two segments that cross in the middle, found by the test in both orders. -/
example : Share (⟨⟨0, 0⟩, ⟨4, 4⟩⟩ : Seg ℚ) ⟨⟨0, 4⟩, ⟨4, 0⟩⟩ ∧ segIntersects S.arithQ (⟨⟨0, 0⟩, ⟨4, 4⟩⟩ : Seg ℚ) ⟨⟨0, 4⟩, ⟨4, 0⟩⟩ = true ∧
    segIntersects S.arithQ (⟨⟨0, 0⟩, ⟨4, 4⟩⟩ : Seg ℚ) ⟨⟨3, 2⟩, ⟨4, 0⟩⟩ = false := by
  refine ⟨⟨⟨2, 2⟩, ⟨1/2, by norm_num, by norm_num, by norm_num, by norm_num⟩, ⟨1/2, by norm_num, by norm_num, by norm_num, by norm_num⟩⟩, ?_, ?_⟩ <;> decide +kernel

/-- A ray at the height of the lower end crosses, at the height of the upper end it does not. -/
example : Crosses (⟨⟨4, 0⟩, ⟨4, 4⟩⟩ : Seg ℚ) ⟨0, 0⟩ ∧ ¬ Crosses (⟨⟨4, 0⟩, ⟨4, 4⟩⟩ : Seg ℚ) ⟨0, 4⟩ ∧
    raycast S.arithQ (⟨⟨4, 0⟩, ⟨4, 4⟩⟩ : Seg ℚ) ⟨0, 0⟩ = .in_ ∧ raycast S.arithQ (⟨⟨4, 0⟩, ⟨4, 4⟩⟩ : Seg ℚ) ⟨0, 4⟩ = .out := by
  refine ⟨⟨by norm_num, by norm_num, 4, by norm_num, ⟨0, by norm_num, by norm_num, by norm_num, by norm_num⟩⟩, fun h => ?_, ?_, ?_⟩
  · have := h.2.1
    norm_num at this
  all_goals decide +kernel

/-- The step has to be small: with a large one the ray at the height of the lower end is judged wrongly. -/
theorem C26_large_step : raycast (exact (1 : ℚ) fun _ => 0) ⟨⟨0, 0⟩, ⟨10, 2⟩⟩ ⟨1, 0⟩ = .in_ ∧ ¬ Crosses (⟨⟨0, 0⟩, ⟨10, 2⟩⟩ : Seg ℚ) ⟨1, 0⟩ := by
  refine ⟨by decide +kernel, ?_⟩
  rw [crosses_iff (by norm_num)]
  norm_num

end Tg
