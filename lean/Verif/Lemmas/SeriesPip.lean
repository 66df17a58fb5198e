import Verif.Lemmas.SeriesSearch
/-! The point test: Y-stripes, natural index and plain loop give the same. -/
namespace Tg.S

set_option linter.unusedSectionVars false

variable {α β : Type*} [LinearOrder α] [LinearOrder β]

/-- The plain evaluation: all segments in order. -/
def pipAll (A : Arith α) (p : Pt α) (edge : Bool) : List (Seg α × Nat) → Pip → Pip
  | [], st => st
  | (s, i) :: rest, st => pipAll A p edge rest (pipSlow A s i p edge st)

theorem forRange_pip {A : Arith α} {points : List (Pt α)} {p : Pt α} {edge : Bool} :
    ∀ (rest : List (Seg α)) (i : Nat) (st : Pip), (∀ j s, rest[j]? = some s → segAt points (i + j) = some s) →
    forRange (pipLeaf A points p edge) i rest.length st = some (pipAll A p edge (rest.zipIdx i) st, true)
  | [], i, st, _ => rfl
  | s :: rest, i, st, h => by
    have h0 : segAt points i = some s := h 0 s rfl
    have ih := fun st => forRange_pip (A := A) (p := p) (edge := edge) rest (i + 1) st (fun j t hj => by
      have := h (j + 1) t (by simpa using hj)
      rwa [show i + (j + 1) = i + 1 + j by omega] at this)
    rw [List.length_cons, forRange, pipLeaf, h0]
    dsimp only
    rw [pipEval_eq, ih, List.zipIdx_cons, pipAll]

/-- What the Y-stripes need of the arithmetic: on the range of the ring the stripe number is defined, not negative and grows with `y`. In floating
point this holds when the height of the ring is positive and the number of stripes fits. -/
structure StripeOk (A : Arith α) (lo hi : α) (n : Nat) : Prop where
  some : ∀ y, lo ≤ y → y ≤ hi → ∃ k, A.stripe lo hi n y = some k
  nonneg : ∀ y k, lo ≤ y → y ≤ hi → A.stripe lo hi n y = Option.some k → 0 ≤ k
  mono : ∀ y y' k k', lo ≤ y → y ≤ y' → y' ≤ hi → A.stripe lo hi n y = Option.some k → A.stripe lo hi n y' = Option.some k' → k ≤ k'

/-- Whether segment `s` is in stripe `j`. -/
def inStripe (A : Arith α) (r : Rect α) (n : Nat) (s : Seg α) (j : Nat) : Bool :=
  match stripeRange A r n s with
  | none => false
  | some (lo, hi) => decide (lo ≤ (j : Int) ∧ (j : Int) ≤ hi)

theorem stripeRange_some {A : Arith α} {r : Rect α} {n : Nat} {s : Seg α} (hA : StripeOk A r.lo.y r.hi.y n)
    (ha : r.Has s.a) (hb : r.Has s.b) : ∃ lo hi, stripeRange A r n s = some (lo, hi) := by
  obtain ⟨k, hk⟩ := hA.some (min s.a.y s.b.y) (le_min ha.2.2.1 hb.2.2.1) ((min_le_left _ _).trans ha.2.2.2)
  obtain ⟨k', hk'⟩ := hA.some (max s.a.y s.b.y) (ha.2.2.1.trans (le_max_left _ _)) (max_le ha.2.2.2 hb.2.2.2)
  exact ⟨_, _, by rw [stripeRange, hk, hk']⟩

theorem addRange_getElem? (lo hi : Int) (i : Nat) : ∀ (k : Nat) (st : List (List Nat)) (j : Nat),
    (addRange lo hi i k st)[j]? = st[j]?.map fun l => if lo ≤ ((k + j : Nat) : Int) ∧ ((k + j : Nat) : Int) ≤ hi then l ++ [i] else l
  | k, [], j => by simp [addRange]
  | k, l :: ls, 0 => by simp [addRange]
  | k, l :: ls, j + 1 => by
    rw [addRange, List.getElem?_cons_succ, List.getElem?_cons_succ, addRange_getElem? lo hi i (k + 1) ls j]
    simp only [Nat.add_assoc, Nat.add_comm 1]

theorem addRange_length (lo hi : Int) (i : Nat) : ∀ (k : Nat) (st : List (List Nat)), (addRange lo hi i k st).length = st.length
  | k, [] => rfl
  | k, l :: ls => by rw [addRange, List.length_cons, addRange_length lo hi i (k + 1) ls, List.length_cons]

theorem addStripes_spec {A : Arith α} {r : Rect α} {n : Nat} (hA : StripeOk A r.lo.y r.hi.y n) :
    ∀ (l : List (Nat × Seg α)) (st : List (List Nat)), (∀ x ∈ l, r.Has x.2.a ∧ r.Has x.2.b) →
    ∃ st', addStripes A r n l st = some st' ∧ st'.length = st.length ∧
      ∀ j is, st[j]? = some is → st'[j]? = some (is ++ (l.filter fun x => inStripe A r n x.2 j).map (·.1))
  | [], st, _ => ⟨st, rfl, rfl, by intro j is h; simp [h]⟩
  | (i, s) :: rest, st, h => by
    obtain ⟨lo, hi, hr⟩ := stripeRange_some hA (h (i, s) (by simp)).1 (h (i, s) (by simp)).2
    rw [addStripes, hr]
    dsimp only
    obtain ⟨st', h1, h2, h3⟩ := addStripes_spec hA rest 
      (addRange lo hi i 0 st) (fun x hx => h x (by simp [hx]))
    refine ⟨st', h1, by rw [h2, addRange_length], ?_⟩
    intro j is hj
    have := h3 j (if lo ≤ (j : Int) ∧ (j : Int) ≤ hi then is ++ [i] else is) (by rw [addRange_getElem?, hj, Nat.zero_add]; rfl)
    rw [this, List.filter_cons]
    have hin : inStripe A r n s j = decide (lo ≤ (j : Int) ∧ (j : Int) ≤ hi) := by rw [inStripe, hr]
    simp only [hin]
    by_cases hc : lo ≤ (j : Int) ∧ (j : Int) ≤ hi
    · simp [hc]
    · simp [hc]

/-- The case in which the stripes work: the point is below the top of the ring, or no segment lies at the top. (The segments that
lie entirely at the top of the ring are in no stripe, as the first stripe of a segment is not limited to `n - 1`,
tg.c:1700.) -/
def OffTop (A : Arith α) (r : Rect α) (n : Nat) (segs : List (Seg α)) (p : Pt α) : Prop :=
  (∀ k, A.stripe r.lo.y r.hi.y n p.y = some k → k < n) ∨
  (∀ s ∈ segs, ∀ k, A.stripe r.lo.y r.hi.y n (min s.a.y s.b.y) = some k → k < n)

/-- The stripe of a point has every segment that counts for it. -/
theorem inStripe_of_y {A : Arith α} {r : Rect α} {n : Nat} (hn : 0 < n) (hA : StripeOk A r.lo.y r.hi.y n) {s : Seg α} {p : Pt α}
    {segs : List (Seg α)} (hs : s ∈ segs) (hoff : OffTop A r n segs p)
    (ha : r.Has s.a) (hb : r.Has s.b) {k : Int} (hk : A.stripe r.lo.y r.hi.y n p.y = some k)
    (h1 : min s.a.y s.b.y ≤ p.y) (h2 : p.y ≤ max s.a.y s.b.y) : inStripe A r n s (clampStripe k n).toNat = true := by
  obtain ⟨k1, hk1⟩ := hA.some (min s.a.y s.b.y) (le_min ha.2.2.1 hb.2.2.1) ((min_le_left _ _).trans ha.2.2.2)
  obtain ⟨k2, hk2⟩ := hA.some (max s.a.y s.b.y) (ha.2.2.1.trans (le_max_left _ _)) (max_le ha.2.2.2 hb.2.2.2)
  have l1 := hA.mono _ _ _ _ (le_min ha.2.2.1 hb.2.2.1) h1 (h2.trans (max_le ha.2.2.2 hb.2.2.2)) hk1 hk
  have l2 := hA.mono _ _ _ _ ((le_min ha.2.2.1 hb.2.2.1).trans h1) h2 (max_le ha.2.2.2 hb.2.2.2) hk hk2
  rw [inStripe, stripeRange, hk1, hk2]
  dsimp only
  rw [decide_eq_true_eq, clampStripe]
  have e : ((min (max k 0) ((n : Int) - 1)).toNat : Int) = min (max k 0) ((n : Int) - 1) :=
    Int.toNat_of_nonneg (le_min (le_max_right _ _) (by omega))
  rw [e]
  refine ⟨le_min (max_le_max l1 le_rfl) (max_le ?_ (by omega)), min_le_min (max_le l2 ?_) le_rfl⟩
  · rcases hoff with h | h
    · have := h k hk; omega
    · have := h s hs k1 hk1; omega
  · exact hA.nonneg _ _ (ha.2.2.1.trans (le_max_left _ _)) (max_le ha.2.2.2 hb.2.2.2) hk2

theorem stripeLoop_filter {A : Arith α} {points : List (Pt α)} {p : Pt α} {edge : Bool} {P : Seg α → Bool} :
    ∀ (l : List (Seg α × Nat)) (st : Pip), (∀ x ∈ l, segAt points x.2 = some x.1) →
    (∀ x ∈ l, P x.1 = false → raycast A x.1 p = .out) →
    stripeLoop A points p edge ((l.filter fun x => P x.1).map (·.2)) st = some (pipAll A p edge l st)
  | [], st, _, _ => rfl
  | (s, i) :: rest, st, h1, h2 => by
    have ih := fun st => stripeLoop_filter (A := A) (p := p) (edge := edge) (P := P) rest st (fun x hx => h1 x (by simp [hx]))
      (fun x hx => h2 x (by simp [hx]))
    rw [pipAll, List.filter_cons]
    by_cases hc : P s = true
    · rw [if_pos hc, List.map_cons, stripeLoop, pipLeaf, h1 (s, i) (by simp)]
      dsimp only
      rw [pipEval_eq, ih]
    · rw [if_neg hc, ih, pipSlow_out (h2 (s, i) (by simp) (by simpa using hc))]

/-- The stripes of a ring are right. -/
structure StripesOk (A : Arith α) (segs : List (Seg α)) (r : Rect α) (st : List (List Nat)) : Prop where
  pos : 0 < st.length
  law : StripeOk A r.lo.y r.hi.y st.length
  stripe : ∀ j, j < st.length → st[j]? = some ((segs.zipIdx.filter fun x => inStripe A r st.length x.1 j).map (·.2))

theorem processStripes_ok {A : Arith α} {segs : List (Seg α)} {r : Rect α} {n : Nat} (hn : 0 < n)
    (hA : StripeOk A r.lo.y r.hi.y n) (hr : ∀ s ∈ segs, r.Has s.a ∧ r.Has s.b) :
    ∃ st, processStripes A r n segs = some st ∧ StripesOk A segs r st ∧ st.length = n := by
  obtain ⟨st, h1, h2, h3⟩ := addStripes_spec hA (segs.zipIdx.map fun (s, i) => (i, s)) (List.replicate n []) (by
    intro x hx
    obtain ⟨⟨s, i⟩, hy, rfl⟩ := List.mem_map.1 hx
    obtain ⟨k, hk⟩ := List.mem_iff_getElem?.1 hy
    rw [List.getElem?_zipIdx] at hk
    obtain ⟨t, ht, he⟩ := Option.map_eq_some_iff.1 hk
    cases he
    exact hr _ (List.mem_of_getElem? ht))
  have hlen : st.length = n := by simpa using h2
  refine ⟨st, h1, ⟨by omega, by rwa [hlen], ?_⟩, hlen⟩
  intro j hj
  rw [h3 j [] (by rw [List.getElem?_replicate, if_pos (by omega)]), hlen]
  simp only [List.nil_append]
  congr 1
  generalize segs.zipIdx = l
  induction l with
  | nil => rfl
  | cons x l ih =>
    rw [List.map_cons, List.filter_cons, List.filter_cons]
    split_ifs
    · simp [ih]
    · exact ih

/-- With or without Y-stripes. -/
theorem seriesNew_stripes [Zero α] {f : Ix α β} (hf : f.Lawful) {A : Arith α} {pts : List (Pt α)} {closed : Bool}
    {ix dflt ixspread : Nat} (hs : 2 ≤ ixspread)
    (hA : ∀ r : Rect α, (∀ q ∈ pts, r.Has q) → (∀ T : Rect α, (∀ q ∈ pts, T.Has q) → r.Le T) →
      StripeOk A r.lo.y r.hi.y (stripesOf A pts)) :
    ∃ ring, seriesNew f A pts closed ix dflt ixspread = some ring ∧ RingOk f pts closed ixspread ring ∧
      (ring.index.isSome = true ↔ (indexKinds pts.length ixspread closed ix dflt).1 = true) ∧
      (ring.ystripes.isSome = true ↔ (indexKinds pts.length ixspread closed ix dflt).2 = true) ∧
      (∀ st, ring.ystripes = some st → StripesOk A (segments pts closed) ring.rect st) := by
  cases hy : (indexKinds pts.length ixspread closed ix dflt).2 with
  | false =>
    obtain ⟨ring, h1, h2, h3, h4⟩ := seriesNew_ok hf A pts closed hs hy
    exact ⟨ring, h1, h2, h4, by simp [h3], by intro st h; rw [h3] at h; cases h⟩
  | true =>
    have hsz := indexKinds_size (Or.inr hy)
    obtain ⟨rect, index, h1, h2, h3, h4⟩ := seriesBase_ok hf pts closed hs (indexKinds pts.length ixspread closed ix dflt).1
      (fun h => indexKinds_size (Or.inl h))
    obtain ⟨g1, g2⟩ := h2 (by omega)
    unfold seriesNew
    rcases hk : indexKinds pts.length ixspread closed ix dflt with ⟨ki, ks⟩
    rw [hk] at hy h1 h3
    dsimp only at *
    rw [h1]
    subst hy
    dsimp only
    rw [numSegments_eq, allSegs_eq]
    dsimp only
    obtain ⟨st, s1, s2, -⟩ := processStripes_ok (segs := segments pts closed) (show 0 < stripesOf A pts by unfold stripesOf; omega) (hA rect g1 g2) (by
      intro s hs
      obtain ⟨ha, hb⟩ := seg_mem_pts hs
      exact ⟨g1 _ ha, g1 _ hb⟩)
    rw [s1]
    refine ⟨_, rfl, ⟨rfl, rfl, rfl, rfl, fun h => g1, fun h => g2, ?_, fun ix hx => (h4 ix hx).2.1, fun ix hx => (h4 ix hx).2.2⟩, h3, by simp, ?_⟩
    · intro ix hx
      exact ⟨(h4 ix hx).1, hsz⟩
    · rintro st' hst
      cases hst
      exact s2

/-- The point test evaluates all segments in order, whatever the index. -/
theorem ringContainsPoint_eq {f : Ix α β} (hf : f.Lawful) {A : Arith α} {pts : List (Pt α)} {closed : Bool} {ixspread : Nat}
    {ring : Ring α β} (h : RingOk f pts closed ixspread ring) (h2 : 2 ≤ pts.length)
    (hst : ∀ st, ring.ystripes = some st → StripesOk A (segments pts closed) ring.rect st)
    (hc : LeavesCover pts closed ixspread ∨ ring.index = none ∨ ring.ystripes ≠ none) (p : Pt α) (edge : Bool)
    (hoff : ∀ st, ring.ystripes = some st → OffTop A ring.rect st.length (segments pts closed) p) :
    ringContainsPoint f A ring p edge
      = some (if ring.rect.coversPt p then pipAll A p edge (segments pts closed).zipIdx (false, none) else (false, none)) := by
  unfold ringContainsPoint
  cases hp : ring.rect.coversPt p with
  | false => rfl
  | true =>
    simp only [Bool.not_true, Bool.false_eq_true, ↓reduceIte]
    have hplain : forRange (pipLeaf A ring.points p edge) 0 (segments pts closed).length (false, none)
        = some (pipAll A p edge (segments pts closed).zipIdx (false, none), true) := by
      refine forRange_pip (segments pts closed) 0 (false, none) ?_
      intro j s hj
      rw [Nat.zero_add]
      have hjl : j < (segments pts closed).length := by
        by_contra hcon
        rw [List.getElem?_eq_none (by omega)] at hj
        cases hj
      rw [h.segAt hjl, ← hj, List.getElem?_eq_getElem hjl]
    cases hys : ring.ystripes with
    | some st =>
      dsimp only
      have hok := hst st hys
      rw [coversPt_iff] at hp
      obtain ⟨k, hk⟩ := hok.law.some p.y hp.2.2.1 hp.2.2.2
      rw [hk]
      dsimp only
      have hlt : (clampStripe k st.length).toNat < st.length := by
        have := hok.pos
        rw [clampStripe]
        omega
      rw [hok.stripe _ hlt]
      dsimp only
      refine stripeLoop_filter (P := fun s => inStripe A ring.rect st.length s (clampStripe k st.length).toNat)
        (segments pts closed).zipIdx (false, none) ?_ ?_
      · rintro ⟨s, i⟩ hx
        obtain ⟨m, hm⟩ := List.mem_iff_getElem?.1 hx
        rw [List.getElem?_zipIdx] at hm
        obtain ⟨t, ht, he⟩ := Option.map_eq_some_iff.1 hm
        cases he
        have hml : m < (segments pts closed).length := by
          by_contra hcon
          rw [List.getElem?_eq_none (by omega)] at ht
          cases ht
        simp only [Nat.zero_add]
        rw [h.segAt hml, ← ht, List.getElem?_eq_getElem hml]
      · rintro ⟨s, i⟩ hx hP
        have hs : s ∈ segments pts closed := by
          obtain ⟨m, hm⟩ := List.mem_iff_getElem?.1 hx
          rw [List.getElem?_zipIdx] at hm
          obtain ⟨t, ht, he⟩ := Option.map_eq_some_iff.1 hm
          cases he
          exact List.mem_of_getElem? ht
        obtain ⟨ha, hb⟩ := seg_mem_pts hs
        apply raycast_out_y
        by_contra hcon
        rw [not_or, not_lt, not_lt] at hcon
        rw [inStripe_of_y hok.pos hok.law hs (hoff st hys) (h.rect_has h2 _ ha) (h.rect_has h2 _ hb) hk hcon.1 hcon.2] at hP
        cases hP
    | none =>
      dsimp only
      cases hix : ring.index with
      | none =>
        dsimp only
        rw [standardLeaf_eq, h.nsegs_eq, hplain]
        rfl
      | some ix =>
        dsimp only
        have hok := h.index_ok ix hix (by
          rcases hc with hc | hc | hc
          · exact hc
          · rw [hix] at hc; cases hc
          · exact absurd hys hc)
        rw [h.nsegs_eq, walk_root (ext := extOf f (segments pts closed)) hok.spread ?_ ?_ hok.levels hok.root, hplain]
        · rfl
        · intro j hj
          exact ⟨_, by rw [extOf, List.getElem?_eq_getElem hj]; rfl⟩
        · intro j r' r hj hr' hle hm st
          rw [extOf, List.getElem?_eq_getElem hj] at hr'
          simp only [Option.map_some, Option.some.injEq] at hr'
          subst hr'
          rw [pipLeaf, h.segAt hj]
          dsimp only
          rw [pipEval_eq, pipSlow_out (hf.pip_maybe hle hm)]

end Tg.S
