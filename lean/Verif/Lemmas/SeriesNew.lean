import Verif.Spec.Series
import Verif.Model.IndexOpt
import Verif.Lemmas.SeriesWalk
/-! What `series_new` builds. -/
namespace Tg.S

set_option linter.unusedSectionVars false

variable {α β : Type*} [LinearOrder α] [LinearOrder β]

theorem feq_iff (x y : α) : feq x y = true ↔ x = y := by
  simp only [feq, Bool.not_eq_true', Bool.or_eq_false_iff, decide_eq_false_iff_not, not_lt, gt_iff_lt]
  exact ⟨fun h => le_antisymm h.2 h.1, fun h => ⟨h.ge, h.le⟩⟩

theorem pteq_iff (a b : Pt α) : pteq a b = true ↔ a = b := by
  rw [pteq, Bool.and_eq_true, feq_iff, feq_iff, Pt.ext_iff]

omit [LinearOrder α] in
theorem segAt_cons (a : Pt α) (l : List (Pt α)) (i : Nat) : segAt (a :: l) (i + 1) = segAt l i := rfl

theorem edges_getElem? : ∀ (l : List (Pt α)) (i : Nat), (edges l)[i]? = segAt l i
  | [], i => by simp [edges, segAt]
  | [a], i => by cases i <;> simp [edges, segAt]
  | a :: b :: rest, 0 => rfl
  | a :: b :: rest, i + 1 => by
    rw [edges, List.getElem?_cons_succ, segAt_cons]
    exact edges_getElem? (b :: rest) i

theorem edges_length : ∀ (l : List (Pt α)), (edges l).length = l.length - 1
  | [] => rfl
  | [a] => rfl
  | a :: b :: rest => by
    rw [edges, List.length_cons, edges_length (b :: rest)]; simp

theorem segAt_append {l : List (Pt α)} {i : Nat} (l' : List (Pt α)) (h : i + 1 < l.length) : segAt (l ++ l') i = segAt l i := by
  unfold segAt
  rw [List.getElem?_append_left (by omega), List.getElem?_append_left (by omega)]

/-- The number of segments. -/
theorem numSegments_eq (pts : List (Pt α)) (closed : Bool) : numSegments pts closed = (segments pts closed).length := by
  unfold numSegments segments
  cases closed with
  | false =>
    simp only [Bool.false_eq_true, ↓reduceIte, Bool.not_false, edges_length]
    split_ifs with h
    · omega
    · rfl
  | true =>
    simp only [↓reduceIte, Bool.not_true, Bool.false_eq_true]
    split_ifs with h1 h2
    · rfl
    · cases pts with
      | nil => simp at h1
      | cons a l =>
        rw [h2, List.head?_cons]
        dsimp only
        rw [if_pos ((pteq_iff a a).2 rfl), edges_length]
    · cases pts with
      | nil => simp at h1
      | cons a l =>
        obtain ⟨z, hz⟩ : ∃ z, (a :: l).getLast? = some z := ⟨_, List.getLast?_cons⟩
        rw [List.head?_cons, hz] at h2
        rw [hz, List.head?_cons]
        dsimp only
        rw [if_neg (by rw [pteq_iff]; intro hc; exact h2 (by rw [hc])), edges_length]
        simp

/-- Segment `i` of the ring. -/
theorem segAt_eq (pts : List (Pt α)) (closed : Bool) {i : Nat} (h : i < (segments pts closed).length) :
    segAt (pts ++ pts.take 1) i = (segments pts closed)[i]? := by
  unfold segments at *
  split_ifs at * with h1 h2 h3
  · rw [edges_length] at h; rw [edges_getElem?, segAt_append _ (by omega)]
  · simp at h
  · rw [edges_length] at h; rw [edges_getElem?, segAt_append _ (by omega)]
  · rw [edges_getElem?]

theorem segments_le (pts : List (Pt α)) (closed : Bool) : (segments pts closed).length ≤ pts.length := by
  unfold segments
  split_ifs <;> simp [edges_length]

theorem segments_ge (pts : List (Pt α)) (closed : Bool) (h : 3 ≤ pts.length) : pts.length - 1 ≤ (segments pts closed).length := by
  unfold segments
  split_ifs with h1 h2
  · simp [edges_length]
  · omega
  · simp [edges_length]
  · simp only [edges_length, List.length_append, List.length_take]; omega

theorem seg_mem_pts {pts : List (Pt α)} {closed : Bool} {s : Seg α} (h : s ∈ segments pts closed) : s.a ∈ pts ∧ s.b ∈ pts := by
  obtain ⟨i, hi, rfl⟩ := List.mem_iff_getElem.1 h
  have := segAt_eq pts closed hi
  rw [List.getElem?_eq_getElem hi] at this
  unfold segAt at this
  have key : ∀ (j : Nat) p, (pts ++ pts.take 1)[j]? = some p → p ∈ pts := by
    intro j p hp
    rcases List.mem_append.1 (List.mem_of_getElem? hp) with h | h
    · exact h
    · exact List.mem_of_mem_take h
  split at this
  · rename_i a b ha hb
    rw [← Option.some.inj this]
    exact ⟨key _ _ ha, key _ _ hb⟩
  · cases this

theorem allSegs_eq (pts : List (Pt α)) (closed : Bool) :
    allSegs (pts ++ pts.take 1) (segments pts closed).length = some (segments pts closed) := by
  unfold allSegs
  obtain ⟨ys, h1, h2, h3⟩ := mapM_some (g := segAt (pts ++ pts.take 1)) (List.range (segments pts closed).length) (by
    intro i hi
    rw [List.mem_range] at hi
    rw [segAt_eq pts closed hi]
    exact ⟨_, List.getElem?_eq_getElem hi⟩)
  rw [h1]
  congr 1
  rw [List.length_range] at h2
  apply List.ext_getElem? 
  intro i
  rcases Nat.lt_or_ge i (segments pts closed).length with hi | hi
  · obtain ⟨y, e1, e2⟩ := h3 i i (List.getElem?_range hi)
    rw [e1, ← e2, segAt_eq pts closed hi]
  · rw [List.getElem?_eq_none (by omega), List.getElem?_eq_none hi]

/-- The rounded box of segment `j`. -/
def extOf (f : Ix α β) (segs : List (Seg α)) (j : Nat) : Option (Rect β) := (segs[j]?).map fun s => f.rect s.rect

/-- The index covers the segments. -/
structure IndexOk (f : Ix α β) (segs : List (Seg α)) (ix : Index β) : Prop where
  spread : 2 ≤ ix.spread
  levels : Levels ix.spread segs.length (extOf f segs) ix.levels
  root : segs.length ≤ ix.spread * ix.spread ^ ix.levels.length
  nonempty : ix.levels ≠ []

/-- The sizes of an index over `n` segments are right and each level covers the one below; nothing is said about the segments. -/
structure IndexShape (n : Nat) (ix : Index β) : Prop where
  spread : 2 ≤ ix.spread
  levels : Levels ix.spread n (fun _ => none) ix.levels
  root : n ≤ ix.spread * ix.spread ^ ix.levels.length
  nonempty : ix.levels ≠ []

/-- When the leaves cover all segments: always for lines and closed rings; for rings that are not closed only if the number
of points is a multiple of the spread. -/
def LeavesCover (pts : List (Pt α)) (closed : Bool) (ixspread : Nat) : Prop :=
  (segments pts closed).length < pts.length ∨ pts.length % ixspread = 0

theorem Ix.Lawful.leaves_ok {f : Ix α β} (hf : f.Lawful) {ixspread : Nat} {p0 : Pt α} {pts : List (Pt α)} {closed : Bool}
    {leaves : List (Rect β)} (h0 : pts.head? = some p0) 
    (hc : LeavesCover pts closed ixspread) (hlen : leaves.length = numKeys ixspread 1 (segments pts closed).length)
    (h : ∀ i, i < leaves.length → ∃ R : Rect α, leaves[i]? = some (f.rect R) ∧
        ∀ m q, i * ixspread ≤ m → m ≤ (i + 1) * ixspread → (m < pts.length ∨ pts.length % ixspread = 0) →
          (pts ++ [p0])[m]? = some q → R.Has q) :
    Levels ixspread (segments pts closed).length (extOf f (segments pts closed)) [leaves] := by
  refine ⟨hlen, ?_, trivial⟩
  intro i r hr j q hj1 hj2 hjn hq
  have hi : i < leaves.length := by
    by_contra hcon
    rw [List.getElem?_eq_none (by omega)] at hr
    cases hr
  obtain ⟨R, h1, h2⟩ := h i hi
  rw [hr] at h1
  cases h1
  have htake : pts.take 1 = [p0] := by
    cases pts with
    | nil => simp at h0
    | cons a l => simp only [List.head?_cons, Option.some.injEq] at h0; subst h0; rfl
  have hseg := segAt_eq pts closed hjn
  unfold extOf at hq
  rw [← hseg, htake] at hq
  unfold segAt at hq
  split at hq
  · rename_i a b ha hb
    simp only [Option.map_some, Option.some.injEq] at hq
    subst hq
    have hle := segments_le pts closed
    refine hf.rect_mono (Seg.rect_le ?_ ?_)
    · exact h2 j a hj1 (by omega) (Or.inl (by omega)) ha
    · exact h2 (j + 1) b (by omega) (by omega) (by rcases hc with h | h; exacts [Or.inl (by omega), Or.inr h]) hb
  · cases hq

/-- Everything the rest needs to know about a ring or line built without Y-stripes. -/
structure RingOk (f : Ix α β) (pts : List (Pt α)) (closed : Bool) (ixspread : Nat) (ring : Ring α β) : Prop where
  closed_eq : ring.closed = closed
  npoints_eq : ring.npoints = pts.length
  points_eq : ring.points = pts ++ pts.take 1
  nsegs_eq : ring.nsegs = (segments pts closed).length
  rect_has : 2 ≤ pts.length → ∀ q ∈ pts, ring.rect.Has q
  rect_least : 2 ≤ pts.length → ∀ T : Rect α, (∀ q ∈ pts, T.Has q) → ring.rect.Le T
  index_spread : ∀ ix, ring.index = some ix → ix.spread = ixspread ∧ 2 * ixspread ≤ pts.length
  index_ok : ∀ ix, ring.index = some ix → LeavesCover pts closed ixspread → IndexOk f (segments pts closed) ix
  index_shape : ∀ ix, ring.index = some ix → IndexShape (segments pts closed).length ix

theorem seriesBase_ok [Zero α] {f : Ix α β} (hf : f.Lawful) (pts : List (Pt α)) (closed : Bool) {ixspread : Nat} (hs : 2 ≤ ixspread)
    (indexed : Bool) (hi : indexed = true → 2 * ixspread ≤ pts.length) :
    ∃ rect index, seriesBase f ixspread (numSegments pts closed) indexed pts = some (rect, index) ∧
      (2 ≤ pts.length → (∀ q ∈ pts, rect.Has q) ∧ ∀ T : Rect α, (∀ q ∈ pts, T.Has q) → rect.Le T) ∧
      (index.isSome = true ↔ indexed = true) ∧
      ∀ ix, index = some ix → ix.spread = ixspread ∧
        (LeavesCover pts closed ixspread → IndexOk f (segments pts closed) ix) ∧ IndexShape (segments pts closed).length ix := by
  match pts, hi with
  | [], hi =>
    have : indexed = false := by
      rcases indexed with _ | _
      · rfl
      · have := hi rfl; simp at this; omega
    exact ⟨_, _, rfl, by intro h; simp at h, by simp [this], by intro ix h; cases h⟩
  | [a], hi =>
    have : indexed = false := by
      rcases indexed with _ | _
      · rfl
      · have := hi rfl; simp at this; omega
    exact ⟨_, _, rfl, by intro h; simp at h, by simp [this], by intro ix h; cases h⟩
  | p0 :: p1 :: rest, hi =>
    rw [seriesBase]
    cases indexed with
    | false =>
      refine ⟨_, _, rfl, ?_, by simp, by intro ix h; cases h⟩
      intro _
      obtain ⟨h1, h2, h3⟩ := processPlain_spec (p0 :: p1 :: rest) p0.rect
      exact ⟨h2, fun T hT => h3 T (Pt.rect_le (hT p0 (by simp))) hT⟩
    | true =>
      have hn := hi rfl
      obtain ⟨rect, leaves, ups, e1, e2, e3, e4, e5, e6, e7⟩ := processIndexed_spec f (nsegs := (segments (p0 :: p1 :: rest) closed).length)
        (p0 := p0) (pts := p0 :: p1 :: rest) hs rfl hn (segments_ge _ _ (by omega)) (segments_le _ _)
      rw [numSegments_eq, e1]
      refine ⟨rect, some _, rfl, fun _ => ⟨e3, e4⟩, by simp, ?_⟩
      intro ix hix
      cases hix
      have hroot : (segments (p0 :: p1 :: rest) closed).length ≤ ixspread * ixspread ^ (ups ++ [leaves]).length := by
        rw [e2]
        obtain ⟨l1, l2, l3⟩ := numLevels_spec (s := ixspread) (n := (segments (p0 :: p1 :: rest) closed).length) hs
        rw [numKeys_le_iff hs, one_mul] at l2
        rw [← pow_succ', Nat.sub_add_cancel l1]
        exact l2
      exact ⟨rfl, fun hc => ⟨hs, e7 _ (hf.leaves_ok rfl hc e5 e6), hroot, by simp⟩,
        ⟨hs, e7 _ ⟨e5, fun _ _ _ _ _ _ _ _ h => (by cases h), trivial⟩, hroot, by simp⟩⟩

theorem indexKinds_size {n s : Nat} {closed : Bool} {ix d : Nat} (h : (indexKinds n s closed ix d).1 = true ∨ (indexKinds n s closed ix d).2 = true) :
    2 * s ≤ n := by
  unfold indexKinds at h
  split_ifs at h with h1 <;> first | omega | simp at h

/-- Without Y-stripes the construction succeeds and the ring is as expected. -/
theorem seriesNew_ok [Zero α] {f : Ix α β} (hf : f.Lawful) (A : Arith α) (pts : List (Pt α)) (closed : Bool) {ix dflt ixspread : Nat}
    (hs : 2 ≤ ixspread) (hy : (indexKinds pts.length ixspread closed ix dflt).2 = false) :
    ∃ ring, seriesNew f A pts closed ix dflt ixspread = some ring ∧ RingOk f pts closed ixspread ring ∧ ring.ystripes = none ∧
      (ring.index.isSome = true ↔ (indexKinds pts.length ixspread closed ix dflt).1 = true) := by
  obtain ⟨rect, index, h1, h2, h3, h4⟩ := seriesBase_ok hf pts closed hs (indexKinds pts.length ixspread closed ix dflt).1
    (fun h => indexKinds_size (Or.inl h))
  unfold seriesNew
  rcases hk : indexKinds pts.length ixspread closed ix dflt with ⟨ki, ks⟩
  rw [hk] at hy h1 h3
  dsimp only at *
  rw [h1]
  subst hy
  refine ⟨_, rfl, ⟨rfl, rfl, rfl, numSegments_eq _ _, fun h => (h2 h).1, fun h => (h2 h).2, ?_, fun ix hx => (h4 ix hx).2.1,
    fun ix hx => (h4 ix hx).2.2⟩, rfl, h3⟩
  intro ix hx
  refine ⟨(h4 ix hx).1, ?_⟩
  have hki : ki = true := h3.1 (by rw [show index = some ix from hx]; rfl)
  exact indexKinds_size (Or.inl (by rw [hk]; exact hki))

end Tg.S
