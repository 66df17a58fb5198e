import Verif.Model.Multi
import Verif.Lemmas.SeriesSearch
import Mathlib.Data.List.Basic
/-! The index over the children of a collection. -/
namespace Tg.S

set_option linter.unusedSectionVars false

variable {α β γ : Type*} [LinearOrder α] [LinearOrder β]

theorem chunkLoop_spec {s nrects : Nat} {items : List (Rect β)} (hs : 2 ≤ s) (hn : ∀ i, i < nrects ↔ i * s < items.length) :
    ∀ (rest : List (Rect β)) (k : Nat) (cur : Rect β) (j : Nat) (out : List (Rect β)), items.drop k = rest → 1 ≤ j → j ≤ s →
    out.length * s + j = k → k ≤ items.length → Parent s out items →
    (∀ m q, out.length * s ≤ m → m < k → items[m]? = some q → q.Le cur) →
    ∃ l, chunkLoop s nrects rest cur j out = some l ∧ l.length = nrects ∧ Parent s l items
  | [], k, cur, j, out, hd, hj1, hjs, hk, hkl, hP, hcur => by
    have hlen : items.length ≤ k := List.drop_eq_nil_iff.1 hd
    have h1 : out.length < nrects := (hn _).2 (by omega)
    have h2 : ¬ out.length + 1 < nrects := by
      rw [hn, Nat.add_mul]; omega
    rw [chunkLoop, if_pos h1]
    refine ⟨_, rfl, by simp; omega, ?_⟩
    intro i r hr m q hm1 hm2 hq
    rcases Nat.lt_or_ge i out.length with h | h
    · rw [List.getElem?_append_left h] at hr
      exact hP i r hr m q hm1 hm2 hq
    · have hi : i = out.length := by
        by_contra hne
        rw [List.getElem?_eq_none (by simp; omega)] at hr
        cases hr
      subst hi
      simp only [List.getElem?_concat_length, Option.some.injEq] at hr
      subst hr
      refine hcur m q hm1 ?_ hq
      have := (List.getElem?_eq_some_iff.1 hq).1
      omega
  | r :: rest, k, cur, j, out, hd, hj1, hjs, hk, hkl, hP, hcur => by
    have hr : items[k]? = some r := by
      have : (items.drop k)[0]? = some r := by rw [hd]; rfl
      rwa [List.getElem?_drop] at this
    have hkl' : k < items.length := (List.getElem?_eq_some_iff.1 hr).1
    have hd' : items.drop (k + 1) = rest := by rw [← List.drop_drop, hd]; rfl
    rw [chunkLoop]
    split_ifs with h1 h2
    · refine chunkLoop_spec hs hn rest (k + 1) r 1 (out ++ [cur]) hd' le_rfl (by omega) ?_ (by omega) ?_ ?_
      · simp [Nat.add_mul]; omega
      · intro i r' hr' m q hm1 hm2 hq
        rcases Nat.lt_or_ge i out.length with h | h
        · rw [List.getElem?_append_left h] at hr'
          exact hP i r' hr' m q hm1 hm2 hq
        · have hi : i = out.length := by
            by_contra hne
            rw [List.getElem?_eq_none (by simp; omega)] at hr'
            cases hr'
          subst hi
          simp only [List.getElem?_concat_length, Option.some.injEq] at hr'
          subst hr'
          exact hcur m q hm1 (by rw [Nat.add_mul] at hm2; omega) hq
      · intro m q hm1 hm2 hq
        have : m = k := by
          simp only [List.length_append, List.length_cons, List.length_nil, Nat.add_mul] at hm1
          omega
        subst this
        rw [hr] at hq
        cases hq
        exact .refl _
    · exfalso
      exact h2 ((hn _).2 (by omega))
    · refine chunkLoop_spec hs hn rest (k + 1) (cur.inflate r) (j + 1) out hd' (by omega) (by omega) (by omega) (by omega) hP ?_
      intro m q hm1 hm2 hq
      rcases Nat.lt_or_ge m k with h | h
      · exact (hcur m q hm1 h hq).trans (Rect.le_inflate_left _ _)
      · have : m = k := by omega
        subst this
        rw [hr] at hq
        cases hq
        exact Rect.le_inflate_right _ _

theorem chunkLevel_spec {s nrects : Nat} {items : List (Rect β)} (hs : 2 ≤ s) (hn : ∀ i, i < nrects ↔ i * s < items.length)
    (h0 : items ≠ []) : ∃ l, chunkLevel s nrects items = some l ∧ l.length = nrects ∧ Parent s l items := by
  cases items with
  | nil => exact absurd rfl h0
  | cons r rs =>
    obtain ⟨l, h1, h2, h3⟩ := chunkLoop_spec hs hn rs 1 r 1 [] rfl le_rfl (by omega) (by simp) (by simp)
      (by intro i r h; simp at h) (by
        intro m q h1 h2 hq
        have : m = 0 := by omega
        subst this
        simp only [List.getElem?_cons_zero, Option.some.injEq] at hq
        subst hq
        exact .refl _)
    refine ⟨l, ?_, h2, h3⟩
    rw [chunkLevel, h1]
    dsimp only
    rw [if_pos h2]

theorem chunkUpper_spec {s n : Nat} {ext : Nat → Option (Rect β)} (hs : 2 ≤ s) (hn0 : 0 < n) :
    ∀ (m k : Nat) (below : List (Rect β)) (tail : List (List (Rect β))), tail.length = k →
    Levels s n ext (below :: tail) →
    ∃ ups, chunkUpper s ((List.range' k m).map fun k => numKeys s (k + 2) n) below = some (ups ++ [below]) ∧
      ups.length = m ∧ Levels s n ext (ups ++ below :: tail)
  | 0, k, below, tail, hk, h => ⟨[], rfl, rfl, h⟩
  | m + 1, k, below, tail, hk, h => by
    have hlen : below.length = numKeys s (k + 1) n := by rw [← hk]; exact h.1
    obtain ⟨up, h1, h2, h3⟩ := chunkLevel_spec (s := s) (nrects := numKeys s (k + 2) n) (items := below) hs (by
        intro i
        rw [hlen, lt_numKeys_iff hs, lt_numKeys_iff hs, pow_succ (n := k + 1)]
        rw [show i * s * s ^ (k + 1) = i * (s ^ (k + 1) * s) by ring]) (by
        intro hc
        have : 0 < numKeys s (k + 1) n := (lt_numKeys_iff hs).2 (by omega)
        rw [hc] at hlen
        simp at hlen
        omega)
    obtain ⟨ups, g1, g2, g3⟩ := chunkUpper_spec hs hn0 m (k + 1) up (below :: tail) (by simp [hk])
      ⟨by rw [h2, List.length_cons, hk], h3, h⟩
    refine ⟨ups ++ [up], ?_, by simp [g2], ?_⟩
    · rw [List.range'_succ, List.map_cons, chunkUpper, h1]
      dsimp only
      rw [g1]
    · simpa using g3

/-- What `qsort` guarantees: for a comparison function that is an order, the elements in order. -/
def QsortOk (Q : Qsort) : Prop :=
  ∀ cmp : Hildex → Hildex → Int, (∀ a, cmp a a = 0) → (∀ a b, cmp a b < 0 ↔ 0 < cmp b a) →
    (∀ a b c, cmp a b ≤ 0 → cmp b c ≤ 0 → cmp a c ≤ 0) →
    ∀ l, (Q cmp l).Perm l ∧ (Q cmp l).Pairwise fun a b => cmp a b ≤ 0

theorem hilsort_le (a b : Hildex) : hilsort a b ≤ 0 ↔ a.hilbert ≤ b.hilbert := by
  unfold hilsort
  simp only [gt_iff_lt, BitVec.lt_def, BitVec.le_def]
  split_ifs <;> omega

theorem QsortOk.hilsort {Q : Qsort} (h : QsortOk Q) (l : List Hildex) :
    (Q hilsort l).Perm l ∧ (Q hilsort l).Pairwise fun a b => a.hilbert ≤ b.hilbert := by
  obtain ⟨h1, h2⟩ := h S.hilsort
    (by intro a; simp only [S.hilsort, gt_iff_lt, BitVec.lt_def]; split_ifs <;> omega)
    (by intro a b; simp only [S.hilsort, gt_iff_lt, BitVec.lt_def]; split_ifs <;> omega)
    (by
      intro a b c
      simp only [hilsort_le, BitVec.le_def]
      omega) l
  exact ⟨h1, h2.imp fun h => (hilsort_le _ _).1 h⟩

theorem mapM_some_iff {δ ε : Type*} {g : δ → Option ε} : ∀ {l : List δ} {ys : List ε}, l.mapM g = some ys →
    ys.length = l.length ∧ ∀ (i : Nat) x, l[i]? = some x → ∃ y, ys[i]? = some y ∧ g x = some y
  | [], ys, h => by
    simp at h; subst h; simp
  | a :: l, ys, h => by
    rw [List.mapM_cons] at h
    cases hy : g a with
    | none => rw [hy] at h; simp at h
    | some y =>
      cases hl : l.mapM g with
      | none => rw [hy, hl] at h; simp at h
      | some zs =>
        rw [hy, hl] at h
        have : ys = y :: zs := by
          have := Option.some.inj h
          exact this.symm
        subst this
        obtain ⟨h1, h2⟩ := mapM_some_iff hl
        refine ⟨by simp [h1], ?_⟩
        intro i x hx
        cases i with
        | zero => simp only [List.getElem?_cons_zero, Option.some.injEq] at hx; subst hx; exact ⟨y, by simp, hy⟩
        | succ i => simp only [List.getElem?_cons_succ] at hx ⊢; exact h2 i x hx

/-- The keys: entry `i` is child `i`. -/
theorem hildexes_some {H : HArith α} {rectOf : γ → Rect α} {rect : Rect α} {geoms : List γ} {hs : List Hildex}
    (h : hildexes H rectOf rect geoms = some hs) : hs.length = geoms.length ∧
      ∀ (i : Nat) g, geoms[i]? = some g → ∃ x, hs[i]? = some x ∧ x.index = i ∧ pointHilbert H (H.center (rectOf g)) rect = some x.hilbert := by
  obtain ⟨h1, h2⟩ := mapM_some_iff h
  refine ⟨by simpa using h1, ?_⟩
  intro i g hg
  obtain ⟨y, e1, e2⟩ := h2 i (g, i) (by rw [List.getElem?_zipIdx, hg]; simp)
  dsimp only at e2
  cases hp : pointHilbert H (H.center (rectOf g)) rect with
  | none => rw [hp] at e2; cases e2
  | some k =>
    rw [hp] at e2
    cases e2
    exact ⟨_, e1, rfl, rfl⟩

theorem hildexes_index {H : HArith α} {rectOf : γ → Rect α} {rect : Rect α} {geoms : List γ} {hs : List Hildex}
    (h : hildexes H rectOf rect geoms = some hs) : hs.map (·.index) = List.range geoms.length := by
  obtain ⟨h1, h2⟩ := hildexes_some h
  apply List.ext_getElem?
  intro i
  rcases Nat.lt_or_ge i geoms.length with hi | hi
  · obtain ⟨x, e1, e2, _⟩ := h2 i geoms[i] (List.getElem?_eq_getElem hi)
    rw [List.getElem?_map, e1, List.getElem?_range hi]
    simp [e2]
  · rw [List.getElem?_eq_none (by simp; omega), List.getElem?_eq_none (by simp; omega)]

theorem hildexes_exists {H : HArith α} {rectOf : γ → Rect α} {rect : Rect α} {geoms : List γ}
    (h : ∀ g ∈ geoms, pointHilbert H (H.center (rectOf g)) rect ≠ none) : ∃ hs, hildexes H rectOf rect geoms = some hs := by
  obtain ⟨ys, h1, _⟩ := mapM_some (g := fun ((g, i) : γ × Nat) =>
    match pointHilbert H (H.center (rectOf g)) rect with
    | none => none
    | some k => some (⟨k, i⟩ : Hildex)) geoms.zipIdx (by
      rintro ⟨g, i⟩ hx
      have hg : g ∈ geoms := List.fst_mem_of_mem_zipIdx hx
      have := h g hg
      dsimp only
      cases hp : pointHilbert H (H.center (rectOf g)) rect with
      | none => exact absurd hp this
      | some k => exact ⟨_, rfl⟩)
  exact ⟨ys, h1⟩

/-- What is known of a collection. -/
structure MultiOk (f : Ix α β) (rectOf : γ → Rect α) (geoms : List γ) (m : Multi α β γ) : Prop where
  geoms_eq : m.geoms = geoms
  rect_le : ∀ g ∈ geoms, (rectOf g).Le m.rect
  rect_least : geoms ≠ [] → ∀ T : Rect α, (∀ g ∈ geoms, (rectOf g).Le T) → m.rect.Le T
  perm : ∀ ix, m.index = some ix → m.ixgeoms.Perm (List.range geoms.length)
  spread : ∀ ix, m.index = some ix → 2 ≤ ix.spread
  levels : ∀ ix, m.index = some ix → Levels ix.spread geoms.length
    (fun j => (m.ixgeoms[j]?).bind fun i => (geoms[i]?).map fun g => f.rect (rectOf g)) ix.levels
  root : ∀ ix, m.index = some ix → geoms.length ≤ ix.spread * ix.spread ^ ix.levels.length

theorem foldl_inflate_le {T : Rect α} : ∀ (rs : List (Rect α)) (r : Rect α), r.Le T → (∀ q ∈ rs, q.Le T) → (rs.foldl Rect.inflate r).Le T
  | [], _, h, _ => h
  | q :: rs, r, h, hq => foldl_inflate_le rs (r.inflate q) (Rect.inflate_le h (hq q (by simp))) fun t ht => hq t (by simp [ht])

theorem inflateRect_spec [Zero α] (rects : List (Rect α)) : (∀ r ∈ rects, r.Le (inflateRect rects)) ∧
    (rects ≠ [] → ∀ T : Rect α, (∀ r ∈ rects, r.Le T) → (inflateRect rects).Le T) := by
  cases rects with
  | nil => exact ⟨by simp, fun h => absurd rfl h⟩
  | cons r rs =>
    obtain ⟨h1, h2⟩ := foldl_inflate_covers rs r
    refine ⟨?_, fun _ T hT => foldl_inflate_le rs r (hT r (by simp)) fun q hq => hT q (by simp [hq])⟩
    intro q hq
    rcases List.mem_cons.1 hq with rfl | hq
    · exact h1
    · exact h2 q hq

theorem inflateIndex_ok {f : Ix α β} {H : HArith α} {Q : Qsort} (hQ : QsortOk Q) {rectOf : γ → Rect α} {s : Nat} (hs : 2 ≤ s)
    {m : Multi α β γ} (hn : 2 * s ≤ m.geoms.length) (hle : ∀ g ∈ m.geoms, (rectOf g).Le m.rect)
    {hx : List Hildex} (hh : hildexes H rectOf m.rect m.geoms = some hx) :
    ∃ m', inflateIndex f H Q rectOf s m = some m' ∧ m'.geoms = m.geoms ∧ m'.rect.Le m.rect ∧ m.rect.Le m'.rect ∧
      m'.ixgeoms = (Q hilsort hx).map (·.index) ∧ m'.ixgeoms.Perm (List.range m.geoms.length) ∧
      ∃ ix, m'.index = some ix ∧ ix.spread = s ∧
        Levels s m.geoms.length (fun j => (m'.ixgeoms[j]?).bind fun i => (m.geoms[i]?).map fun g => f.rect (rectOf g)) ix.levels ∧
        m.geoms.length ≤ s * s ^ ix.levels.length := by
  obtain ⟨hp, _⟩ := hQ.hilsort hx
  have hperm : ((Q hilsort hx).map (·.index)).Perm (List.range m.geoms.length) := by
    rw [← hildexes_index hh]
    exact hp.map _
  generalize hix : (Q hilsort hx).map (·.index) = ixg at hperm
  have hlt : ∀ i ∈ ixg, i < m.geoms.length := fun i hi => List.mem_range.1 (hperm.subset hi)
  have hlen : ixg.length = m.geoms.length := by simpa using hperm.length_eq
  obtain ⟨rects, r1, r2, r3⟩ := mapM_some (g := fun i => (m.geoms[i]?).map rectOf) ixg (by
    intro i hi
    exact ⟨_, by rw [List.getElem?_eq_getElem (hlt i hi)]; rfl⟩)
  have hrn : (rects.map f.rect).length = m.geoms.length := by simp [r2, hlen]
  have hlt1 : ∀ i, i < numKeys s 1 m.geoms.length ↔ i * s < m.geoms.length := fun i => by rw [lt_numKeys_iff hs, pow_one]
  obtain ⟨leaves, l1, l2, l3⟩ := chunkLevel_spec (s := s) (nrects := numKeys s 1 m.geoms.length) (items := rects.map f.rect) hs
    (by intro i; rw [hrn]; exact hlt1 i) (by
      intro hc
      rw [hc] at hrn
      simp at hrn
      omega)
  have hL : Levels s m.geoms.length (fun j => (ixg[j]?).bind fun i => (m.geoms[i]?).map fun g => f.rect (rectOf g)) [leaves] := by
    refine ⟨l2, ?_, trivial⟩
    intro i r hr j q h1 h2 h3 hq
    refine l3 i r hr j q h1 h2 ?_
    dsimp only at hq
    cases hj : ixg[j]? with
    | none => rw [hj] at hq; cases hq
    | some i' =>
      rw [hj] at hq
      obtain ⟨y, y1, y2⟩ := r3 j i' hj
      rw [List.getElem?_map, y1]
      cases hg : m.geoms[i']? with
      | none => simp [hg] at hq
      | some g => simp [hg] at hq y2; subst hq y2; rfl
  obtain ⟨L1, L2, L3⟩ := numLevels_spec (s := s) (n := m.geoms.length) hs
  have hLv : 2 ≤ numLevels s m.geoms.length := by
    by_contra hc
    have h1 : numLevels s m.geoms.length = 1 := by omega
    rw [h1, numKeys_le_iff hs, pow_one, one_mul] at L2
    omega
  obtain ⟨ups, u1, u2, u3⟩ := chunkUpper_spec hs (by omega) (numLevels s m.geoms.length - 2) 0 leaves [] rfl hL
  rw [← List.range_eq_range', show numLevels s m.geoms.length - 2 = numLevels s m.geoms.length - 1 - 1 by omega] at u1
  refine ⟨{ m with rect := (rects.drop 1).foldl Rect.inflate m.rect, ixgeoms := ixg, index := some ⟨s, ups ++ [leaves]⟩ }, ?_, rfl, ?_, ?_, ?_, ?_, _, rfl, rfl, u3, ?_⟩
  rotate_left
  · exact foldl_inflate_le _ _ (.refl _) (by
      intro q hq
      have hq := List.mem_of_mem_drop hq
      obtain ⟨k, hk, rfl⟩ := List.mem_iff_getElem.1 hq
      obtain ⟨y, y1, y2⟩ := r3 k ixg[k] (List.getElem?_eq_getElem (by omega))
      rw [List.getElem?_eq_getElem hk] at y1
      cases y1
      cases hg : m.geoms[ixg[k]]? with
      | none => rw [hg] at y2; cases y2
      | some g =>
        rw [hg] at y2
        simp only [Option.map_some, Option.some.injEq] at y2
        rw [← y2]
        exact hle g (List.mem_of_getElem? hg))
  · exact (foldl_inflate_covers _ _).1
  · rfl
  · exact hperm
  · rw [List.length_append, u2]
    rw [numKeys_le_iff hs, one_mul] at L2
    calc m.geoms.length ≤ s ^ numLevels s m.geoms.length := L2
      _ = s * s ^ (numLevels s m.geoms.length - 2 + [leaves].length) := by
        rw [← pow_succ']
        congr 1
        simp
        omega
  · unfold inflateIndex
    rw [hh]
    dsimp only
    rw [hix, r1]
    dsimp only
    rw [l1]
    dsimp only
    rw [upperSizes, u1]

theorem multiNew_ok [Zero α] {f : Ix α β} {H : HArith α} {Q : Qsort} (hQ : QsortOk Q) {rectOf : γ → Rect α} {geoms : List γ}
    {m : Multi α β γ} (h : multiNew f H Q rectOf geoms = some m) : MultiOk f rectOf geoms m ∧
      (m.index.isSome = true ↔ 64 ≤ geoms.length) := by
  obtain ⟨h1, h2⟩ := inflateRect_spec (geoms.map rectOf)
  have h1' : ∀ g ∈ geoms, (rectOf g).Le (inflateRect (geoms.map rectOf)) := fun g hg => h1 _ (List.mem_map_of_mem hg)
  unfold multiNew at h
  dsimp only at h
  split_ifs at h with hc
  · cases hh : hildexes H rectOf (inflateRect (geoms.map rectOf)) geoms with
    | none =>
      unfold inflateIndex at h
      rw [hh] at h
      cases h
    | some hx =>
      obtain ⟨m', e, e1, e2, e3, e4, e5, ix, e6, e7, e8, e9⟩ := inflateIndex_ok (f := f) hQ (s := multiSpread) (by decide)
        (m := ⟨geoms, inflateRect (geoms.map rectOf), none, []⟩) (by dsimp only; omega) h1' hh
      rw [h] at e
      cases e
      dsimp only at e1 e2 e3 e5 e8 e9
      refine ⟨⟨e1, fun g hg => (h1' g hg).trans e3, ?_, ?_, ?_, ?_, ?_⟩, ?_⟩
      · intro hne T hT
        refine e2.trans (h2 (by simpa using hne) T ?_)
        intro r hr
        obtain ⟨g, hg, rfl⟩ := List.mem_map.1 hr
        exact hT g hg
      · intro _ _; exact e5
      · intro ix' h'; rw [e6] at h'; cases h'; rw [e7]; decide
      · intro ix' h'; rw [e6] at h'; cases h'; rw [e7]; exact e8
      · intro ix' h'; rw [e6] at h'; cases h'; rw [e7]; exact e9
      · rw [e6]; unfold multiSpread at hc; simpa using hc
  · cases h
    refine ⟨⟨rfl, h1', ?_, ?_, ?_, ?_, ?_⟩, ?_⟩
    · intro hne T hT
      refine h2 (by simpa using hne) T ?_
      intro r hr
      obtain ⟨g, hg, rfl⟩ := List.mem_map.1 hr
      exact hT g hg
    · intro _ h; cases h
    · intro _ h; cases h
    · intro _ h; cases h
    · intro _ h; cases h
    · unfold multiSpread at hc; simp; omega

/-- The converted rectangle covers the original. -/
def Ix.Encloses (f : Ix α β) (r : Rect α) : Prop :=
  f.wide (f.down r.lo.x) ≤ r.lo.x ∧ r.hi.x ≤ f.wide (f.up r.hi.x) ∧ f.wide (f.down r.lo.y) ≤ r.lo.y ∧ r.hi.y ≤ f.wide (f.up r.hi.y)

theorem Rect.Le.intersects {r s q : Rect α} (h : r.Le s) (hi : r.intersects q = true) : s.intersects q = true := by
  rw [intersects_iff] at *
  exact ⟨hi.1.trans h.2.1, h.1.trans hi.2.1, hi.2.2.1.trans h.2.2.2, h.2.2.1.trans hi.2.2.2⟩

variable {σ : Type*} {iter : γ → Nat → σ → σ × Bool} {q : Rect α}

theorem geomSearch_eq {f : Ix α β} (hw : ∀ x y : β, x ≤ y → f.wide x ≤ f.wide y) {rectOf : γ → Rect α} {geoms : List γ} {m : Multi α β γ}
    (hm : MultiOk f rectOf geoms m) (he : ∀ g ∈ geoms, f.Encloses (rectOf g)) (st : σ) :
    geomSearch f rectOf m q iter st =
      match m.index with
      | none => forRange (seqLeaf rectOf geoms q iter) 0 geoms.length st
      | some _ => forRange (ixLeaf rectOf m q iter) 0 geoms.length st := by
  have hseq : m.rect.intersects q = false → ∀ i st, i < geoms.length → seqLeaf rectOf geoms q iter i st = some (st, true) := by
    intro hc i st hi
    rw [seqLeaf, List.getElem?_eq_getElem hi]
    dsimp only
    rw [if_neg]
    intro hcon
    rw [(hm.rect_le _ (List.getElem_mem hi)).intersects hcon] at hc
    cases hc
  have hixl : ∀ ix, m.index = some ix → ∀ i, i < geoms.length → ∃ j, m.ixgeoms[i]? = some j ∧ j < geoms.length := by
    intro ix hix i hi
    have hl : m.ixgeoms.length = geoms.length := by simpa using (hm.perm ix hix).length_eq
    refine ⟨m.ixgeoms[i], List.getElem?_eq_getElem (by omega), ?_⟩
    exact List.mem_range.1 ((hm.perm ix hix).subset (List.getElem_mem _))
  unfold geomSearch
  by_cases hc : m.rect.intersects q = true
  · rw [if_neg (by simp [hc])]
    cases hix : m.index with
    | none => dsimp only; rw [hm.geoms_eq]
    | some ix =>
      dsimp only
      rw [hm.geoms_eq]
      refine walk_root (hm.spread ix hix) ?_ ?_ (hm.levels ix hix) (hm.root ix hix) st
      · intro j hj
        obtain ⟨i, h1, h2⟩ := hixl ix hix j hj
        exact ⟨_, by rw [h1, Option.bind_some, List.getElem?_eq_getElem h2]; rfl⟩
      · intro j r' r hj hr' hle hmb st
        obtain ⟨i, h1, h2⟩ := hixl ix hix j hj
        rw [h1, Option.bind_some, List.getElem?_eq_getElem h2] at hr'
        simp only [Option.map_some, Option.some.injEq] at hr'
        subst hr'
        rw [ixLeaf, h1]
        dsimp only
        rw [hm.geoms_eq, seqLeaf, List.getElem?_eq_getElem h2]
        dsimp only
        rw [if_neg]
        intro hcon
        have hen := he _ (List.getElem_mem h2)
        have : (rectOf geoms[i]).Le (f.wideRect r) :=
          ⟨(hw _ _ hle.1).trans hen.1, hen.2.1.trans (hw _ _ hle.2.1), (hw _ _ hle.2.2.1).trans hen.2.2.1,
            hen.2.2.2.trans (hw _ _ hle.2.2.2)⟩
        rw [this.intersects hcon] at hmb
        cases hmb
  · have hc' : m.rect.intersects q = false := by simpa using hc
    rw [if_pos (by simp [hc'])]
    cases hix : m.index with
    | none =>
      exact (forRange_skip _ _ _ fun j st h1 h2 => hseq hc' j st (by omega)).symm
    | some ix =>
      refine (forRange_skip _ _ _ fun j st h1 h2 => ?_).symm
      obtain ⟨i, e1, e2⟩ := hixl ix hix j (by omega)
      rw [ixLeaf, e1]
      dsimp only
      rw [hm.geoms_eq]
      exact hseq hc' i st e2

theorem forRange_visit {rectOf : γ → Rect α} {geoms : List γ} {leaf : Nat → σ → Option (σ × Bool)} :
    ∀ (order : List Nat) (k : Nat) (st : σ), (∀ i (j : Nat), order[j]? = some i → i < geoms.length) →
    (∀ (j : Nat) i st, order[j]? = some i → leaf (k + j) st = seqLeaf rectOf geoms q iter i st) →
    (forRange leaf k order.length st).map (·.1) = some (visit (fun x : γ × Nat => iter x.1 x.2)
      ((order.filterMap fun i => (geoms[i]?).map fun g => (g, i)).filter fun x => (rectOf x.1).intersects q) st)
  | [], k, st, _, _ => rfl
  | i :: order, k, st, hlt, h => by
    have hi : i < geoms.length := hlt i 0 rfl
    have h0 : leaf k st = _ := h 0 i st rfl
    have ih := fun st => forRange_visit order (k + 1) st (fun i j hj => hlt i (j + 1) (by simpa using hj)) (fun j i st hj => by
      have := h (j + 1) i st (by simpa using hj)
      rwa [show k + (j + 1) = k + 1 + j by omega] at this)
    have e : ((geoms[i]?).map fun g => (g, i)) = some (geoms[i], i) := by rw [List.getElem?_eq_getElem hi]; rfl
    rw [List.length_cons, forRange, h0, seqLeaf, List.getElem?_eq_getElem hi, List.filterMap_cons, e]
    dsimp only
    rw [List.filter_cons]
    by_cases hc : (rectOf geoms[i]).intersects q = true
    · rw [if_pos hc, if_pos hc, visit]
      rcases hit : iter geoms[i] i st with ⟨st', _ | _⟩
      · simp
      · simpa using ih st'
    · rw [if_neg hc, if_neg hc]
      exact ih st

theorem filterMap_range_zipIdx (geoms : List γ) :
    ((List.range geoms.length).filterMap fun i => (geoms[i]?).map fun g => (g, i)) = geoms.zipIdx := by
  have : ∀ l : List γ, ∀ k, ((List.range' k l.length).filterMap fun i => (l[i - k]?).map fun g => (g, i)) = l.zipIdx k := by
    intro l
    induction l with
    | nil => intro k; rfl
    | cons a l ih =>
      intro k
      rw [List.length_cons, List.range'_succ, List.filterMap_cons]
      simp only [Nat.sub_self, List.getElem?_cons_zero, Option.map_some, List.zipIdx_cons]
      congr 1
      rw [← ih (k + 1)]
      refine List.filterMap_congr fun i hi => ?_
      have := (List.mem_range'_1.1 hi).1
      rw [show i - k = (i - (k + 1)) + 1 by omega, List.getElem?_cons_succ]
  have := this geoms 0
  rwa [← List.range_eq_range'] at this

end Tg.S
