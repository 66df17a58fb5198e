import Verif.Lemmas.Series
/-! The indexed loop of `process_points` and the upper levels. -/
namespace Tg.S

set_option linter.unusedSectionVars false

variable {α β : Type*} [LinearOrder α] [LinearOrder β]

/-- Invariant of the indexed loop after `k` of the points; `full` is the points and then the first one again. -/
structure PInv (f : Ix α β) (ixspread : Nat) (full : List (Pt α)) (k : Nat) (s : PState α β) : Prop where
  hj : s.j < ixspread
  hk : s.leaves.length * ixspread + s.j = k
  leaf : ∀ i, i < s.leaves.length → ∃ R : Rect α, s.leaves[i]? = some (f.rect R) ∧
    ∀ m q, i * ixspread ≤ m → m ≤ (i + 1) * ixspread → full[m]? = some q → R.Has q
  spread : ∀ m q, s.leaves.length * ixspread ≤ m → (m < k ∨ m = s.leaves.length * ixspread) → full[m]? = some q →
    s.spread.Has q
  rect : ∀ m q, m ≤ s.leaves.length * ixspread → full[m]? = some q → s.rect.Has q
  hull : ∀ T : Rect α, (∀ q ∈ full, T.Has q) → s.rect.Le T ∧ s.spread.Le T

theorem PInv.step {f : Ix α β} {ixspread nrects : Nat} {full : List (Pt α)} {k : Nat} {s : PState α β} {a b : Pt α}
    (h : PInv f ixspread full k s) (hs : 2 ≤ ixspread) (ha : full[k]? = some a) (hb : full[k + 1]? = some b)
    (hn : ∀ l, (l + 1) * ixspread ≤ k + 1 → l < nrects) :
    ∃ s', PState.step f ixspread nrects a b s = some s' ∧ PInv f ixspread full (k + 1) s' := by
  have hsp : ∀ m q, s.leaves.length * ixspread ≤ m → m < k + 1 → full[m]? = some q → (s.spread.inflatePt a).Has q := by
    intro m q h1 h2 hq
    rcases Nat.lt_or_ge m k with hm | hm
    · exact (h.spread m q h1 (Or.inl hm) hq).mono (Rect.le_inflatePt _ _)
    · obtain rfl : m = k := by omega
      rw [ha] at hq
      cases hq
      exact Rect.has_inflatePt _ _
  have hsp0 : ∀ q, full[s.leaves.length * ixspread]? = some q → (s.spread.inflatePt a).Has q := fun q hq =>
    (h.spread _ q le_rfl (Or.inr rfl) hq).mono (Rect.le_inflatePt _ _)
  have hmemA : a ∈ full := List.mem_of_getElem? ha
  have hmemB : b ∈ full := List.mem_of_getElem? hb
  have hkk := h.hk
  have hjj := h.hj
  unfold PState.step
  dsimp only
  split_ifs with hj
  · have hlen : (s.leaves.length + 1) * ixspread = k + 1 := by rw [Nat.add_mul]; omega
    have hl : s.leaves.length < nrects := hn _ (by omega)
    rw [PState.flush, if_pos hl]
    dsimp only
    have hR : ∀ m q, s.leaves.length * ixspread ≤ m → m ≤ (s.leaves.length + 1) * ixspread → full[m]? = some q →
        ((s.spread.inflatePt a).inflatePt b).Has q := by
      intro m q h1 h2 hq
      rcases Nat.lt_or_ge m (k + 1) with hm | hm
      · exact (hsp m q h1 hm hq).mono (Rect.le_inflatePt _ _)
      · obtain rfl : m = k + 1 := by omega
        rw [hb] at hq
        cases hq
        exact Rect.has_inflatePt _ _
    refine ⟨_, rfl, ⟨by show 0 < ixspread; omega, ?_, ?_, ?_, ?_, ?_⟩⟩
    · simp only [List.length_append, List.length_cons, List.length_nil, Nat.zero_add]; omega
    · intro i hi
      simp only [List.length_append, List.length_cons, List.length_nil] at hi
      rcases Nat.lt_or_ge i s.leaves.length with hi' | hi'
      · obtain ⟨R, h1, h2⟩ := h.leaf i hi'
        refine ⟨R, ?_, h2⟩
        show (s.leaves ++ _)[i]? = _
        rw [List.getElem?_append_left hi']
        exact h1
      · obtain rfl : i = s.leaves.length := by omega
        refine ⟨_, ?_, hR⟩
        show (s.leaves ++ _)[s.leaves.length]? = _
        simp
    · intro m q h1 h2 hq
      simp only [List.length_append, List.length_cons, List.length_nil, Nat.zero_add] at h1 h2
      have : m = k + 1 := by omega
      subst this
      rw [hb] at hq
      cases hq
      exact Pt.rect_has _
    · intro m q h1 hq
      simp only [List.length_append, List.length_cons, List.length_nil, Nat.zero_add] at h1
      rcases Nat.lt_or_ge m (s.leaves.length * ixspread) with hm | hm
      · exact (h.rect m q hm.le hq).mono (Rect.le_inflate_left _ _)
      · exact (hR m q hm (by omega) hq).mono (Rect.le_inflate_right _ _)
    · intro T hT
      obtain ⟨h1, h2⟩ := h.hull T hT
      exact ⟨Rect.inflate_le h1 (Rect.inflatePt_le (Rect.inflatePt_le h2 (hT a hmemA)) (hT b hmemB)), Pt.rect_le (hT b hmemB)⟩
  · refine ⟨_, rfl, ⟨by show s.j + 1 < ixspread; omega, by show s.leaves.length * ixspread + (s.j + 1) = _; omega, h.leaf, ?_, h.rect, ?_⟩⟩
    · rintro m q h1 (h2 | rfl) hq
      · exact hsp m q h1 h2 hq
      · exact hsp0 q hq
    · intro T hT
      obtain ⟨h1, h2⟩ := h.hull T hT
      exact ⟨h1, Rect.inflatePt_le h2 (hT a hmemA)⟩

theorem PInv.loop {f : Ix α β} {ixspread nrects : Nat} {p0 : Pt α} {full : List (Pt α)} (hs : 2 ≤ ixspread) :
    ∀ (rest : List (Pt α)) (k : Nat) (s : PState α β), PInv f ixspread full k s → full.drop k = rest ++ [p0] →
    (∀ l, (l + 1) * ixspread ≤ k + rest.length → l < nrects) →
    ∃ s', PState.loop f ixspread nrects p0 rest s = some s' ∧ PInv f ixspread full (k + rest.length) s'
  | [], k, s, h, _, _ => ⟨s, rfl, h⟩
  | a :: rest, k, s, h, hd, hn => by
    have ha : full[k]? = some a := by
      have : (full.drop k)[0]? = some a := by rw [hd]; rfl
      rwa [List.getElem?_drop] at this
    have hd' : full.drop (k + 1) = rest ++ [p0] := by
      rw [← List.drop_drop, hd]; rfl
    have hb : full[k + 1]? = some (rest.headD p0) := by
      have : (full.drop (k + 1))[0]? = some (rest.headD p0) := by
        rw [hd']; cases rest <;> rfl
      rwa [List.getElem?_drop] at this
    obtain ⟨s1, h1, hi⟩ := h.step hs ha hb (fun l hl => hn l (by simp only [List.length_cons]; omega))
    obtain ⟨s2, h2, hi2⟩ := PInv.loop hs rest (k + 1) s1 hi hd' (fun l hl => hn l (by simp only [List.length_cons]; omega))
    refine ⟨s2, ?_, ?_⟩
    · rw [PState.loop, h1]; exact h2
    · have : k + (a :: rest).length = k + 1 + rest.length := by simp only [List.length_cons]; omega
      rw [this]; exact hi2

/-! ### Upper levels -/

/-- A rectangle covers all of a list of rectangles. -/
def CoversAll (r : Rect β) (l : List (Rect β)) : Prop := ∀ q ∈ l, q.Le r

theorem foldl_inflate_covers : ∀ (rs : List (Rect β)) (r : Rect β),
    r.Le (rs.foldl Rect.inflate r) ∧ CoversAll (rs.foldl Rect.inflate r) rs
  | [], r => ⟨.refl r, by intro q hq; cases hq⟩
  | q :: rs, r => by
    obtain ⟨h1, h2⟩ := foldl_inflate_covers rs (r.inflate q)
    refine ⟨(Rect.le_inflate_left _ _).trans h1, ?_⟩
    intro t ht
    rcases List.mem_cons.1 ht with rfl | ht
    · exact (Rect.le_inflate_right _ _).trans h1
    · exact h2 t ht

/-- A level is the parent of the level below: entry `i` covers entries `i*spread` to `(i+1)*spread - 1`. -/
def Parent (ixspread : Nat) (up below : List (Rect β)) : Prop :=
  ∀ i r, up[i]? = some r → ∀ j q, i * ixspread ≤ j → j < (i + 1) * ixspread → below[j]? = some q → q.Le r

theorem parentRect_some {ixspread : Nat} {below : List (Rect β)} {i : Nat} (hs : 0 < ixspread)
    (h : i * ixspread < below.length) : ∃ r, parentRect ixspread below i = some r ∧
      ∀ j q, i * ixspread ≤ j → j < (i + 1) * ixspread → below[j]? = some q → q.Le r := by
  unfold parentRect
  have key : ∀ j q, i * ixspread ≤ j → j < (i + 1) * ixspread → below[j]? = some q →
      q ∈ (below.drop (i * ixspread)).take ixspread := by
    intro j q h1 h2 hq
    apply List.mem_of_getElem? (i := j - i * ixspread)
    rw [Nat.add_mul] at h2
    rw [List.getElem?_take_of_lt (by omega), List.getElem?_drop]
    rw [show i * ixspread + (j - i * ixspread) = j by omega]
    exact hq
  have hne : (below.drop (i * ixspread)).take ixspread ≠ [] := by
    intro hc
    have := congrArg List.length hc
    simp only [List.length_take, List.length_drop, List.length_nil] at this
    omega
  cases hc : (below.drop (i * ixspread)).take ixspread with
  | nil => exact absurd hc hne
  | cons r rs =>
    refine ⟨_, rfl, ?_⟩
    intro j q h1 h2 hq
    have := key j q h1 h2 hq
    rw [hc] at this
    obtain ⟨g1, g2⟩ := foldl_inflate_covers rs r
    rcases List.mem_cons.1 this with rfl | h
    · exact g1
    · exact g2 q h

theorem mapM_some {γ δ : Type*} {g : γ → Option δ} : ∀ (l : List γ), (∀ x ∈ l, ∃ y, g x = some y) →
    ∃ ys, l.mapM g = some ys ∧ ys.length = l.length ∧ ∀ (i : Nat) x, l[i]? = some x → ∃ y, ys[i]? = some y ∧ g x = some y
  | [], _ => ⟨[], rfl, rfl, by intro i x h; simp at h⟩
  | a :: l, h => by
    obtain ⟨y, hy⟩ := h a (by simp)
    obtain ⟨ys, h1, h2, h3⟩ := mapM_some l (fun x hx => h x (by simp [hx]))
    refine ⟨y :: ys, ?_, by simp [h2], ?_⟩
    · rw [List.mapM_cons, hy, h1]; rfl
    · intro i x hx
      cases i with
      | zero => simp only [List.getElem?_cons_zero, Option.some.injEq] at hx; subst hx; exact ⟨y, by simp, hy⟩
      | succ i => simp only [List.getElem?_cons_succ] at hx ⊢; exact h3 i x hx

theorem parentLevel {ixspread n : Nat} {below : List (Rect β)} (hs : 0 < ixspread)
    (h : ∀ i, i < n → i * ixspread < below.length) :
    ∃ up, (List.range n).mapM (parentRect ixspread below) = some up ∧ up.length = n ∧ Parent ixspread up below := by
  obtain ⟨ys, h1, h2, h3⟩ := mapM_some (g := parentRect ixspread below) (List.range n) (by
    intro i hi
    obtain ⟨r, hr, -⟩ := parentRect_some hs (h i (List.mem_range.1 hi))
    exact ⟨r, hr⟩)
  refine ⟨ys, h1, by simpa using h2, ?_⟩
  intro i r hr j q hj1 hj2 hq
  have hi : i < n := by
    by_contra hc
    rw [List.getElem?_eq_none (by rw [h2, List.length_range]; omega)] at hr
    cases hr
  obtain ⟨y, hy1, hy2⟩ := h3 i i (by rw [List.getElem?_range hi])
  rw [hr] at hy1
  cases hy1
  obtain ⟨r', hr', hc⟩ := parentRect_some hs (h i hi)
  rw [hy2] at hr'
  cases hr'
  exact hc j q hj1 hj2 hq

/-- Levels from the root on, above segments with the given extents. The bottom level covers the extents, each level covers
the one below. `n` is the number of segments. -/
def Levels (ixspread n : Nat) (ext : Nat → Option (Rect β)) : List (List (Rect β)) → Prop
  | [] => True
  | l :: ls => l.length = numKeys ixspread (ls.length + 1) n ∧
    (match ls with
      | [] => ∀ i r, l[i]? = some r → ∀ j q, i * ixspread ≤ j → j < (i + 1) * ixspread → j < n → ext j = some q → q.Le r
      | l' :: _ => Parent ixspread l l') ∧
    Levels ixspread n ext ls

theorem fillUpper_spec {ixspread n : Nat} {ext : Nat → Option (Rect β)} (hs : 2 ≤ ixspread) :
    ∀ (m k : Nat) (below : List (Rect β)) (tail : List (List (Rect β))), tail.length = k →
    Levels ixspread n ext (below :: tail) →
    ∃ ups, fillUpper ixspread ((List.range' k m).map fun k => numKeys ixspread (k + 2) n) below = some (ups ++ [below]) ∧
      ups.length = m ∧ Levels ixspread n ext (ups ++ below :: tail)
  | 0, k, below, tail, hk, h => ⟨[], rfl, rfl, h⟩
  | m + 1, k, below, tail, hk, h => by
    have hlen : below.length = numKeys ixspread (k + 1) n := by rw [← hk]; exact h.1
    obtain ⟨up, h1, h2, h3⟩ := parentLevel (ixspread := ixspread) (n := numKeys ixspread (k + 2) n) (below := below)
      (by omega) (by
        intro i hi
        rw [hlen, lt_numKeys_iff hs]
        rw [lt_numKeys_iff hs, pow_succ] at hi
        calc _ = i * (ixspread ^ (k + 1) * ixspread) := by ring
          _ < n := hi)
    obtain ⟨ups, g1, g2, g3⟩ := fillUpper_spec hs m (k + 1) up (below :: tail) (by simp [hk])
      ⟨by rw [h2, List.length_cons, hk], h3, h⟩
    refine ⟨ups ++ [up], ?_, by simp [g2], ?_⟩
    · rw [List.range'_succ, List.map_cons, fillUpper, h1]
      dsimp only
      rw [g1]
    · simpa using g3

theorem fullDrop {p0 : Pt α} {pts : List (Pt α)} : (pts ++ [p0]).drop 0 = pts ++ [p0] := rfl

/-- The result of `process_points` with an index: it is never out of bounds, the rectangle covers all points and nothing more, and
the leaves cover the segments provided the last one does not need the closing point, or the last leaf is full. -/
theorem processIndexed_spec (f : Ix α β) {ixspread nsegs : Nat} {p0 : Pt α} {pts : List (Pt α)} (hs : 2 ≤ ixspread)
    (h0 : pts.head? = some p0) (hn : 2 * ixspread ≤ pts.length) (hseg : pts.length - 1 ≤ nsegs) (hseg' : nsegs ≤ pts.length) :
    ∃ rect leaves ups, processIndexed f ixspread nsegs p0 pts = some (rect, ⟨ixspread, ups ++ [leaves]⟩) ∧
      (ups ++ [leaves]).length = numLevels ixspread nsegs - 1 ∧
      (∀ q ∈ pts, rect.Has q) ∧ (∀ T : Rect α, (∀ q ∈ pts, T.Has q) → rect.Le T) ∧
      leaves.length = numKeys ixspread 1 nsegs ∧
      (∀ i, i < leaves.length → ∃ R : Rect α, leaves[i]? = some (f.rect R) ∧
        ∀ m q, i * ixspread ≤ m → m ≤ (i + 1) * ixspread → (m < pts.length ∨ pts.length % ixspread = 0) →
          (pts ++ [p0])[m]? = some q → R.Has q) ∧
      (∀ ext : Nat → Option (Rect β), Levels ixspread nsegs ext [leaves] → Levels ixspread nsegs ext (ups ++ [leaves])) := by
  have hp0 : p0 ∈ pts := List.mem_of_mem_head? (by rw [h0]; rfl)
  have hfull0 : (pts ++ [p0])[0]? = some p0 := by
    cases pts with
    | nil => rfl
    | cons a l => simp only [List.head?_cons, Option.some.injEq] at h0; subst h0; rfl
  have hinit : PInv f ixspread (pts ++ [p0]) 0 ⟨p0.rect, p0.rect, 0, []⟩ := by
    refine ⟨by show 0 < ixspread; omega, by simp, by intro i hi; simp at hi, ?_, ?_, ?_⟩
    · rintro m q - h2 hq
      have : m = 0 := by simpa using h2
      subst this
      rw [hfull0] at hq
      cases hq
      exact Pt.rect_has _
    · rintro m q h1 hq
      have : m = 0 := by simpa using h1
      subst this
      rw [hfull0] at hq
      cases hq
      exact Pt.rect_has _
    · intro T hT
      have := Pt.rect_le (hT p0 (by simp))
      exact ⟨this, this⟩
  have hltk : ∀ i, i < numKeys ixspread 1 nsegs ↔ i * ixspread < nsegs := by
    intro i; rw [lt_numKeys_iff hs, pow_one]
  obtain ⟨s, hs1, hI⟩ := PInv.loop (nrects := numKeys ixspread 1 nsegs) hs pts 0 _ hinit fullDrop (by
    intro l hl
    rw [hltk]
    rw [Nat.add_mul] at hl
    omega)
  rw [Nat.zero_add] at hI
  have hkk := hI.hk
  have hjj := hI.hj
  have hfl : ∀ i q, i < pts.length → (pts ++ [p0])[i]? = some q → q ∈ pts := by
    intro i q hi hq
    rw [List.getElem?_append_left hi] at hq
    exact List.mem_of_getElem? hq
  have hmem : ∀ T : Rect α, (∀ q ∈ pts, T.Has q) → ∀ q ∈ pts ++ [p0], T.Has q := by
    intro T hT q hq
    rcases List.mem_append.1 hq with h | h
    · exact hT q h
    · rw [List.mem_singleton] at h; rw [h]; exact hT _ hp0
  -- the state after the last, possible, flush
  have hfin : ∃ s' : PState α β, (if s.leaves.length ≠ numKeys ixspread 1 nsegs then PState.flush f (numKeys ixspread 1 nsegs) s
        else some s) = some s' ∧ s'.leaves.length = numKeys ixspread 1 nsegs ∧
      (∀ q ∈ pts, s'.rect.Has q) ∧ (∀ T : Rect α, (∀ q ∈ pts, T.Has q) → s'.rect.Le T) ∧
      (∀ i, i < s'.leaves.length → ∃ R : Rect α, s'.leaves[i]? = some (f.rect R) ∧
        ∀ m q, i * ixspread ≤ m → m ≤ (i + 1) * ixspread → (m < pts.length ∨ pts.length % ixspread = 0) →
          (pts ++ [p0])[m]? = some q → R.Has q) := by
    by_cases hc : s.leaves.length = numKeys ixspread 1 nsegs
    · refine ⟨s, by rw [if_neg (by simpa using hc)], hc, ?_, fun T hT => (hI.hull T (hmem T hT)).1, ?_⟩
      · intro q hq
        obtain ⟨m, hm, rfl⟩ := List.mem_iff_getElem.1 hq
        refine hI.rect m _ ?_ (by rw [List.getElem?_append_left hm, List.getElem?_eq_getElem hm])
        have := (numKeys_le_iff (k := 1) (n := nsegs) (m := s.leaves.length) hs).1 (by omega)
        rw [pow_one] at this
        omega
      · intro i hi
        obtain ⟨R, h1, h2⟩ := hI.leaf i hi
        exact ⟨R, h1, fun m q g1 g2 _ hq => h2 m q g1 g2 hq⟩
    · have hlt : s.leaves.length < numKeys ixspread 1 nsegs := by
        by_contra hge
        have hle : numKeys ixspread 1 nsegs + 1 ≤ s.leaves.length := by omega
        have h1 := (numKeys_le_iff (k := 1) (n := nsegs) (m := numKeys ixspread 1 nsegs) hs).1 le_rfl
        rw [pow_one] at h1
        have h2 := Nat.mul_le_mul_right ixspread hle
        rw [Nat.add_mul] at h2
        omega
      rw [if_pos hc, PState.flush, if_pos hlt]
      have hlen : s.leaves.length + 1 = numKeys ixspread 1 nsegs := by
        have := (numKeys_le_iff (k := 1) (n := nsegs) (m := s.leaves.length + 1) hs).2 (by rw [pow_one, Nat.add_mul]; omega)
        omega
      refine ⟨_, rfl, by simpa using hlen, ?_, ?_, ?_⟩
      · intro q hq
        obtain ⟨m, hm, rfl⟩ := List.mem_iff_getElem.1 hq
        have hq' : (pts ++ [p0])[m]? = some pts[m] := by rw [List.getElem?_append_left hm, List.getElem?_eq_getElem hm]
        rcases Nat.lt_or_ge m (s.leaves.length * ixspread) with h | h
        · exact (hI.rect m _ h.le hq').mono (Rect.le_inflate_left _ _)
        · exact (hI.spread m _ h (Or.inl hm) hq').mono (Rect.le_inflate_right _ _)
      · intro T hT
        obtain ⟨g1, g2⟩ := hI.hull T (hmem T hT)
        exact Rect.inflate_le g1 g2
      · intro i hi
        simp only [List.length_append, List.length_cons, List.length_nil] at hi
        rcases Nat.lt_or_ge i s.leaves.length with hi' | hi'
        · obtain ⟨R, h1, h2⟩ := hI.leaf i hi'
          refine ⟨R, ?_, fun m q g1 g2 _ hq => h2 m q g1 g2 hq⟩
          show (s.leaves ++ _)[i]? = _
          rw [List.getElem?_append_left hi']
          exact h1
        · obtain rfl : i = s.leaves.length := by omega
          refine ⟨s.spread, ?_, ?_⟩
          · show (s.leaves ++ _)[s.leaves.length]? = _
            simp
          · intro m q g1 g2 g3 hq
            refine hI.spread m q g1 (Or.inl ?_) hq
            rcases g3 with g3 | g3
            · exact g3
            · exfalso
              have hj0 : s.j = 0 := by
                have : (s.leaves.length * ixspread + s.j) % ixspread = 0 := by rw [hkk]; exact g3
                rw [Nat.mul_add_mod_self_right, Nat.mod_eq_of_lt hjj] at this
                exact this
              have := (hltk s.leaves.length).1 hlt
              omega
  obtain ⟨s', e1, e2, e3, e4, e5⟩ := hfin
  obtain ⟨L1, L2, L3⟩ := numLevels_spec (s := ixspread) (n := nsegs) hs
  have hL : 2 ≤ numLevels ixspread nsegs := by
    by_contra hlt
    have h1 : numLevels ixspread nsegs = 1 := by omega
    rw [h1, numKeys_le_iff hs, pow_one, one_mul] at L2
    omega
  have key : ∀ ext : Nat → Option (Rect β), Levels ixspread nsegs ext [s'.leaves] → 
      ∃ ups, fillUpper ixspread (upperSizes ixspread nsegs (numLevels ixspread nsegs - 1)) s'.leaves = some (ups ++ [s'.leaves]) ∧
      ups.length = numLevels ixspread nsegs - 2 ∧ Levels ixspread nsegs ext (ups ++ [s'.leaves]) := by
    intro ext h
    have := fillUpper_spec (ext := ext) hs (numLevels ixspread nsegs - 2) 0 s'.leaves [] rfl h
    rwa [← List.range_eq_range', show numLevels ixspread nsegs - 2 = numLevels ixspread nsegs - 1 - 1 by omega] at this
  obtain ⟨ups, u1, u2, -⟩ := key (fun _ => none) ⟨by simp [e2], by intro _ _ _ _ _ _ _ _ h; exact absurd h (by simp), trivial⟩
  refine ⟨s'.rect, s'.leaves, ups, ?_, by simp [u2]; omega, e3, e4, e2, e5, ?_⟩
  · unfold processIndexed
    dsimp only
    rw [hs1]
    dsimp only
    rw [e1]
    dsimp only
    rw [if_neg (by simpa using e2), u1]
  · intro ext hext
    obtain ⟨ups', v1, -, v3⟩ := key ext hext
    rw [u1] at v1
    have := List.append_cancel_right (Option.some.inj v1)
    rw [this]
    exact v3

/-- `process_points` without index. -/
theorem processPlain_spec : ∀ (pts : List (Pt α)) (r : Rect α), 
    r.Le (pts.foldl Rect.inflatePt r) ∧ (∀ q ∈ pts, (pts.foldl Rect.inflatePt r).Has q) ∧
    ∀ T : Rect α, r.Le T → (∀ q ∈ pts, T.Has q) → (pts.foldl Rect.inflatePt r).Le T
  | [], r => ⟨.refl r, by simp, fun T h _ => h⟩
  | p :: pts, r => by
    obtain ⟨h1, h2, h3⟩ := processPlain_spec pts (r.inflatePt p)
    refine ⟨(Rect.le_inflatePt _ _).trans h1, ?_, ?_⟩
    · intro q hq
      rcases List.mem_cons.1 hq with rfl | hq
      · exact (Rect.has_inflatePt _ _).mono h1
      · exact h2 q hq
    · intro T hr hT
      exact h3 T (Rect.inflatePt_le hr (hT p (by simp))) (fun q hq => hT q (by simp [hq]))

end Tg.S
