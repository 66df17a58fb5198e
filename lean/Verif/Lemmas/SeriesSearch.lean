import Verif.Lemmas.SeriesNew
/-! Searching a ring, and testing a point against it. -/
namespace Tg.S

set_option linter.unusedSectionVars false

variable {α β : Type*} [LinearOrder α] [LinearOrder β] {σ : Type*}

theorem rect_has_iff (s : Seg α) (p : Pt α) : s.rect.Has p ↔ InBox s p := by
  simp only [Rect.Has, Seg.rect, InBox, min_le_iff, le_max_iff]

theorem intersects_iff_meets {q : Rect α} (hq : q.Valid) (s : Seg α) : q.intersects s.rect = true ↔ Meets q s := by
  rw [intersects_iff]
  have hv := s.rect_valid
  constructor
  · rintro ⟨h1, h2, h3, h4⟩
    refine ⟨⟨max q.lo.x s.rect.lo.x, max q.lo.y s.rect.lo.y⟩, ?_, ?_⟩
    · exact ⟨le_max_left _ _, max_le hq.1 h1, le_max_left _ _, max_le hq.2 h3⟩
    · rw [← rect_has_iff]
      exact ⟨le_max_right _ _, max_le h2 hv.1, le_max_right _ _, max_le h4 hv.2⟩
  · rintro ⟨p, hp, hs⟩
    rw [← rect_has_iff] at hs
    exact ⟨hs.1.trans hp.2.1, hp.1.trans hs.2.1, hs.2.2.1.trans hp.2.2.2, hp.2.2.1.trans hs.2.2.2⟩

theorem RingOk.segAt {f : Ix α β} {pts : List (Pt α)} {closed : Bool} {ixspread : Nat} {ring : Ring α β}
    (h : RingOk f pts closed ixspread ring) {i : Nat} (hi : i < (segments pts closed).length) :
    segAt ring.points i = some (segments pts closed)[i] := by
  rw [h.points_eq, segAt_eq pts closed hi, List.getElem?_eq_getElem hi]

/-- The plain loop of a search visits the segments whose box meets the query. -/
theorem forRange_search {points : List (Pt α)} {q : Rect α} {iter : Iter α σ} :
    ∀ (rest : List (Seg α)) (i : Nat) (st : σ), (∀ j s, rest[j]? = some s → segAt points (i + j) = some s) →
    (forRange (searchLeaf points q iter) i rest.length st).map (·.1)
      = some (visit (fun (x : Seg α × Nat) => iter x.1 x.2) ((rest.zipIdx i).filter fun x => q.intersects x.1.rect) st)
  | [], i, st, _ => rfl
  | s :: rest, i, st, h => by
    have h0 : segAt points i = some s := h 0 s rfl
    have ih := fun st => forRange_search (q := q) (iter := iter) rest (i + 1) st (fun j t hj => by
      have := h (j + 1) t (by simpa using hj)
      rwa [show i + (j + 1) = i + 1 + j by omega] at this)
    rw [List.length_cons, forRange, searchLeaf, h0]
    dsimp only
    rw [List.zipIdx_cons, List.filter_cons]
    by_cases hc : q.intersects s.rect = true
    · rw [if_pos hc, if_pos hc]
      rw [visit]
      rcases hit : iter s i st with ⟨st', _ | _⟩
      · simp
      · simpa using ih st'
    · rw [if_neg hc, if_neg hc]
      exact ih st

/-- A query box that meets the box of a segment meets every index rectangle that covers it. -/
theorem Ix.Lawful.search_maybe {f : Ix α β} (hf : f.Lawful) {q : Rect α} {s : Seg α} {r : Rect β}
    (hle : (f.rect s.rect).Le r) (h : q.intersects s.rect = true) : ixIntersects r (f.rect q) = true := by
  rw [intersects_iff] at h
  obtain ⟨h1, h2, h3, h4⟩ := h
  rw [ixIntersects_iff]
  have key : ∀ x y : α, x ≤ y → f.down x ≤ f.up y := fun x y h =>
    (hf.down_mono x y h).trans ((hf.down_le y).trans (hf.le_up y))
  exact ⟨hle.2.2.1.trans (key _ _ h3), (key _ _ h4).trans hle.2.2.2, hle.1.trans (key _ _ h1), (key _ _ h2).trans hle.2.1⟩

theorem ringSearch_eq {f : Ix α β} (hf : f.Lawful) {pts : List (Pt α)} {closed : Bool} {ixspread : Nat} {ring : Ring α β}
    (h : RingOk f pts closed ixspread ring) (hc : LeavesCover pts closed ixspread ∨ ring.index = none) (q : Rect α)
    (iter : Iter α σ) (st : σ) :
    ringSearch f ring q iter st = forRange (searchLeaf ring.points q iter) 0 ring.nsegs st := by
  unfold ringSearch
  cases hix : ring.index with
  | none => rfl
  | some ix =>
    dsimp only
    have hok := h.index_ok ix hix (by
      rcases hc with hc | hc
      · exact hc
      · rw [hix] at hc; cases hc)
    rw [h.nsegs_eq]
    refine walk_root (ext := extOf f (segments pts closed)) hok.spread ?_ ?_ hok.levels hok.root st
    · intro j hj
      exact ⟨_, by rw [extOf, List.getElem?_eq_getElem hj]; rfl⟩
    · intro j r' r hj hr' hle hm st
      rw [extOf, List.getElem?_eq_getElem hj] at hr'
      simp only [Option.map_some, Option.some.injEq] at hr'
      subst hr'
      rw [searchLeaf, h.segAt hj]
      dsimp only
      rw [if_neg]
      intro hcon
      rw [hf.search_maybe hle hcon] at hm
      cases hm

/-! ### Points -/

theorem raycast_out_y (A : Arith α) (s : Seg α) (p : Pt α) (h : p.y < min s.a.y s.b.y ∨ p.y > max s.a.y s.b.y) :
    raycast A s p = .out := by
  exact if_pos h

/-- Right of the segment the answer is always OUT. -/
theorem raycast_out_x (A : Arith α) (s : Seg α) (p : Pt α) (h : p.x > max s.a.x s.b.x) : raycast A s p = .out := by
  have ha : s.a.x < p.x := (le_max_left _ _).trans_lt h
  have hb : s.b.x < p.x := (le_max_right _ _).trans_lt h
  have mid : ∀ a b : Pt α, (a = s.a ∧ b = s.b) ∨ (a = s.b ∧ b = s.a) → raycastMid A s.rect a b p = .out := by
    intro a b hab
    have hpa : a.x < p.x := by rcases hab with ⟨rfl, rfl⟩ | ⟨rfl, rfl⟩ <;> assumption
    have hpb : b.x < p.x := by rcases hab with ⟨rfl, rfl⟩ | ⟨rfl, rfl⟩ <;> assumption
    have hx : ¬ p.x < s.rect.lo.x := by
      intro hc
      exact absurd (hc.trans_le (min_le_left _ _)) (not_lt.2 ha.le)
    have hx' : p.x > s.rect.hi.x := h
    unfold raycastMid
    have e1 : (pteq p a || pteq p b) = false := by
      rw [Bool.or_eq_false_iff]
      constructor
      · rw [Bool.eq_false_iff, ne_eq, pteq_iff]; rintro rfl; exact lt_irrefl _ hpa
      · rw [Bool.eq_false_iff, ne_eq, pteq_iff]; rintro rfl; exact lt_irrefl _ hpb
    rw [e1, if_neg (by simp)]
    split_ifs with c1 c2 c3 c4
    · rfl
    · exact absurd (Or.inr hx') c2.2.2
    · exact absurd c3.2.1 hpb.ne'
    · rfl
    · unfold raycastTail
      dsimp only
      have hpx : ∀ (c : Prop) [Decidable c] (y : α), (if c then (⟨p.x, y⟩ : Pt α) else p).x = p.x := by
        intro c _ y; split_ifs <;> rfl
      rw [hpx]
      by_cases d1 : (if p.y = a.y ∨ p.y = b.y then (⟨p.x, A.next p.y⟩ : Pt α) else p).y < a.y ∨
          (if p.y = a.y ∨ p.y = b.y then (⟨p.x, A.next p.y⟩ : Pt α) else p).y > b.y
      · rw [if_pos d1]
      · rw [if_neg d1, if_pos hpa.le, if_pos hpb.le, ite_self]
  unfold raycast
  dsimp only
  split_ifs
  · rfl
  · rename_i h2
    exact absurd (h2.1.trans_le (min_le_left _ _)) (not_lt.2 ha.le)
  · rfl
  · exact mid _ _ (Or.inr ⟨rfl, rfl⟩)
  · exact mid _ _ (Or.inl ⟨rfl, rfl⟩)

/-- The quick tests of `pip_eval_seg` do not change the outcome. -/
theorem pipEval_eq (A : Arith α) (s : Seg α) (i : Nat) (p : Pt α) (edge : Bool) (st : Pip) :
    pipEval A s i p edge st = pipSlow A s i p edge st := by
  unfold pipEval
  dsimp only
  split_ifs with h1 h2 h3 h4 h5 h6
  · rw [pipSlow, raycast_out_y A s p h1]
  · have : raycast A s p = .in_ := by
      exact (if_neg h1).trans (if_pos ⟨h2, h3⟩)
    rw [pipSlow, this]
    dsimp only
    rw [if_neg h4]
  · have : raycast A s p = .in_ := by
      exact (if_neg h1).trans (if_pos ⟨h2, h3⟩)
    rw [pipSlow, this]
    dsimp only
    rw [if_pos (by simpa using h4)]
  · rfl
  · rw [pipSlow, raycast_out_x A s p h5]
  · rfl
  · rfl

theorem pipSlow_out {A : Arith α} {s : Seg α} {i : Nat} {p : Pt α} {edge : Bool} {st : Pip} (h : raycast A s p = .out) :
    pipSlow A s i p edge st = st := by rw [pipSlow, h]

theorem standardLeaf_eq (A : Arith α) (points : List (Pt α)) (p : Pt α) (edge : Bool) :
    standardLeaf A points p edge = pipLeaf A points p edge := by
  funext i st
  unfold standardLeaf pipLeaf
  cases segAt points i with
  | none => rfl
  | some s =>
    dsimp only
    rw [pipEval_eq]
    split_ifs with h
    · rw [pipSlow_out (raycast_out_y A s p h)]
    · rfl

/-- A rejected branch holds only segments that do not count. -/
theorem Ix.Lawful.pip_maybe {f : Ix α β} (hf : f.Lawful) {A : Arith α} {p : Pt α} {s : Seg α} {r : Rect β}
    (hle : (f.rect s.rect).Le r) (h : branchMaybeIn (f.pt p) r = false) : raycast A s p = .out := by
  unfold branchMaybeIn at h
  split_ifs at h with h1 h2
  · apply raycast_out_y
    by_contra hc
    rw [not_or, not_lt, not_lt] at hc
    rcases h1 with h1 | h1
    · exact absurd (hle.2.2.1.trans ((hf.down_mono _ _ hc.1).trans (hf.down_le _))) (not_le.2 h1)
    · exact absurd (((hf.le_up _).trans (hf.up_mono _ _ hc.2)).trans hle.2.2.2) (not_le.2 h1)
  · apply raycast_out_x
    by_contra hc
    rw [gt_iff_lt, not_lt] at hc
    exact absurd (((hf.le_up _).trans (hf.up_mono _ _ hc)).trans hle.2.1) (not_le.2 h2.1)

end Tg.S
