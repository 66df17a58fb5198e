import Mathlib.Data.List.Sort
import Mathlib.Algebra.Order.Floor.Ring
import Mathlib.Data.Rat.Floor
import Verif.Model.Exact
import Verif.Lemmas.Multi
/-! Property C39: searching a collection. -/
set_option linter.dupNamespace false
namespace Tg
open S

section
variable {α β γ : Type*} [LinearOrder α] [LinearOrder β]

/-- The rectangles share a point. -/
def S.RectsShare (r q : S.Rect α) : Prop := ∃ p, r.Has p ∧ q.Has p

theorem S.intersects_iff_share {r q : S.Rect α} (hr : r.Valid) (hq : q.Valid) : r.intersects q = true ↔ RectsShare r q := by
  rw [intersects_iff]
  constructor
  · rintro ⟨h1, h2, h3, h4⟩
    exact ⟨⟨max r.lo.x q.lo.x, max r.lo.y q.lo.y⟩, ⟨le_max_left _ _, max_le hr.1 h1, le_max_left _ _, max_le hr.2 h3⟩,
      ⟨le_max_right _ _, max_le h2 hq.1, le_max_right _ _, max_le h4 hq.2⟩⟩
  · rintro ⟨p, h1, h2⟩
    exact ⟨h2.1.trans h1.2.1, h1.1.trans h2.2.1, h2.2.2.1.trans h1.2.2.2, h1.2.2.1.trans h2.2.2.2⟩

/-- C39. `tg_geom_search` hands the children whose rectangle shares a point with the query to the callback, with their numbers, until the callback
returns false. There is one order of the children for all queries, in which each occurs once; without an index (fewer than 64 children) it is the
order of the collection. The conversion to index coordinates has to enclose the rectangles of the children. -/
theorem C39_search [Zero α] {f : Ix α β} (hw : ∀ x y : β, x ≤ y → f.wide x ≤ f.wide y) {H : HArith α} {Q : Qsort} (hQ : QsortOk Q)
    {rectOf : γ → S.Rect α} {geoms : List γ} {m : Multi α β γ} (h : multiNew f H Q rectOf geoms = some m)
    (hv : ∀ g ∈ geoms, (rectOf g).Valid) (he : ∀ g ∈ geoms, f.Encloses (rectOf g)) :
    ∃ order : List (γ × Nat), order.Perm geoms.zipIdx ∧ (geoms.length < 64 → order = geoms.zipIdx) ∧
      ∀ (q : S.Rect α) (_ : q.Valid) [DecidablePred fun x : γ × Nat => RectsShare (rectOf x.1) q] {σ : Type*} (iter : γ → Nat → σ → σ × Bool) (st : σ),
        (geomSearch f rectOf m q iter st).map (·.1) =
          some (visit (fun x : γ × Nat => iter x.1 x.2) (order.filter fun x => RectsShare (rectOf x.1) q) st) := by
  obtain ⟨hm, hix⟩ := multiNew_ok hQ h
  have hfil : ∀ (q : S.Rect α) (_ : q.Valid) [DecidablePred fun x : γ × Nat => RectsShare (rectOf x.1) q] (order : List (γ × Nat)),
      order.Perm geoms.zipIdx → (order.filter fun x => decide (RectsShare (rectOf x.1) q)) = order.filter fun x => (rectOf x.1).intersects q := by
    intro q hq _ order hp
    apply List.filter_congr
    intro x hx
    have hg : x.1 ∈ geoms := by
      have := hp.subset hx
      exact List.fst_mem_of_mem_zipIdx this
    rw [Bool.eq_iff_iff, decide_eq_true_iff, intersects_iff_share (hv _ hg) hq]
  cases hi : m.index with
  | none =>
    refine ⟨geoms.zipIdx, .refl _, fun _ => rfl, ?_⟩
    intro q hq _ σ iter st
    rw [geomSearch_eq hw hm he, hi]
    dsimp only
    rw [hfil q hq _ (.refl _)]
    have := forRange_visit (rectOf := rectOf) (geoms := geoms) (q := q) (iter := iter) (leaf := seqLeaf rectOf geoms q iter)
      (List.range geoms.length) 0 st (by
        intro i j hj
        exact List.mem_range.1 (List.mem_of_getElem? hj)) (by
        intro j i st hj
        have hjl : j < geoms.length := by
          have := (List.getElem?_eq_some_iff.1 hj).1
          simpa using this
        rw [List.getElem?_range hjl] at hj
        cases hj
        rw [Nat.zero_add])
    rw [List.length_range, filterMap_range_zipIdx] at this
    exact this
  | some ix =>
    have hp := hm.perm ix hi
    have hlen : m.ixgeoms.length = geoms.length := by simpa using hp.length_eq
    have hpo : (m.ixgeoms.filterMap fun i => (geoms[i]?).map fun g => (g, i)).Perm geoms.zipIdx := by
      rw [← filterMap_range_zipIdx]
      exact hp.filterMap _
    refine ⟨_, hpo, ?_, ?_⟩
    · intro hlt
      rw [hi] at hix
      have := hix.1 rfl
      omega
    · intro q hq _ σ iter st
      rw [geomSearch_eq hw hm he, hi]
      dsimp only
      rw [hfil q hq _ hpo, ← hlen]
      refine forRange_visit _ _ _ ?_ ?_
      · intro i j hj
        exact List.mem_range.1 (hp.subset (List.mem_of_getElem? hj))
      · intro j i st hj
        rw [Nat.zero_add, ixLeaf, hj]
        dsimp only
        rw [hm.geoms_eq]

/-- Visiting a list with a callback that notes what it is given. -/
theorem S.visit_note {δ : Type*} : ∀ (l : List δ) (st : List δ), visit (fun x st => (st ++ [x], true)) l st = st ++ l
  | [], st => by simp [visit]
  | x :: l, st => by
    rw [visit]
    simp [S.visit_note l]

/-- C39: each child whose rectangle shares a point with the query is found, once, and no other. -/
theorem C39_found [Zero α] {f : Ix α β} (hw : ∀ x y : β, x ≤ y → f.wide x ≤ f.wide y) {H : HArith α} {Q : Qsort} (hQ : QsortOk Q)
    {rectOf : γ → S.Rect α} {geoms : List γ} {m : Multi α β γ} (h : multiNew f H Q rectOf geoms = some m)
    (hv : ∀ g ∈ geoms, (rectOf g).Valid) (he : ∀ g ∈ geoms, f.Encloses (rectOf g)) (q : S.Rect α) (hq : q.Valid) :
    ∃ found : List (γ × Nat), (geomSearch f rectOf m q (fun g i st => (st ++ [(g, i)], true)) []).map (·.1) = some found ∧
      (found.map (·.2)).Nodup ∧
      ∀ g i, (g, i) ∈ found ↔ geoms[i]? = some g ∧ RectsShare (rectOf g) q := by
  classical
  obtain ⟨order, h1, _, h3⟩ := C39_search hw hQ h hv he
  refine ⟨_, h3 q hq _ _, ?_, ?_⟩
  · have hv : visit (fun (x : γ × Nat) (st : List (γ × Nat)) => (st ++ [(x.1, x.2)], true)) (order.filter fun x => RectsShare (rectOf x.1) q) []
        = order.filter fun x => RectsShare (rectOf x.1) q := visit_note _ _
    rw [hv]
    have hnd : (order.map (·.2)).Nodup := by
      rw [(h1.map (·.2)).nodup_iff]
      rw [List.zipIdx_map_snd]
      exact List.nodup_range'
    exact hnd.sublist (List.filter_sublist.map _)
  · intro g i
    have hv : visit (fun (x : γ × Nat) (st : List (γ × Nat)) => (st ++ [(x.1, x.2)], true)) (order.filter fun x => RectsShare (rectOf x.1) q) []
        = order.filter fun x => RectsShare (rectOf x.1) q := visit_note _ _
    rw [hv, List.mem_filter, h1.mem_iff, List.mem_zipIdx_iff_getElem?]
    simp

/-- C39: the children of an indexed collection are in the order of their Hilbert keys. -/
theorem C39_order [Zero α] {f : Ix α β} {H : HArith α} {Q : Qsort} (hQ : QsortOk Q) {rectOf : γ → S.Rect α} {geoms : List γ}
    {m : Multi α β γ} (h : multiNew f H Q rectOf geoms = some m) (h64 : 64 ≤ geoms.length) :
    ∃ keys : List (BitVec 32), keys.Pairwise (· ≤ ·) ∧ keys.length = m.ixgeoms.length ∧
      ∀ (k : Nat) i, m.ixgeoms[k]? = some i → ∃ g, geoms[i]? = some g ∧
        keys[k]? = pointHilbert H (H.center (rectOf g)) (inflateRect (geoms.map rectOf)) := by
  unfold multiNew at h
  dsimp only at h
  rw [if_pos (by unfold multiSpread; omega)] at h
  cases hh : hildexes H rectOf (inflateRect (geoms.map rectOf)) geoms with
  | none =>
    unfold inflateIndex at h
    rw [hh] at h
    cases h
  | some hx =>
    have hle : ∀ g ∈ geoms, (rectOf g).Le (inflateRect (geoms.map rectOf)) := fun g hg =>
      (inflateRect_spec (geoms.map rectOf)).1 _ (List.mem_map_of_mem hg)
    obtain ⟨m', e, -, -, -, e4, -⟩ := inflateIndex_ok (f := f) hQ (s := multiSpread) (by decide)
      (m := ⟨geoms, inflateRect (geoms.map rectOf), none, []⟩) (by unfold multiSpread; dsimp only; omega) hle hh
    rw [h] at e
    cases e
    obtain ⟨hp, hs⟩ := hQ.hilsort hx
    obtain ⟨hl, hk⟩ := hildexes_some hh
    refine ⟨(Q hilsort hx).map (·.hilbert), ?_, by rw [e4]; simp, ?_⟩
    · rw [List.pairwise_map]; exact hs
    · intro k i hi
      rw [e4, List.getElem?_map] at hi
      cases hq : (Q hilsort hx)[k]? with
      | none => rw [hq] at hi; cases hi
      | some x =>
        rw [hq] at hi
        simp only [Option.map_some, Option.some.injEq] at hi
        have hmem : x ∈ hx := hp.subset (List.mem_of_getElem? hq)
        obtain ⟨j, hj, rfl⟩ := List.mem_iff_getElem.1 hmem
        obtain ⟨y, y1, y2, y3⟩ := hk j geoms[j] (List.getElem?_eq_getElem (by omega))
        rw [List.getElem?_eq_getElem hj] at y1
        cases y1
        have hjl : j < geoms.length := by omega
        refine ⟨geoms[j], by rw [← hi, y2, List.getElem?_eq_getElem hjl], ?_⟩
        rw [List.getElem?_map, hq, y3]
        rfl

/-- A collection is made whenever the Hilbert keys of its children are defined. -/
theorem C39_made [Zero α] {f : Ix α β} {H : HArith α} {Q : Qsort} (hQ : QsortOk Q) {rectOf : γ → S.Rect α} {geoms : List γ}
    (h : geoms.length < 64 ∨ ∀ g ∈ geoms, pointHilbert H (H.center (rectOf g)) (inflateRect (geoms.map rectOf)) ≠ none) :
    ∃ m : Multi α β γ, multiNew f H Q rectOf geoms = some m := by
  unfold multiNew
  dsimp only
  split_ifs with hc
  · rcases h with h | h
    · unfold multiSpread at hc; omega
    · obtain ⟨hx, hh⟩ := hildexes_exists h
      have hle : ∀ g ∈ geoms, (rectOf g).Le (inflateRect (geoms.map rectOf)) := fun g hg =>
        (inflateRect_spec (geoms.map rectOf)).1 _ (List.mem_map_of_mem hg)
      obtain ⟨m', e, -⟩ := inflateIndex_ok (f := f) hQ (s := multiSpread) (by decide)
        (m := ⟨geoms, inflateRect (geoms.map rectOf), none, []⟩) (by dsimp only; omega) hle hh
      exact ⟨m', e⟩
  · exact ⟨_, rfl⟩

end

section
variable {K β γ : Type*} [Field K] [LinearOrder K] [IsStrictOrderedRing K] [FloorRing K] [LinearOrder β]

theorem S.exactH_cell {lo hi v : K} (h : lo < hi) (h1 : lo ≤ v) (h2 : v ≤ hi) : (exactH : HArith K).cell lo hi v ≠ none := by
  have hd : 0 < hi - lo := sub_pos.2 h
  unfold exactH
  dsimp only
  have g0 : 0 ≤ (v - lo) / (hi - lo) := div_nonneg (sub_nonneg.2 h1) hd.le
  have g1 : (v - lo) / (hi - lo) ≤ 1 := (div_le_one hd).2 (by linarith)
  have e0 : 0 ≤ (v - lo) / (hi - lo) * 0xFFFF := by positivity
  have e1 : (v - lo) / (hi - lo) * 0xFFFF ≤ 0xFFFF := by linarith
  rw [if_neg hd.ne', truncInt, if_pos e0, if_pos]
  · simp
  · refine ⟨Int.floor_nonneg.2 e0, ?_⟩
    rw [Int.floor_lt]
    push_cast
    linarith

/-- In exact arithmetic a collection is made unless it has an index and all of its rectangles lie on one vertical or horizontal line. -/
theorem C39_made_exact {f : Ix K β} {Q : Qsort} (hQ : QsortOk Q) {rectOf : γ → S.Rect K} {geoms : List γ}
    (hv : ∀ g ∈ geoms, (rectOf g).Valid)
    (hx : ∃ g ∈ geoms, ∃ g' ∈ geoms, (rectOf g).lo.x < (rectOf g').hi.x)
    (hy : ∃ g ∈ geoms, ∃ g' ∈ geoms, (rectOf g).lo.y < (rectOf g').hi.y) :
    ∃ m : Multi K β γ, multiNew f exactH Q rectOf geoms = some m := by
  refine C39_made hQ (Or.inr fun g hg => ?_)
  have hle : ∀ g ∈ geoms, (rectOf g).Le (inflateRect (geoms.map rectOf)) := fun g hg =>
    (inflateRect_spec (geoms.map rectOf)).1 _ (List.mem_map_of_mem hg)
  generalize inflateRect (geoms.map rectOf) = R at hle
  have hxl : R.lo.x < R.hi.x := by
    obtain ⟨a, ha, b, hb, h⟩ := hx
    exact (hle a ha).1.trans_lt (h.trans_le (hle b hb).2.1)
  have hyl : R.lo.y < R.hi.y := by
    obtain ⟨a, ha, b, hb, h⟩ := hy
    exact (hle a ha).2.2.1.trans_lt (h.trans_le (hle b hb).2.2.2)
  obtain ⟨l1, l2, l3, l4⟩ := hle g hg
  obtain ⟨v1, v2⟩ := hv g hg
  have c1 := exactH_cell (v := ((rectOf g).hi.x + (rectOf g).lo.x) / 2) hxl (by linarith) (by linarith)
  have c2 := exactH_cell (v := ((rectOf g).hi.y + (rectOf g).lo.y) / 2) hyl (by linarith) (by linarith)
  unfold pointHilbert
  have ec : (exactH : HArith K).center (rectOf g) = ⟨((rectOf g).hi.x + (rectOf g).lo.x) / 2, ((rectOf g).hi.y + (rectOf g).lo.y) / 2⟩ := rfl
  rw [ec]
  dsimp only
  cases h1 : (exactH : HArith K).cell R.lo.x R.hi.x (((rectOf g).hi.x + (rectOf g).lo.x) / 2) with
  | none => exact absurd h1 c1
  | some x =>
    cases h2 : (exactH : HArith K).cell R.lo.y R.hi.y (((rectOf g).hi.y + (rectOf g).lo.y) / 2) with
    | none => exact absurd h2 c2
    | some y => simp

/-- 64 or more children on a vertical line: the key divides zero by zero and converts the result to an integer, which is undefined. -/
theorem C39_flat_undefined {f : Ix K β} {Q : Qsort} {rectOf : γ → S.Rect K} {geoms : List γ} (h64 : 64 ≤ geoms.length) {x : K}
    (hx : ∀ g ∈ geoms, (rectOf g).lo.x = x ∧ (rectOf g).hi.x = x) :
    multiNew f exactH Q rectOf geoms = none := by
  unfold multiNew
  dsimp only
  rw [if_pos (by unfold multiSpread; omega)]
  have hR : (inflateRect (geoms.map rectOf)).lo.x = x ∧ (inflateRect (geoms.map rectOf)).hi.x = x := by
    have key : ∀ (rs : List (S.Rect K)) (r : S.Rect K), r.lo.x = x → r.hi.x = x → (∀ q ∈ rs, q.lo.x = x ∧ q.hi.x = x) →
        (rs.foldl S.Rect.inflate r).lo.x = x ∧ (rs.foldl S.Rect.inflate r).hi.x = x := by
      intro rs
      induction rs with
      | nil => intro r h1 h2 _; exact ⟨h1, h2⟩
      | cons q rs ih =>
        intro r h1 h2 h
        obtain ⟨q1, q2⟩ := h q (by simp)
        exact ih _ (by simp [S.Rect.inflate, h1, q1]) (by simp [S.Rect.inflate, h2, q2]) fun t ht => h t (by simp [ht])
    cases geoms with
    | nil => simp at h64
    | cons g gs =>
      obtain ⟨h1, h2⟩ := hx g (by simp)
      exact key _ _ h1 h2 (by
        intro q hq
        obtain ⟨g', hg', rfl⟩ := List.mem_map.1 hq
        exact hx g' (by simp [hg']))
  cases geoms with
  | nil => simp at h64
  | cons g gs =>
    have : hildexes (exactH : HArith K) rectOf (inflateRect ((g :: gs).map rectOf)) (g :: gs) = none := by
      unfold hildexes
      rw [List.zipIdx_cons, List.mapM_cons]
      have : pointHilbert (exactH : HArith K) (exactH.center (rectOf g)) (inflateRect ((g :: gs).map rectOf)) = none := by
        unfold pointHilbert
        rw [hR.1, hR.2]
        have : ∀ v, (exactH : HArith K).cell x x v = none := by
          intro v
          unfold exactH
          dsimp only
          rw [if_pos (sub_self x)]
        rw [this]
      dsimp only
      rw [this]
      rfl
    unfold inflateIndex
    dsimp only
    rw [this]

end

/-- Insertion sort is a `qsort`. -/
def S.insertionQsort : Qsort := fun cmp l => l.insertionSort fun a b => cmp a b ≤ 0

theorem S.insertionQsort_ok : QsortOk insertionQsort := by
  intro cmp h1 h2 h3 l
  refine ⟨List.perm_insertionSort _ _, ?_⟩
  have : Std.Total fun a b => cmp a b ≤ 0 := ⟨fun a b => by have := h2 a b; have := h2 b a; omega⟩
  have : IsTrans Hildex fun a b => cmp a b ≤ 0 := ⟨fun a b c hab hbc => h3 a b c hab hbc⟩
  exact List.pairwise_insertionSort _ _

/-- 80 points on a grid of width 10. -/
def S.grid : List (S.Pt ℚ) := (List.range 80).map fun i => ⟨(i % 10 : ℕ), (i / 10 : ℕ)⟩

/-- What a search of the grid finds, in order. -/
def S.gridFound (q : S.Rect ℚ) : Option (List Nat) :=
  (multiNew (Ix.exact : Ix ℚ ℚ) exactH insertionQsort S.Pt.rect grid).bind fun m =>
    (geomSearch Ix.exact S.Pt.rect m q (fun _ i st => (st ++ [i], true)) []).map (·.1)

/-- The grid has an index, and a search finds the points in the order of the Hilbert curve. -/
example : 64 ≤ S.grid.length ∧ gridFound ⟨⟨2, 3⟩, ⟨4, 4⟩⟩ = some [34, 33, 32, 42, 43, 44] := by
  refine ⟨by decide, ?_⟩
  decide +kernel

end Tg
