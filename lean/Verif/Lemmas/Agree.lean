import Verif.Model.Predicates
import Verif.Model.IndexOpt
import Verif.Lemmas.RingRing
/-! Two arithmetics that agree on the coordinates of the geometries give the same answers, also if the geometries have different indexes. -/
set_option linter.unusedSectionVars false
namespace Tg.S.Ag

variable {α β γ : Type*} [LinearOrder α] [LinearOrder β] [LinearOrder γ]

/-- A point with both coordinates in the set. -/
def PtIn (D : α → Prop) (p : Pt α) : Prop := D p.x ∧ D p.y

def SegIn (D : α → Prop) (s : Seg α) : Prop := PtIn D s.a ∧ PtIn D s.b

/-- The two arithmetics agree on the set. -/
structure Agree (D : α → Prop) (A B : Arith α) (R S : RArith α) : Prop where
  col : ∀ a b p, PtIn D a → PtIn D b → PtIn D p → collinear A a b p = collinear B a b p
  ray : ∀ s p, SegIn D s → PtIn D p → raycast A s p = raycast B s p
  segX : ∀ s t, SegIn D s → SegIn D t → segIntersects A s t = segIntersects B s t
  area : ∀ r : Rect α, PtIn D r.lo → PtIn D r.hi → R.area r = S.area r
  clockwise : ∀ p q r s t, PtIn D p → PtIn D q → PtIn D r → PtIn D s → PtIn D t → R.clockwise [p, q, r, s, t] = S.clockwise [p, q, r, s, t]

/-- Two rings or lines with the same points, in the set. -/
structure Same (D : α → Prop) (r : Ring α β) (s : Ring α γ) : Prop where
  points : r.points = s.points
  npoints : r.npoints = s.npoints
  nsegs : r.nsegs = s.nsegs
  closed : r.closed = s.closed
  rect : r.rect = s.rect
  pts : ∀ p ∈ s.points, PtIn D p
  lo : PtIn D s.rect.lo
  hi : PtIn D s.rect.hi

/-- The point test and the search give the same, too. -/
structure Twin (D : α → Prop) (f : Ix α β) (g : Ix α γ) (A B : Arith α) (r : Ring α β) (s : Ring α γ) : Prop extends Same D r s where
  pip : ∀ p edge, PtIn D p → ringContainsPoint f A r p edge = ringContainsPoint g B s p edge
  search : ∀ (σ : Type) q (it : Iter α σ) st, ringSearch f r q it st = ringSearch g s q it st

variable {D : α → Prop} {A B : Arith α} {R S : RArith α} (h : Agree D A B R S) {f : Ix α β} {g : Ix α γ} {fuel : Nat}

theorem segAt_in {pts : List (Pt α)} (hp : ∀ p ∈ pts, PtIn D p) {i : Nat} {s : Seg α} (hs : segAt pts i = some s) : SegIn D s := by
  unfold segAt at hs
  split at hs
  · next a b ha hb =>
    cases hs
    exact ⟨hp _ (List.mem_of_getElem? ha), hp _ (List.mem_of_getElem? hb)⟩
  · cases hs

theorem Same.empty {r : Ring α β} {s : Ring α γ} (hr : Same D r s) : ringEmpty r = ringEmpty s := by
  unfold ringEmpty
  rw [hr.npoints, hr.closed]

include h

/-! ### Searching -/

omit h in
theorem searchLeaf_congr {σ : Type*} {pts : List (Pt α)} (hpts : ∀ p ∈ pts, PtIn D p) (q : Rect α) {it it' : Iter α σ}
    (hi : ∀ s i st, SegIn D s → it s i st = it' s i st) : searchLeaf pts q it = searchLeaf pts q it' := by
  funext i st
  unfold searchLeaf
  cases hs : segAt pts i with
  | none => rfl
  | some s => simp only [hi s i st (segAt_in hpts hs)]

omit h in
theorem search_congr {σ : Type} {r : Ring α β} {r' : Ring α γ} (hr : Twin D f g A B r r') (q : Rect α) {it it' : Iter α σ}
    (hi : ∀ s i st, SegIn D s → it s i st = it' s i st) (st : σ) : ringSearch f r q it st = ringSearch g r' q it' st := by
  rw [hr.search]
  unfold ringSearch
  rw [searchLeaf_congr hr.pts q hi]

theorem pairLeaf_congr {σ : Type*} {ap bp : List (Pt α)} (ha : ∀ p ∈ ap, PtIn D p) (hb : ∀ p ∈ bp, PtIn D p) {it it' : Iter2 α σ}
    (hi : ∀ s i t j st, SegIn D s → SegIn D t → it s i t j st = it' s i t j st) : pairLeaf A ap bp it = pairLeaf B ap bp it' := by
  funext i j st
  unfold pairLeaf
  cases hs : segAt ap i with
  | none => rfl
  | some s =>
    cases ht : segAt bp j with
    | none => rfl
    | some t =>
      have k1 := segAt_in ha hs
      have k2 := segAt_in hb ht
      simp only [hi s i t j st k1 k2, h.segX s t k1 k2]

theorem ringRingIx_congr {σ : Type*} {ap bp : List (Pt α)} (ha : ∀ p ∈ ap, PtIn D p) (hb : ∀ p ∈ bp, PtIn D p) (an bn asp0 bsp0 : Nat) {it it' : Iter2 α σ}
    (hi : ∀ s i t j st, SegIn D s → SegIn D t → it s i t j st = it' s i t j st) (la lb : List (List (Rect β))) : ∀ (ai asp bi bsp : Nat) (st : σ),
    ringRingIx f A ap bp an bn asp0 bsp0 it la lb ai asp bi bsp st = ringRingIx f B ap bp an bn asp0 bsp0 it' la lb ai asp bi bsp st := by
  have hp := pairLeaf_congr h ha hb hi
  induction la generalizing lb with
  | nil =>
    induction lb with
    | nil =>
      intro ai asp bi bsp st
      rw [ringRingIx, ringRingIx, hp]
    | cons l lbs ih =>
      intro ai asp bi bsp st
      rw [ringRingIx, ringRingIx]
      simp only [ih]
  | cons l las ih =>
    cases lb with
    | nil =>
      intro ai asp bi bsp st
      rw [ringRingIx, ringRingIx]
      simp only [ih]
    | cons m lbs =>
      intro ai asp bi bsp st
      rw [ringRingIx, ringRingIx]
      simp only [ih]

theorem oneIndexBody_congr {σ : Type*} {c d : Ring α β} (hc : ∀ p ∈ c.points, PtIn D p) (hd : ∀ p ∈ d.points, PtIn D p) {it it' : Iter2 α σ}
    (hi : ∀ s i t j st, SegIn D s → SegIn D t → it s i t j st = it' s i t j st) (sw : Bool) :
    oneIndexBody f A c d it sw = oneIndexBody f B c d it' sw := by
  funext i st
  unfold oneIndexBody
  cases hs : segAt d.points i with
  | none => rfl
  | some s =>
    have k1 := segAt_in hd hs
    dsimp only
    unfold ringSearch
    rw [searchLeaf_congr hc _ fun t j st ht => ?_]
    unfold ringRingIter
    rw [h.segX t s ht k1, hi s i t j st k1 ht, hi t j s i st ht k1]

theorem ringRingSearch_congr {σ : Type*} {a b : Ring α β} (ha : ∀ p ∈ a.points, PtIn D p) (hb : ∀ p ∈ b.points, PtIn D p) {it it' : Iter2 α σ}
    (hi : ∀ s i t j st, SegIn D s → SegIn D t → it s i t j st = it' s i t j st) (st : σ) :
    ringRingSearch f A a b it st = ringRingSearch f B a b it' st := by
  unfold ringRingSearch
  rw [pairLeaf_congr h ha hb hi, oneIndexBody_congr h ha hb hi, oneIndexBody_congr h hb ha hi]
  simp only [ringRingIx_congr h ha hb _ _ _ _ hi]

/-! ### Segments and lines -/

theorem segCoversPt_congr {s : Seg α} {p : Pt α} (hs : SegIn D s) (hp : PtIn D p) : segCoversPt A s p = segCoversPt B s p := by
  unfold segCoversPt
  rw [h.col _ _ _ hs.1 hs.2 hp]

theorem segCoversSeg_congr {s t : Seg α} (hs : SegIn D s) (ht : SegIn D t) : segCoversSeg A s t = segCoversSeg B s t := by
  unfold segCoversSeg
  rw [segCoversPt_congr h hs ht.1, segCoversPt_congr h hs ht.2]

theorem lineCoversPt_congr {l : Ring α β} {l' : Ring α γ} (hl : Twin D f g A B l l') {p : Pt α} (hp : PtIn D p) :
    lineCoversPt f A l p = lineCoversPt g B l' p := by
  unfold lineCoversPt
  rw [search_congr hl p.rect (it' := coversPtIter B p) fun s i st hs => by unfold coversPtIter; rw [segCoversPt_congr h hs hp]]

theorem firstCovering_congr {a : Ring α β} {a' : Ring α γ} (ha : Same D a a') {b0 : Seg α} (hb : SegIn D b0) : ∀ l : List Nat,
    firstCovering A a b0 l = firstCovering B a' b0 l
  | [] => rfl
  | k :: ks => by
    unfold firstCovering
    rw [ha.points]
    cases hs : segAt a'.points k with
    | none => rfl
    | some s =>
      dsimp only
      rw [segCoversSeg_congr h (segAt_in ha.pts hs) hb, firstCovering_congr ha hb ks]

theorem coversLoop_congr {a b : Ring α β} {a' b' : Ring α γ} (ha : Same D a a') (hb : Same D b b') : ∀ n i j : Nat,
    coversLoop A a b n i j = coversLoop B a' b' n i j
  | 0, _, _ => rfl
  | n + 1, i, j => by
    unfold coversLoop
    simp only [coversLoop_congr ha hb n]
    rw [ha.points, hb.points, ha.nsegs, hb.nsegs]
    cases hs : segAt a'.points j with
    | none => rfl
    | some s =>
      cases ht : segAt b'.points i with
      | none => rfl
      | some t =>
        dsimp only
        rw [segCoversSeg_congr h (segAt_in ha.pts hs) (segAt_in hb.pts ht)]

theorem lineCoversLine_congr {a b : Ring α β} {a' b' : Ring α γ} (ha : Same D a a') (hb : Same D b b') :
    lineCoversLine A fuel a b = lineCoversLine B fuel a' b' := by
  unfold lineCoversLine
  rw [ha.empty, hb.empty, ha.rect, hb.rect, hb.points, ha.nsegs]
  cases hs : segAt b'.points 0 with
  | none => rfl
  | some s =>
    dsimp only
    rw [firstCovering_congr h ha (segAt_in hb.pts hs)]
    simp only [coversLoop_congr h ha hb]

/-! ### Rings and segments -/

theorem interIter_congr {s : Seg α} (hs : SegIn D s) (edge : Bool) (t : Seg α) (i : Nat) (st : InterSt) (ht : SegIn D t) :
    interIter A s edge t i st = interIter B s edge t i st := by
  unfold interIter
  rw [h.segX s t hs ht, h.col _ _ _ hs.1 hs.2 ht.1, h.col _ _ _ hs.1 hs.2 ht.2]

theorem ringXSeg_congr {r : Ring α β} {r' : Ring α γ} (hr : Twin D f g A B r r') {s : Seg α} (hs : SegIn D s) (edge : Bool) :
    ringXSeg f A r s edge = ringXSeg g B r' s edge := by
  unfold ringXSeg
  rw [hr.pip _ _ hs.1, hr.pip _ _ hs.2, search_congr hr s.rect (interIter_congr h hs edge), hr.rect]

theorem noneMeets_congr {r : Ring α β} {r' : Ring α γ} (hr : Twin D f g A B r r') {s : Seg α} (hs : SegIn D s) {t t' : Seg α → Bool}
    (ht : ∀ u, SegIn D u → t u = t' u) : noneMeets f A r s t = noneMeets g B r' s t' := by
  unfold noneMeets
  rw [search_congr hr s.rect (it' := contIter B s t') fun u i st hu => by unfold contIter; rw [h.segX s u hs hu, ht u hu]]

theorem offSeg_congr {s : Seg α} (hs : SegIn D s) {p : Pt α} (hp : PtIn D p) : offSeg A s p = offSeg B s p := by
  unfold offSeg
  rw [h.ray s p hs hp]

theorem containsEdge_congr {r : Ring α β} {r' : Ring α γ} (hr : Twin D f g A B r r') {s : Seg α} (hs : SegIn D s) (cw : Bool) (ia ib : Option Nat) :
    containsEdge f A R cw r s ia ib = containsEdge g B S cw r' s ia ib := by
  unfold containsEdge
  rw [noneMeets_congr h hr hs (t' := fun t => offSeg B t s.a && offSeg B t s.b) fun u hu => by
      rw [offSeg_congr h hu hs.1, offSeg_congr h hu hs.2],
    noneMeets_congr h hr hs (t' := fun t => offSeg B t s.a) fun u hu => by rw [offSeg_congr h hu hs.1],
    noneMeets_congr h hr hs (t' := fun t => offSeg B t s.b) fun u hu => by rw [offSeg_congr h hu hs.2],
    noneMeets_congr h hr hs (t' := fun t => offSeg B s t.a && offSeg B s t.b) fun u hu => by
      rw [offSeg_congr h hs hu.1, offSeg_congr h hs hu.2]]
  match ia, ib with
  | some ia, some ib =>
    dsimp only
    rw [hr.points]
    cases k1 : segAt r'.points ia with
    | none => rfl
    | some sa =>
      cases k2 : segAt r'.points ib with
      | none => rfl
      | some sb =>
        have k1 := segAt_in hr.pts k1
        have k2 := segAt_in hr.pts k2
        dsimp only
        by_cases hlt : ib < ia
        · simp only [hlt, if_true]
          rw [h.clockwise _ _ _ _ _ k2.1 k2.2 k1.1 k1.2 k2.1]
        · simp only [hlt, if_false]
          rw [h.clockwise _ _ _ _ _ k1.1 k1.2 k2.1 k2.2 k1.1]
  | some _, none => rfl
  | none, some _ => rfl
  | none, none => rfl

theorem ringHasSeg_congr {r : Ring α β} {r' : Ring α γ} (hr : Twin D f g A B r r') {s : Seg α} (hs : SegIn D s) (cv cw edge : Bool) :
    ringHasSeg f A R cv cw r s edge = ringHasSeg g B S cv cw r' s edge := by
  unfold ringHasSeg
  rw [hr.pip _ _ hs.1, hr.pip _ _ hs.2, noneMeets_congr h hr hs (t' := fun _ => true) fun _ _ => rfl, hr.rect]
  simp only [containsEdge_congr h hr hs]

omit h in
theorem anySeg_congr {pts : List (Pt α)} (hp : ∀ p ∈ pts, PtIn D p) {P Q : Seg α → Option Bool} (hPQ : ∀ s, SegIn D s → P s = Q s) :
    ∀ l : List Nat, anySeg pts P l = anySeg pts Q l
  | [] => rfl
  | i :: is => by
    unfold anySeg
    cases hs : segAt pts i with
    | none => rfl
    | some s =>
      dsimp only
      rw [hPQ s (segAt_in hp hs), anySeg_congr hp hPQ is]

omit h in
theorem allSeg_congr {pts : List (Pt α)} (hp : ∀ p ∈ pts, PtIn D p) {P Q : Seg α → Option Bool} (hPQ : ∀ s, SegIn D s → P s = Q s) :
    ∀ l : List Nat, allSeg pts P l = allSeg pts Q l
  | [] => rfl
  | i :: is => by
    unfold allSeg
    cases hs : segAt pts i with
    | none => rfl
    | some s =>
      dsimp only
      rw [hPQ s (segAt_in hp hs), allSeg_congr hp hPQ is]

omit h in
theorem allPts_congr {P Q : Pt α → Option Bool} : ∀ {l : List (Pt α)}, (∀ p ∈ l, PtIn D p) → (∀ p, PtIn D p → P p = Q p) → allPts P l = allPts Q l
  | [], _, _ => rfl
  | p :: ps, hl, hPQ => by
    unfold allPts
    rw [hPQ p (hl p (by simp)), allPts_congr (fun q hq => hl q (by simp [hq])) hPQ]

omit h in
theorem Same.take {r : Ring α β} {r' : Ring α γ} (hr : Same D r r') (n : Nat) : ∀ p ∈ r'.points.take n, PtIn D p :=
  fun p hp => hr.pts p (List.mem_of_mem_take hp)

/-! ### Rings, lines and rings -/

theorem ringHasRing_congr {a b : Ring α β} {a' b' : Ring α γ} (ha : Twin D f g A B a a') (hb : Same D b b') (cv cw edge : Bool) :
    ringHasRing f A R cv cw a b edge = ringHasRing g B S cv cw a' b' edge := by
  unfold ringHasRing
  rw [ha.empty, hb.empty, ha.rect, hb.rect, hb.points, hb.npoints, hb.nsegs,
    allPts_congr (Q := fun p => (ringContainsPoint g B a' p edge).map (·.1)) (hb.take _) fun p hp => by rw [ha.pip _ _ hp],
    allSeg_congr hb.pts fun s hs => ringHasSeg_congr h ha hs cv cw edge]

theorem anyXSeg_congr {a b : Ring α β} {a' b' : Ring α γ} (ha : Twin D f g A B a a') (hb : Same D b b') (edge : Bool) :
    anyXSeg f A a b edge = anyXSeg g B a' b' edge := by
  unfold anyXSeg
  rw [hb.points, hb.nsegs, anySeg_congr hb.pts fun s hs => ringXSeg_congr h ha hs edge]

theorem ringXRing_congr {a b : Ring α β} {a' b' : Ring α γ} (ha : Twin D f g A B a a') (hb : Twin D f g A B b b') (edge : Bool) :
    ringXRing f A R a b edge = ringXRing g B S a' b' edge := by
  unfold ringXRing
  rw [anyXSeg_congr h ha hb.toSame, anyXSeg_congr h hb ha.toSame, ha.empty, hb.empty, ha.rect, hb.rect, h.area _ ha.lo ha.hi, h.area _ hb.lo hb.hi]

theorem ringHasLine_congr {a b : Ring α β} {a' b' : Ring α γ} (ha : Twin D f g A B a a') (hb : Same D b b') (cv cw edge bd : Bool) :
    ringHasLine f A R cv cw a b edge bd = ringHasLine g B S cv cw a' b' edge bd := by
  unfold ringHasLine
  rw [ha.empty, hb.empty, ha.rect, hb.rect, hb.points, hb.nsegs, allSeg_congr hb.pts fun s hs => ringHasSeg_congr h ha hs cv cw edge]
  congr 3
  refine allSeg_congr hb.pts (fun s hs => ?_) _
  rw [ringHasSeg_congr h ha hs cv cw true, ringXSeg_congr h ha hs false]

theorem ringXLine_congr {a b : Ring α β} {a' b' : Ring α γ} (ha : Twin D f g A B a a') (hb : Same D b b') (edge : Bool) :
    ringXLine f A a b edge = ringXLine g B a' b' edge := by
  unfold ringXLine
  rw [anyXSeg_congr h ha hb, ha.empty, hb.empty, ha.rect, hb.rect]

/-! ### Loops -/

omit h in
theorem anyOf_congr {δ ε : Type*} {t : δ → Option Bool} {t' : ε → Option Bool} {T : δ → ε → Prop} (ht : ∀ x y, T x y → t x = t' y) :
    ∀ {l : List δ} {l' : List ε}, List.Forall₂ T l l' → anyOf t l = anyOf t' l'
  | _, _, .nil => rfl
  | _, _, .cons hx hl => by rw [anyOf, anyOf, ht _ _ hx, anyOf_congr ht hl]

omit h in
theorem allOf_congr {δ ε : Type*} {t : δ → Option Bool} {t' : ε → Option Bool} {T : δ → ε → Prop} (ht : ∀ x y, T x y → t x = t' y) :
    ∀ {l : List δ} {l' : List ε}, List.Forall₂ T l l' → allOf t l = allOf t' l'
  | _, _, .nil => rfl
  | _, _, .cons hx hl => by rw [allOf, allOf, ht _ _ hx, allOf_congr ht hl]

omit h in
theorem anyPt_congr {t t' : Pt α → Option Bool} (ht : ∀ p, PtIn D p → t p = t' p) : ∀ {l : List (Pt α)}, (∀ p ∈ l, PtIn D p) → anyOf t l = anyOf t' l
  | [], _ => rfl
  | p :: ps, hl => by rw [anyOf, anyOf, ht p (hl p (by simp)), anyPt_congr ht fun q hq => hl q (by simp [hq])]

omit h in
theorem inHole_congr {t : FRing α β → Option Bool} {t' : FRing α γ → Option Bool} {u : FRing α β → Option Bool} {u' : FRing α γ → Option Bool}
    {T : FRing α β → FRing α γ → Prop} (ht : ∀ x y, T x y → t x = t' y) (hu : ∀ x y, T x y → u x = u' y) {e e' : Option Bool} (he : e = e') :
    ∀ {l : List (FRing α β)} {l' : List (FRing α γ)}, List.Forall₂ T l l' → inHole t u e l = inHole t' u' e' l'
  | _, _, .nil => he
  | _, _, .cons hx hl => by rw [inHole, inHole, ht _ _ hx, hu _ _ hx, inHole_congr ht hu he hl]

/-! ### Pairs of lines -/

omit h in
/-- What is true of the two lines, in addition. -/
structure TwinL (D : α → Prop) (f : Ix α β) (g : Ix α γ) (A B : Arith α) (r : Ring α β) (s : Ring α γ) : Prop extends Twin D f g A B r s where
  built : ∃ pts sp, RingOk f pts false sp r ∧ RingOk g pts false sp s ∧ f.Tight (segments pts false) ∧ g.Tight (segments pts false)

omit h in
theorem leaves_open (pts : List (Pt α)) (sp : Nat) : LeavesCover pts false sp := by
  cases pts with
  | nil => right; simp
  | cons a l => left; rw [segments]; simp [edges_length]

omit h in
theorem ne_nil_iff {δ : Type*} (l : List δ) : l ≠ [] ↔ ∃ x, x ∈ l := by
  cases l with
  | nil => simp
  | cons a l => simp

omit h in
theorem visitB_touch (t : Pair α → Bool) : ∀ (l : List (Pair α)) (b : Bool),
    (visitB (fun s i u j (_ : Bool) => if t ((s, i), (u, j)) then (true, true) else (false, false)) l b).1 = true ↔
      (l = [] ∧ b = true) ∨ (l ≠ [] ∧ ∀ x ∈ l, t x = true)
  | [], b => by simp [visitB]
  | x :: l, b => by
    rw [visitB]
    by_cases hx : t ((x.1.1, x.1.2), (x.2.1, x.2.2)) = true
    · rw [if_pos hx]
      dsimp only
      rw [visitB_touch t l true]
      have hx : t x = true := hx
      by_cases hl : l = []
      · subst hl; simp [hx]
      · simp [hl, hx]
    · rw [if_neg hx]
      have hx : ¬ t x = true := hx
      simp [hx]

omit h in
theorem visitB_first : ∀ (l : List (Pair α)), (visitB (fun _ _ _ _ (_ : Bool) => (true, false)) l false).1 = true ↔ l ≠ []
  | [] => by simp [visitB]
  | x :: l => by simp [visitB]

section
variable (hf : f.Lawful) (hg : g.Lawful) (hB : ∀ s t, B.segX s t = B.segX t s)
include hf hg hB

/-- The two searches deliver the same pairs. -/
theorem pairs_congr {a b : Ring α β} {a' b' : Ring α γ} (ha : TwinL D f g A B a a') (hb : TwinL D f g A B b b') (it it' : Iter2 α Bool)
    (hi : ∀ s i t j st, SegIn D s → SegIn D t → it s i t j st = it' s i t j st) :
    ∃ l l' : List (Pair α), (∀ x, x ∈ l ↔ x ∈ l') ∧ ringRingSearch f A a b it false = some (visitB it' l false) ∧
      ringRingSearch g B a' b' it' false = some (visitB it' l' false) := by
  obtain ⟨pa, sa, a1, a2, a3, a4⟩ := ha.built
  obtain ⟨pb, sb, b1, b2, b3, b4⟩ := hb.built
  obtain ⟨l, -, h1, h2⟩ := ringRingSearch_del.{0} hf hB a1 b1 (.inl (leaves_open _ _)) (.inl (leaves_open _ _)) a3 b3
  obtain ⟨l', -, h3, h4⟩ := ringRingSearch_del.{0} hg hB a2 b2 (.inl (leaves_open _ _)) (.inl (leaves_open _ _)) a4 b4
  refine ⟨l, l', fun x => by rw [h1, h3], ?_, h4 _ _ _⟩
  rw [ringRingSearch_congr h (by rw [ha.points]; exact ha.pts) (by rw [hb.points]; exact hb.pts) hi]
  exact h2 _ _ _

theorem lineXLine_congr {a b : Ring α β} {a' b' : Ring α γ} (ha : TwinL D f g A B a a') (hb : TwinL D f g A B b b') :
    lineXLine ⟨f, A, R, fuel⟩ a b = lineXLine ⟨g, B, S, fuel⟩ a' b' := by
  unfold lineXLine
  dsimp only
  obtain ⟨l, l', k1, k2, k3⟩ := pairs_congr h hf hg hB ha hb _ (fun _ _ _ _ _ => (true, false)) fun _ _ _ _ _ _ _ => rfl
  rw [k2, k3]
  simp only [Option.map_some, Option.some.injEq]
  rw [Bool.eq_iff_iff, visitB_first, visitB_first, ne_nil_iff, ne_nil_iff]
  simp only [k1]

theorem segTouches0_congr {s : Seg α} {a b : Pt α} (hs : SegIn D s) (ha : PtIn D a) (hb : PtIn D b) : segTouches0 A s a b = segTouches0 B s a b := by
  unfold segTouches0
  rw [segCoversPt_congr h hs ha, h.col _ _ _ hs.1 hs.2 hb, segCoversPt_congr h (s := ⟨a, b⟩) ⟨ha, hb⟩ hs.1, segCoversPt_congr h (s := ⟨a, b⟩) ⟨ha, hb⟩ hs.2]

theorem anyTouching_congr {s t : Seg α} (hs : SegIn D s) (ht : SegIn D t) (i n j m : Nat) : anyTouching A s i n t j m = anyTouching B s i n t j m := by
  unfold anyTouching
  rw [segTouches0_congr h hf hg hB ht hs.1 hs.2, segTouches0_congr h hf hg hB ht hs.2 hs.1, segTouches0_congr h hf hg hB hs ht.1 ht.2,
    segTouches0_congr h hf hg hB hs ht.2 ht.1]

theorem lineTouchesLine_congr {a b : Ring α β} {a' b' : Ring α γ} (ha : TwinL D f g A B a a') (hb : TwinL D f g A B b b') :
    lineTouchesLine ⟨f, A, R, fuel⟩ a b = lineTouchesLine ⟨g, B, S, fuel⟩ a' b' := by
  unfold lineTouchesLine
  dsimp only
  rw [ha.nsegs, hb.nsegs]
  obtain ⟨l, l', k1, k2, k3⟩ := pairs_congr h hf hg hB ha hb (fun s i t j _ => if anyTouching A s i a'.nsegs t j b'.nsegs then (true, true) else (false, false))
    (fun s i t j _ => if anyTouching B s i a'.nsegs t j b'.nsegs then (true, true) else (false, false)) fun s i t j st hs ht => by
      rw [anyTouching_congr h hf hg hB hs ht]
  rw [k2, k3]
  simp only [Option.map_some, Option.some.injEq]
  rw [Bool.eq_iff_iff, visitB_touch (fun x => anyTouching B x.1.1 x.1.2 a'.nsegs x.2.1 x.2.2 b'.nsegs),
    visitB_touch (fun x => anyTouching B x.1.1 x.1.2 a'.nsegs x.2.1 x.2.2 b'.nsegs), ne_nil_iff, ne_nil_iff]
  simp only [k1, Bool.false_eq_true, and_false, false_or]

end

end Tg.S.Ag
