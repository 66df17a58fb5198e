import Verif.Lemmas.PlaneRing
import Verif.Lemmas.Predicates
import Verif.Lemmas.Agree
import Verif.Lemmas.Relate
/-! Vertices that two geometries share are found whatever the arithmetic does. -/
set_option linter.unusedSectionVars false
namespace Tg.S.Sh

variable {α β : Type*} [LinearOrder α] [LinearOrder β]

/-! ### Segments -/

theorem col_left (A : Arith α) (a b : Pt α) : collinear A a b a = true := by
  have h1 : feq a.x a.x = true := (feq_iff _ _).2 rfl
  have h2 : feq a.y a.y = true := (feq_iff _ _).2 rfl
  unfold collinear
  rw [h1, h2]
  split_ifs <;> simp_all

theorem col_right (A : Arith α) (a b : Pt α) : collinear A a b b = true := by
  have h1 : feq b.x b.x = true := (feq_iff _ _).2 rfl
  have h2 : feq b.y b.y = true := (feq_iff _ _).2 rfl
  unfold collinear
  rw [h1, h2]
  split_ifs <;> simp_all

theorem rect_a (s : Seg α) : s.rect.Has s.a := ⟨min_le_left _ _, le_max_left _ _, min_le_left _ _, le_max_left _ _⟩
theorem rect_b (s : Seg α) : s.rect.Has s.b := ⟨min_le_right _ _, le_max_right _ _, min_le_right _ _, le_max_right _ _⟩

theorem covers_end (A : Arith α) {s : Seg α} {v : Pt α} (h : v = s.a ∨ v = s.b) : segCoversPt A s v = true := by
  unfold segCoversPt
  rcases h with rfl | rfl
  · rw [(coversPt_iff _ _).2 (rect_a s), col_left]; rfl
  · rw [(coversPt_iff _ _).2 (rect_b s), col_right]; rfl

theorem end_has {s : Seg α} {v : Pt α} (h : v = s.a ∨ v = s.b) : s.rect.Has v := by
  rcases h with rfl | rfl
  exacts [rect_a s, rect_b s]

theorem ray_end (A : Arith α) {s : Seg α} {v : Pt α} (h : v = s.a ∨ v = s.b) : raycast A s v = .on := by
  have hh := end_has h
  have hm : ∀ a b : Pt α, v = a ∨ v = b → raycastMid A s.rect a b v = .on := by
    intro a b h
    unfold raycastMid
    rw [if_pos]
    rw [Bool.or_eq_true, pteq_iff, pteq_iff]
    exact h
  unfold raycast
  dsimp only
  rw [if_neg (by rw [not_or, not_lt, gt_iff_lt, not_lt]; exact ⟨hh.2.2.1, hh.2.2.2⟩), if_neg (fun c => absurd c.1 (not_lt.2 hh.1)),
    if_neg (fun c => absurd c.1 (not_lt.2 hh.2.1))]
  split_ifs
  · exact hm _ _ h.symm
  · exact hm _ _ h

theorem has_meets {r q : Rect α} {v : Pt α} (h1 : r.Has v) (h2 : q.Has v) : r.intersects q = true := by
  rw [intersects_iff]
  exact ⟨h2.1.trans h1.2.1, h1.1.trans h2.2.1, h2.2.2.1.trans h1.2.2.2, h1.2.2.1.trans h2.2.2.2⟩

theorem meet_end (A : Arith α) {s t : Seg α} {v : Pt α} (h : v = s.a ∨ v = s.b) (h' : v = t.a ∨ v = t.b) : segIntersects A s t = true := by
  unfold segIntersects
  rw [has_meets (end_has h) (end_has h'), if_neg (by simp), if_pos]
  simp only [Bool.or_eq_true, pteq_iff]
  rcases h with rfl | rfl <;> rcases h' with h' | h' <;> simp [h']

/-- Every vertex is the end of a segment. -/
theorem vertex_seg {pts : List (Pt α)} {closed : Bool} (h2 : 2 ≤ pts.length) (h3 : closed = true → 3 ≤ pts.length) {v : Pt α} (hv : v ∈ pts) :
    ∃ s ∈ segments pts closed, v = s.a ∨ v = s.b := by
  have on : ∀ (l : List (Pt α)) (x : Pt α), ∀ v ∈ x :: l, l ≠ [] → ∃ s ∈ edges (x :: l), v = s.a ∨ v = s.b := by
    intro l
    induction l with
    | nil => intro x v _ h; exact absurd rfl h
    | cons y l ih =>
      intro x v hv _
      have e : edges (x :: y :: l) = ⟨x, y⟩ :: edges (y :: l) := rfl
      rw [e]
      rcases List.mem_cons.1 hv with rfl | hv
      · exact ⟨⟨v, y⟩, by simp, .inl rfl⟩
      · rcases List.mem_cons.1 hv with rfl | hv'
        · exact ⟨⟨x, v⟩, by simp, .inr rfl⟩
        · obtain ⟨s, h1, h2⟩ := ih y v (by simp [hv']) (by rintro rfl; simp at hv')
          exact ⟨s, by simp [h1], h2⟩
  have two : ∀ l : List (Pt α), 2 ≤ l.length → v ∈ l → ∃ s ∈ edges l, v = s.a ∨ v = s.b := by
    intro l hl hv
    match l, hl with
    | a :: b :: t, _ => exact on (b :: t) a v hv (by simp)
  unfold segments
  split_ifs with c1 c2 c3
  · exact two _ h2 hv
  · have := h3 (by simpa using c1); omega
  · exact two _ h2 hv
  · exact two _ (by simp; omega) (by simp [hv])

/-! ### Lines -/

theorem leaves_line {pts : List (Pt α)} {sp : Nat} : LeavesCover pts false sp := by
  cases pts with
  | nil => right; simp
  | cons a l => left; rw [segments]; simp [edges_length]

theorem pip_on {A : Arith α} {p : Pt α} {edge : Bool} : ∀ (l : List (Seg α × Nat)) (st : Pip), ((∃ i, st = (edge, some i)) ∨ ∃ x ∈ l, raycast A x.1 p = .on) →
    ∃ i, pipAll A p edge l st = (edge, some i)
  | [], st, h => by
    rcases h with h | ⟨x, hx, -⟩
    · exact h
    · cases hx
  | (s, i) :: rest, st, h => by
    rw [pipAll]
    refine pip_on rest _ ?_
    unfold pipSlow
    rcases h with ⟨j, rfl⟩ | ⟨x, hx, hon⟩
    · left
      cases raycast A s p with
      | out => exact ⟨j, rfl⟩
      | in_ => exact ⟨j, by simp⟩
      | on => exact ⟨i, rfl⟩
    · rcases List.mem_cons.1 hx with rfl | hx
      · left
        rw [hon]
        exact ⟨i, rfl⟩
      · exact .inr ⟨x, hx, hon⟩

/-! ### Rings -/

variable [Zero α]

/-- What is needed of a ring: its index finds every segment (C22), and its stripe numbers are defined and grow with `y`. -/
structure Sound (f : Ix α β) (A : Arith α) (e : Env) (pts : List (Pt α)) (ix : BitVec 32) (r : Ring α β) : Prop where
  ok : e.Ok
  made : newIx f A e pts true ix = some r
  leaves : LeavesCover pts true (spreadOf e ix) ∨ r.index = none
  law : r.ystripes ≠ none → StripeOk A r.rect.lo.y r.rect.hi.y (stripesOf A pts)

/-- The vertex has a segment that is in a stripe. -/
def Held (A : Arith α) (pts : List (Pt α)) (r : Ring α β) (v : Pt α) : Prop :=
  r.ystripes ≠ none → ∃ s ∈ segments pts true, (v = s.a ∨ v = s.b) ∧
    ∀ k, A.stripe r.rect.lo.y r.rect.hi.y (stripesOf A pts) (min s.a.y s.b.y) = some k → k < stripesOf A pts

variable {f : Ix α β} (hf : f.Lawful) {A : Arith α} {e : Env} {pts : List (Pt α)} {ix : BitVec 32} {r : Ring α β}
include hf

/-- The test of a point looks at a part of the segments. -/
theorem pip_part (h : Sound f A e pts ix r) (h2 : 2 ≤ pts.length) (p : Pt α) (hp : r.rect.coversPt p = true) (edge : Bool) :
    ∃ l : List (Seg α × Nat), ringContainsPoint f A r p edge = some (pipAll A p edge l (false, none)) ∧
      ∀ s ∈ segments pts true, min s.a.y s.b.y ≤ p.y → p.y ≤ max s.a.y s.b.y →
        (r.ystripes ≠ none → ∀ k, A.stripe r.rect.lo.y r.rect.hi.y (stripesOf A pts) (min s.a.y s.b.y) = some k → k < stripesOf A pts) →
        ∃ i, (s, i) ∈ l := by
  obtain ⟨h1, -, -, h4⟩ := newIx_some hf h.ok h.made
  cases hy : r.ystripes with
  | none =>
    refine ⟨(segments pts true).zipIdx, ?_, fun s hs _ _ _ => ?_⟩
    · rw [ringContainsPoint_eq hf h1 h2 (by simp [hy]) (by rcases h.leaves with c | c; exacts [.inl c, .inr (.inl c)]) p edge (by simp [hy]), hp]
      rfl
    · obtain ⟨i, hi⟩ := List.mem_iff_getElem?.1 hs
      exact ⟨i, List.mem_zipIdx_iff_getElem?.2 hi⟩
  | some st =>
    have hlaw := h.law (by simp [hy])
    obtain ⟨s1, s2⟩ := processStripes_some (h4 st hy)
    have hn : 0 < stripesOf A pts := by unfold stripesOf; omega
    have hp' := (coversPt_iff _ _).1 hp
    obtain ⟨k, hk⟩ := hlaw.some p.y hp'.2.2.1 hp'.2.2.2
    have hlt : (clampStripe k (stripesOf A pts)).toNat < stripesOf A pts := by
      rw [clampStripe]
      omega
    refine ⟨(segments pts true).zipIdx.filter fun x => inStripe A r.rect (stripesOf A pts) x.1 (clampStripe k (stripesOf A pts)).toNat, ?_, ?_⟩
    · unfold ringContainsPoint
      rw [hp, hy]
      simp only [Bool.not_true, Bool.false_eq_true, ↓reduceIte, s1]
      rw [hk]
      dsimp only
      rw [s2 _ hlt]
      dsimp only
      refine stripeLoop_all _ _ fun x hx => ?_
      have := List.mem_zipIdx_iff_getElem?.1 (List.mem_of_mem_filter hx)
      have hl : x.2 < (segments pts true).length := by
        by_contra hc
        rw [List.getElem?_eq_none (by omega)] at this
        cases this
      rw [h1.segAt hl, ← this, List.getElem?_eq_getElem hl]
    · intro s hs g1 g2 g3
      obtain ⟨i, hi⟩ := List.mem_iff_getElem?.1 hs
      obtain ⟨ma, mb⟩ := seg_mem_pts hs
      refine ⟨i, List.mem_filter.2 ⟨List.mem_zipIdx_iff_getElem?.2 hi, ?_⟩⟩
      refine inStripe_of_y (segs := [s]) hn hlaw (by simp) (.inr ?_) (h1.rect_has h2 _ ma) (h1.rect_has h2 _ mb) hk g1 g2
      intro t ht j hj
      rw [List.mem_singleton] at ht
      subst ht
      exact g3 (by simp) j hj

/-- The test of a point is defined. -/
theorem pip_some (h : Sound f A e pts ix r) (h2 : 2 ≤ pts.length) (p : Pt α) (edge : Bool) : ∃ b, ringContainsPoint f A r p edge = some b := by
  by_cases hp : r.rect.coversPt p = true
  · obtain ⟨l, hl, -⟩ := pip_part hf h h2 p hp edge
    exact ⟨_, hl⟩
  · refine ⟨(false, none), ?_⟩
    unfold ringContainsPoint
    rw [Bool.not_eq_true] at hp
    rw [hp]
    rfl

/-- A vertex is on the ring. -/
theorem pip_vertex (h : Sound f A e pts ix r) (h3 : 3 ≤ pts.length) {v : Pt α} (hv : v ∈ pts) (hh : Held A pts r v) (edge : Bool) :
    ∃ i, ringContainsPoint f A r v edge = some (edge, some i) := by
  obtain ⟨h1, -⟩ := newIx_some hf h.ok h.made
  obtain ⟨l, l1, l2⟩ := pip_part hf h (by omega) v ((coversPt_iff _ _).2 (h1.rect_has (by omega) v hv)) edge
  obtain ⟨s, hs, he, hk⟩ : ∃ s ∈ segments pts true, (v = s.a ∨ v = s.b) ∧ (r.ystripes ≠ none → ∀ k,
      A.stripe r.rect.lo.y r.rect.hi.y (stripesOf A pts) (min s.a.y s.b.y) = some k → k < stripesOf A pts) := by
    by_cases hy : r.ystripes = none
    · obtain ⟨s, hs, he⟩ := vertex_seg (closed := true) (by omega) (fun _ => h3) hv
      exact ⟨s, hs, he, fun c => absurd hy c⟩
    · obtain ⟨s, hs, he, hk⟩ := hh hy
      exact ⟨s, hs, he, fun _ => hk⟩
  have hb := end_has he
  obtain ⟨i, hi⟩ := l2 s hs hb.2.2.1 hb.2.2.2 hk
  obtain ⟨j, hj⟩ := pip_on (edge := edge) l (false, none) (.inr ⟨_, hi, ray_end A he⟩)
  exact ⟨j, by rw [l1, hj]⟩

theorem search_some (h : Sound f A e pts ix r) (q : Rect α) {σ : Type*} (iter : Iter α σ) (st : σ) : ∃ x, ringSearch f r q iter st = some x := by
  obtain ⟨h1, -⟩ := newIx_some hf h.ok h.made
  rw [ringSearch_eq hf h1 h.leaves, h1.nsegs_eq]
  suffices ∀ (k i : Nat) (st : σ), i + k ≤ (segments pts true).length → ∃ x, forRange (searchLeaf r.points q iter) i k st = some x from
    this _ 0 st (by omega)
  intro k
  induction k with
  | zero => intro i st _; exact ⟨_, rfl⟩
  | succ k ih =>
    intro i st hi
    rw [forRange, searchLeaf, h1.segAt (by omega : i < (segments pts true).length)]
    dsimp only
    split_ifs with hq
    · rcases iter (segments pts true)[i] i st with ⟨st', _ | _⟩
      · exact ⟨_, rfl⟩
      · exact ih _ _ (by omega)
    · exact ih _ _ (by omega)

theorem xSeg_some (h : Sound f A e pts ix r) (h2 : 2 ≤ pts.length) (s : Seg α) (edge : Bool) : ∃ b, ringXSeg f A r s edge = some b := by
  unfold ringXSeg
  split_ifs
  · exact ⟨_, rfl⟩
  · obtain ⟨ra, ha⟩ := pip_some hf h h2 s.a edge
    obtain ⟨rb, hb⟩ := pip_some hf h h2 s.b edge
    obtain ⟨x, hx⟩ := search_some hf h s.rect (interIter A s edge) ⟨0, false, false⟩
    rw [ha, hb, hx]
    dsimp only
    split_ifs <;> exact ⟨_, rfl⟩

/-- A segment that ends at a vertex meets the ring. -/
theorem xSeg_vertex (h : Sound f A e pts ix r) (h3 : 3 ≤ pts.length) {v : Pt α} (hv : v ∈ pts) (hh : Held A pts r v) {s : Seg α} (hs : v = s.a ∨ v = s.b) :
    ringXSeg f A r s true = some true := by
  obtain ⟨h1, -⟩ := newIx_some hf h.ok h.made
  obtain ⟨i, hi⟩ := pip_vertex hf h h3 hv hh true
  unfold ringXSeg
  rw [has_meets (end_has hs) (h1.rect_has (by omega) v hv)]
  simp only [Bool.not_true, Bool.false_eq_true, if_false]
  obtain ⟨ra, ha⟩ := pip_some hf h (by omega) s.a true
  rcases hs with rfl | rfl
  · rw [hi]
    rfl
  · rw [ha]
    dsimp only
    split_ifs
    · rfl
    · rw [hi]
      rfl

/-- The loop over the segments of another series that has the vertex. -/
theorem anyX_vertex (h : Sound f A e pts ix r) (h3 : 3 ≤ pts.length) {v : Pt α} (hv : v ∈ pts) (hh : Held A pts r v) {qts : List (Pt α)} {closed : Bool}
    {sp : Nat} {o : Ring α β} (ho : RingOk f qts closed sp o) (h2 : 2 ≤ qts.length) (hc : closed = true → 3 ≤ qts.length) (hv' : v ∈ qts) :
    anyXSeg f A r o true = some true := by
  obtain ⟨s, hs, he⟩ := vertex_seg h2 hc hv'
  unfold anyXSeg
  have hm : (List.range o.nsegs).map (segAt o.points) = (segments qts closed).map some := by
    refine List.ext_getElem (by simp [ho.nsegs_eq]) fun i i1 i2 => ?_
    rw [List.getElem_map, List.getElem_map, List.getElem_range]
    exact ho.segAt (by simpa using i2)
  obtain ⟨b, b1, b2⟩ := anySeg_some hm (P := fun s => ringXSeg f A r s true) fun s _ => xSeg_some hf h (by omega) s true
  rw [b1, b2.2 ⟨s, hs, xSeg_vertex hf h h3 hv hh he⟩]

omit hf in
theorem not_empty {qts : List (Pt α)} {closed : Bool} {sp : Nat} {o : Ring α β} (ho : RingOk f qts closed sp o) (h2 : 2 ≤ qts.length)
    (hc : closed = true → 3 ≤ qts.length) : ringEmpty o = false := by
  rw [ringEmpty_eq ho]
  cases closed with
  | false => simp; omega
  | true => have := hc rfl; simp; omega

theorem xLine_vertex (h : Sound f A e pts ix r) (h3 : 3 ≤ pts.length) {v : Pt α} (hv : v ∈ pts) (hh : Held A pts r v) {qts : List (Pt α)}
    {sp : Nat} {o : Ring α β} (ho : RingOk f qts false sp o) (h2 : 2 ≤ qts.length) (hv' : v ∈ qts) : ringXLine f A r o true = some true := by
  obtain ⟨h1, -⟩ := newIx_some hf h.ok h.made
  unfold ringXLine
  rw [not_empty h1 (by omega) fun _ => h3, not_empty ho h2 (by simp), has_meets (h1.rect_has (by omega) v hv) (ho.rect_has h2 v hv'),
    anyX_vertex hf h h3 hv hh ho h2 (by simp) hv']
  rfl

theorem xRing_vertex {e' : Env} {pts' : List (Pt α)} {ix' : BitVec 32} {r' : Ring α β} (h : Sound f A e pts ix r) (h3 : 3 ≤ pts.length)
    (h' : Sound f A e' pts' ix' r') (h3' : 3 ≤ pts'.length) {v : Pt α} (hv : v ∈ pts) (hh : Held A pts r v) (hv' : v ∈ pts') (hh' : Held A pts' r' v)
    (R : RArith α) : ringXRing f A R r r' true = some true := by
  obtain ⟨h1, -⟩ := newIx_some hf h.ok h.made
  obtain ⟨h1', -⟩ := newIx_some hf h'.ok h'.made
  unfold ringXRing
  rw [not_empty h1 (by omega) fun _ => h3, not_empty h1' (by omega) fun _ => h3', has_meets (h1.rect_has (by omega) v hv) (h1'.rect_has (by omega) v hv'),
    anyX_vertex hf h h3 hv hh h1' (by omega) (fun _ => h3') hv', anyX_vertex hf h' h3' hv' hh' h1 (by omega) (fun _ => h3) hv]
  split_ifs <;> simp_all

omit [Zero α] in
theorem line_vertex {sp : Nat} (h1 : RingOk f pts false sp r) (h2 : 2 ≤ pts.length) {v : Pt α} (hv : v ∈ pts) :
    lineCoversPt f A r v = some true := by
  obtain ⟨s, hs, he⟩ := vertex_seg (closed := false) h2 (by simp) hv
  unfold lineCoversPt
  rw [ringSearch_eq hf h1 (.inl leaves_line), h1.nsegs_eq]
  obtain ⟨j, hj⟩ := List.mem_iff_getElem?.1 hs
  have hjl : j < (segments pts false).length := by
    by_contra hc
    rw [List.getElem?_eq_none (by omega)] at hj
    cases hj
  suffices ∀ (k i : Nat) (st : Bool), i + k ≤ (segments pts false).length → i ≤ j → j < i + k →
      (forRange (searchLeaf r.points v.rect (coversPtIter A v)) i k st).map (·.1) = some true from this _ 0 false (by omega) (by omega) (by omega)
  intro k
  induction k with
  | zero => intro i st _ _ _; omega
  | succ k ih =>
    intro i st hi h3 h4
    rw [forRange, searchLeaf, h1.segAt (by omega : i < (segments pts false).length)]
    dsimp only
    by_cases hij : i = j
    · subst hij
      rw [List.getElem?_eq_getElem hjl, Option.some.injEq] at hj
      rw [hj, if_pos (has_meets (v := v) ⟨le_rfl, le_rfl, le_rfl, le_rfl⟩ (end_has he)), coversPtIter, if_pos (covers_end A he)]
      rfl
    · split_ifs with hq
      · unfold coversPtIter
        split_ifs with c
        · rfl
        · exact ih _ _ (by omega) (by omega) (by omega)
      · exact ih _ _ (by omega) (by omega) (by omega)

omit [Zero α] in
theorem lines_vertex {P : Par α β} (hP : P.f = f) {pa pb : List (Pt α)} {spa spb : Nat} {a b : Ring α β} (ha : RingOk f pa false spa a) (hb : RingOk f pb false spb b)
    (ta : f.Tight (segments pa false)) (tb : f.Tight (segments pb false)) (la : 2 ≤ pa.length) (lb : 2 ≤ pb.length) {v : Pt α} (va : v ∈ pa) (vb : v ∈ pb) :
    lineXLine P a b = some true := by
  obtain ⟨s, hs, s1⟩ := vertex_seg (closed := false) la (by simp) va
  obtain ⟨t, ht, t1⟩ := vertex_seg (closed := false) lb (by simp) vb
  obtain ⟨i, hi⟩ := List.mem_iff_getElem?.1 hs
  obtain ⟨j, hj⟩ := List.mem_iff_getElem?.1 ht
  obtain ⟨l, -, l2, l3⟩ := ringRingSearch_order hf (A := P.A) ha hb (.inl leaves_line) (.inl leaves_line) ta tb
  unfold lineXLine
  rw [hP]
  have : ((s, i), (t, j)) ∈ l := by
    rw [l2]
    have hi' : i < (segments pa false).length := by
      by_contra hc; rw [List.getElem?_eq_none (by omega)] at hi; cases hi
    have hj' : j < (segments pb false).length := by
      by_contra hc; rw [List.getElem?_eq_none (by omega)] at hj; cases hj
    refine ⟨⟨Nat.zero_le _, hi', hi⟩, ⟨Nat.zero_le _, hj', hj⟩, ?_⟩
    exact meet_end _ s1 t1
  rw [show ringRingSearch f P.A a b (fun _ _ _ _ _ => (true, false)) false = _ from l3 Bool (fun _ _ _ _ _ => (true, false)) false]
  have h0 := (Ag.visitB_first l).2 (by rintro rfl; simp at this)
  rw [Option.map_some, h0]

end Tg.S.Sh
