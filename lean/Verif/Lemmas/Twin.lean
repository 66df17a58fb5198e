import Verif.Lemmas.AgreeGeo
import Verif.Lemmas.PlaneRing
import Verif.Lemmas.Predicates
/-! Geometries made of the same points with two arithmetics that agree are twins. -/
set_option linter.unusedSectionVars false
namespace Tg.S.Ag

variable {α β γ : Type*} [LinearOrder α] [LinearOrder β] [LinearOrder γ]

/-- What is needed of the stripes, for coordinates in `D` and `N` stripes. -/
structure StripeLaw (D : α → Prop) (N : Nat → Prop) (A : Arith α) : Prop where
  ok : ∀ lo hi n, D lo → D hi → lo < hi → N n → StripeOk A lo hi n
  top : ∀ lo hi n, D lo → D hi → lo < hi → N n → A.stripe lo hi n hi = some (n : Int)
  lt : ∀ lo hi n y k, D lo → D hi → lo < hi → N n → D y → lo ≤ y → y < hi → A.stripe lo hi n y = some k → k < n
  flat : ∀ lo n y, D lo → A.stripe lo lo n y = none

theorem pipAll_filter_congr {A : Arith α} {p : Pt α} {edge : Bool} {P Q : Seg α × Nat → Bool} : ∀ (l : List (Seg α × Nat)) (st : Pip),
    (∀ x ∈ l, raycast A x.1 p ≠ .out → P x = Q x) → pipAll A p edge (l.filter P) st = pipAll A p edge (l.filter Q) st
  | [], st, _ => rfl
  | (s, i) :: l, st, h => by
    have ih := fun st => pipAll_filter_congr (A := A) (p := p) (edge := edge) l st fun x hx => h x (List.mem_cons_of_mem _ hx)
    by_cases ho : raycast A s p = .out
    · have key : ∀ P : Seg α × Nat → Bool, pipAll A p edge (((s, i) :: l).filter P) st = pipAll A p edge (l.filter P) st := by
        intro P
        rw [List.filter_cons]
        split_ifs
        · rw [pipAll, pipSlow_out ho]
        · rfl
      rw [key, key, ih]
    · have := h (s, i) (by simp) ho
      rw [List.filter_cons, List.filter_cons, this]
      split_ifs
      · rw [pipAll, pipAll, ih]
      · rw [ih]

theorem pipAll_congr {D : α → Prop} {A B : Arith α} (hr : ∀ s p, SegIn D s → PtIn D p → raycast A s p = raycast B s p) {p : Pt α} (hp : PtIn D p)
    (edge : Bool) : ∀ (l : List (Seg α × Nat)) (st : Pip), (∀ x ∈ l, SegIn D x.1) → pipAll A p edge l st = pipAll B p edge l st
  | [], st, _ => rfl
  | (s, i) :: l, st, h => by
    rw [pipAll, pipAll, pipSlow, pipSlow, hr s p (h (s, i) (by simp)) hp, pipAll_congr hr hp edge l _ fun x hx => h x (List.mem_cons_of_mem _ hx)]

theorem mem_zipIdx_segs {segs : List (Seg α)} {x : Seg α × Nat} (hx : x ∈ segs.zipIdx) : segs[x.2]? = some x.1 := by
  rw [List.mem_zipIdx_iff_getElem?] at hx
  exact hx

/-- The point test with stripes: all segments, but not those at the top for a point at the top. -/
theorem pip_stripes {D : α → Prop} {N : Nat → Prop} {A : Arith α} (hA : StripeLaw D N A) {f : Ix α β} {pts : List (Pt α)} {sp : Nat} {ring : Ring α β}
    (h : RingOk f pts true sp ring) (h2 : 2 ≤ pts.length) (hD : ∀ q ∈ pts, PtIn D q) (dlo : D ring.rect.lo.y) (dhi : D ring.rect.hi.y)
    (hlt : ring.rect.lo.y < ring.rect.hi.y) {st : List (List Nat)} (hys : ring.ystripes = some st) {n : Nat} (hn : 0 < n) (hN : N n)
    (hst : processStripes A ring.rect n (segments pts true) = some st) {p : Pt α} (hp : PtIn D p) (edge : Bool) :
    ringContainsPoint f A ring p edge = some (if ring.rect.coversPt p then
      pipAll A p edge ((segments pts true).zipIdx.filter fun x => decide (p.y < ring.rect.hi.y ∨ min x.1.a.y x.1.b.y < ring.rect.hi.y)) (false, none)
      else (false, none)) := by
  have hok := hA.ok _ _ n dlo dhi hlt hN
  obtain ⟨s1, s2⟩ := processStripes_some hst
  unfold ringContainsPoint
  cases hc : ring.rect.coversPt p with
  | false => rfl
  | true =>
    rw [hys]
    simp only [Bool.not_true, Bool.false_eq_true, ↓reduceIte, s1]
    rw [coversPt_iff] at hc
    obtain ⟨k, hk⟩ := hok.some p.y hc.2.2.1 hc.2.2.2
    rw [hk]
    dsimp only
    have hkn : (clampStripe k n).toNat < n := by
      rw [clampStripe]
      omega
    rw [s2 _ hkn]
    dsimp only
    rw [stripeLoop_all]
    · congr 1
      refine pipAll_filter_congr _ _ fun x hx hr => ?_
      have hs := List.mem_of_getElem? (mem_zipIdx_segs hx)
      generalize x.1 = s at *
      obtain ⟨ma, mb⟩ := seg_mem_pts hs
      have ha := h.rect_has h2 _ ma
      have hb := h.rect_has h2 _ mb
      have hy : min s.a.y s.b.y ≤ p.y ∧ p.y ≤ max s.a.y s.b.y := by
        by_contra hcon
        apply hr
        apply raycast_out_y
        rw [not_and_or, not_le, not_le] at hcon
        exact hcon
      have hmin : D (min s.a.y s.b.y) := by
        rcases min_choice s.a.y s.b.y with e | e <;> rw [e]
        exacts [(hD _ ma).2, (hD _ mb).2]
      have hmlo : ring.rect.lo.y ≤ min s.a.y s.b.y := le_min ha.2.2.1 hb.2.2.1
      by_cases hc' : p.y < ring.rect.hi.y ∨ min s.a.y s.b.y < ring.rect.hi.y
      · rw [decide_eq_true hc']
        refine inStripe_of_y (segs := [s]) hn hok (by simp) ?_ ha hb hk hy.1 hy.2
        rcases hc' with hc' | hc'
        · exact .inl fun k hk => hA.lt _ _ _ _ _ dlo dhi hlt hN hp.2 hc.2.2.1 hc' hk
        · exact .inr fun t ht k hk => by
            rw [List.mem_singleton] at ht
            subst ht
            exact hA.lt _ _ _ _ _ dlo dhi hlt hN hmin hmlo hc' hk
      · rw [decide_eq_false hc']
        rw [not_or, not_lt, not_lt] at hc'
        have e1 : min s.a.y s.b.y = ring.rect.hi.y := le_antisymm ((min_le_left _ _).trans ha.2.2.2) hc'.2
        have e2 : max s.a.y s.b.y = ring.rect.hi.y := le_antisymm (max_le ha.2.2.2 hb.2.2.2) (hc'.2.trans min_le_max)
        rw [inStripe, stripeRange, e1, e2, hA.top _ _ _ dlo dhi hlt hN]
        dsimp only
        rw [decide_eq_false_iff_not, clampStripe]
        omega
    · intro x hx
      have hx := mem_zipIdx_segs (List.mem_filter.1 hx).1
      have hml : x.2 < (segments pts true).length := by
        by_contra hcon
        rw [List.getElem?_eq_none (by omega)] at hx
        cases hx
      rw [h.segAt hml, ← hx, List.getElem?_eq_getElem hml]

/-! ### Rectangles -/

theorem plain_in {D : α → Prop} : ∀ (pts : List (Pt α)) (r : Rect α), (∀ q ∈ pts, PtIn D q) → PtIn D r.lo → PtIn D r.hi →
    PtIn D (pts.foldl Rect.inflatePt r).lo ∧ PtIn D (pts.foldl Rect.inflatePt r).hi
  | [], r, _, h1, h2 => ⟨h1, h2⟩
  | q :: pts, r, h, h1, h2 => by
    have hq := h q (by simp)
    have mi : ∀ a b, D a → D b → D (min a b) := fun a b ha hb => by rcases min_choice a b with e | e <;> rw [e] <;> assumption
    have ma : ∀ a b, D a → D b → D (max a b) := fun a b ha hb => by rcases max_choice a b with e | e <;> rw [e] <;> assumption
    exact plain_in pts _ (fun x hx => h x (List.mem_cons_of_mem _ hx)) ⟨mi _ _ h1.1 hq.1, mi _ _ h1.2 hq.2⟩ ⟨ma _ _ h2.1 hq.1, ma _ _ h2.2 hq.2⟩

theorem rect_in {D : α → Prop} {f : Ix α β} {pts : List (Pt α)} {closed : Bool} {sp : Nat} {r : Ring α β} (h : RingOk f pts closed sp r)
    (h2 : 2 ≤ pts.length) (hD : ∀ q ∈ pts, PtIn D q) : PtIn D r.rect.lo ∧ PtIn D r.rect.hi := by
  match pts, h2 with
  | p0 :: rest, h2 =>
    obtain ⟨k1, k2, k3⟩ := processPlain_spec (p0 :: rest) p0.rect
    have e : r.rect = (p0 :: rest).foldl Rect.inflatePt p0.rect :=
      Rect.ext_of_le (h.rect_least h2 _ k2) (k3 _ (Pt.rect_le (h.rect_has h2 p0 (by simp))) (h.rect_has h2))
    rw [e]
    exact plain_in _ _ hD (hD p0 (by simp)) (hD p0 (by simp))

/-! ### Rings and lines -/

variable [Zero α]

/-- Two rings or lines made of the same points. -/
theorem twin_same {D : α → Prop} (d0 : D 0) {f : Ix α β} (hf : f.Lawful) {g : Ix α γ} (hg : g.Lawful) {A B : Arith α} {e : Env} (he : e.Ok)
    {pts : List (Pt α)} {closed : Bool} {ix : BitVec 32} (hD : ∀ q ∈ pts, PtIn D q) {r : Ring α β} (hr : newIx f A e pts closed ix = some r) {s : Ring α γ}
    (hs : newIx g B e pts closed ix = some s) : Same D r s := by
  obtain ⟨r1, -⟩ := newIx_some hf he hr
  obtain ⟨s1, -⟩ := newIx_some hg he hs
  have hrect : r.rect = s.rect ∧ PtIn D s.rect.lo ∧ PtIn D s.rect.hi := by
    by_cases h2 : pts.length < 2
    · rw [newIx_short hf he hr h2, newIx_short hg he hs h2]
      exact ⟨rfl, ⟨d0, d0⟩, ⟨d0, d0⟩⟩
    · have h2 : 2 ≤ pts.length := by omega
      exact ⟨Rect.ext_of_le (r1.rect_least h2 _ (s1.rect_has h2)) (s1.rect_least h2 _ (r1.rect_has h2)), rect_in s1 h2 hD⟩
  refine ⟨by rw [r1.points_eq, s1.points_eq], by rw [r1.npoints_eq, s1.npoints_eq], by rw [r1.nsegs_eq, s1.nsegs_eq], by rw [r1.closed_eq, s1.closed_eq], hrect.1,
    ?_, hrect.2.1, hrect.2.2⟩
  intro p hp
  rw [s1.points_eq, List.mem_append] at hp
  rcases hp with hp | hp
  · exact hD p hp
  · exact hD p (List.mem_of_mem_take hp)

theorem dead_pip {k : Ix α β} (hk : k.Lawful) {C : Arith α} {t : Ring α β} {e : Env} (he : e.Ok) {pts : List (Pt α)} {closed : Bool} {ix : BitVec 32}
    (ht : newIx k C e pts closed ix = some t) (hl : pts.length < 2) {p : Pt α} {edge : Bool} : ringContainsPoint k C t p edge = some (false, none) := by
  have : Dead t := MadeRing.dead hk ⟨e, pts, ix, he, ht⟩ (by
    rw [ringEmpty_eq (newIx_some hk he ht).1]
    simp [hl])
  exact this.containsPt _ _ p edge

theorem stripes_height {D : α → Prop} {N : Nat → Prop} {A : Arith α} (hA : StripeLaw D N A) {f : Ix α β} {pts : List (Pt α)} {sp n : Nat} {r : Ring α β}
    (r1 : RingOk f pts true sp r) (h3 : 4 ≤ pts.length) (dl : D r.rect.lo.y) {st : List (List Nat)} (hst : processStripes A r.rect n (segments pts true) = some st) :
    r.rect.lo.y < r.rect.hi.y := by
  obtain ⟨q, hq⟩ : ∃ q, q ∈ pts := List.exists_mem_of_length_pos (by omega)
  have := r1.rect_has (by omega) q hq
  refine lt_of_le_of_ne (this.2.2.1.trans this.2.2.2) fun heq => ?_
  have hne : segments pts true ≠ [] := by
    intro h
    have := segments_ge pts true (by omega)
    rw [h] at this
    simp at this
    omega
  match hsg : segments pts true, hne with
  | t :: l, _ =>
    have hfl := fun n y => hA.flat _ n y dl
    rw [hsg] at hst
    simp only [processStripes, List.zipIdx_cons, List.map_cons, addStripes, stripeRange, ← heq, hfl] at hst
    cases hst

theorem twin_of {D : α → Prop} (d0 : D 0) {f : Ix α β} (hf : f.Lawful) {g : Ix α γ} (hg : g.Lawful) {A B : Arith α}
    (hray : ∀ s p, SegIn D s → PtIn D p → raycast A s p = raycast B s p) {N M : Nat → Prop} (hA : StripeLaw D N A) (hB : StripeLaw D M B) {e : Env} (he : e.Ok)
    {pts : List (Pt α)} {closed : Bool} {ix : BitVec 32} (hD : ∀ q ∈ pts, PtIn D q) (hN : N (stripesOf A pts)) (hM : M (stripesOf B pts)) {r : Ring α β}
    (hr : newIx f A e pts closed ix = some r) {s : Ring α γ} (hs : newIx g B e pts closed ix = some s)
    (hc : LeavesCover pts closed (spreadOf e ix) ∨ s.index = none) : Twin D f g A B r s := by
  have hsame := twin_same d0 hf hg he hD hr hs
  obtain ⟨r1, r2, r3, r4⟩ := newIx_some hf he hr
  obtain ⟨s1, s2, s3, s4⟩ := newIx_some hg he hs
  have hc' : LeavesCover pts closed (spreadOf e ix) ∨ r.index = none := by
    refine hc.imp_right fun h => ?_
    rw [h] at s2
    have := r2.trans s2.symm
    simpa using this
  refine { hsame with pip := ?_, search := ?_ }
  · intro p edge hp
    have hsegs : ∀ x ∈ (segments pts closed).zipIdx, SegIn D x.1 := by
      intro x hx
      obtain ⟨ma, mb⟩ := seg_mem_pts (List.mem_of_getElem? (mem_zipIdx_segs hx))
      exact ⟨hD _ ma, hD _ mb⟩
    by_cases hl : pts.length < 2
    · rw [dead_pip hf he hr hl, dead_pip hg he hs hl]
    · have hl : 2 ≤ pts.length := by omega
      cases hys : r.ystripes with
      | none =>
        have hys' : s.ystripes = none := by
          rw [hys] at r3
          have := s3.trans r3.symm
          simpa using this
        rw [ringContainsPoint_eq hf r1 hl (by rw [hys]; intro st h; cases h) (hc'.imp_right .inl) p edge (by rw [hys]; intro st h; cases h),
          ringContainsPoint_eq hg s1 hl (by rw [hys']; intro st h; cases h) (hc.imp_right .inl) p edge (by rw [hys']; intro st h; cases h), hsame.rect,
          pipAll_congr hray hp edge _ _ hsegs]
      | some st =>
        have hk : (kindsOf e pts.length closed ix).2 = true := r3.1 (by rw [hys]; rfl)
        obtain rfl : closed = true := indexKinds_closed hk
        cases hys' : s.ystripes with
        | none => rw [hys', hk] at s3; simp at s3
        | some st' =>
          have h3 : 4 ≤ pts.length := by
            have := extractSpread_ge he ix
            have := indexKinds_size (Or.inr hk)
            unfold spreadOf at this
            omega
          have hst := r4 st hys
          have hlt := stripes_height hA r1 h3 (by rw [hsame.rect]; exact hsame.lo.2) hst
          have hpos : ∀ C : Arith α, 0 < stripesOf C pts := fun C => by unfold stripesOf; omega
          rw [pip_stripes hA r1 hl hD (by rw [hsame.rect]; exact hsame.lo.2) (by rw [hsame.rect]; exact hsame.hi.2) hlt hys (hpos A) hN hst hp edge,
            pip_stripes hB s1 hl hD hsame.lo.2 hsame.hi.2 (by rw [← hsame.rect]; exact hlt) hys' (hpos B) hM (s4 st' hys') hp edge, hsame.rect,
            pipAll_congr hray hp edge _ _ fun x hx => hsegs x (List.mem_filter.1 hx).1]
  · intro σ q it st
    rw [ringSearch_eq hf r1 hc', ringSearch_eq hg s1 hc, hsame.points, hsame.nsegs]

/-- If the ring is made with the one arithmetic, then also with the other. -/
theorem twin_exists {D : α → Prop} {f : Ix α β} (hf : f.Lawful) {g : Ix α γ} (hg : g.Lawful) {A B : Arith α} {N M : Nat → Prop}
    (hA : StripeLaw D N A) (hB : StripeLaw D M B) {e : Env} (he : e.Ok) {pts : List (Pt α)} {closed : Bool} {ix : BitVec 32} (hD : ∀ q ∈ pts, PtIn D q)
    (hM : M (stripesOf B pts)) {r : Ring α β} (hr : newIx f A e pts closed ix = some r) : ∃ s : Ring α γ, newIx g B e pts closed ix = some s := by
  obtain ⟨r1, r2, r3, r4⟩ := newIx_some hf he hr
  cases hk : (kindsOf e pts.length closed ix).2 with
  | false =>
    obtain ⟨s, h, -⟩ := seriesNew_ok hg B pts closed (extractSpread_ge he ix) hk
    exact ⟨s, h⟩
  | true =>
    obtain rfl : closed = true := indexKinds_closed hk
    have h3 : 4 ≤ pts.length := by
      have := extractSpread_ge he ix
      have := indexKinds_size (Or.inr hk)
      unfold spreadOf at this
      omega
    obtain ⟨st, hys⟩ := Option.isSome_iff_exists.1 (r3.2 hk)
    have hst := r4 st hys
    have hl : 2 ≤ pts.length := by omega
    obtain ⟨dl, dh⟩ := rect_in r1 hl hD
    have hlt := stripes_height hA r1 h3 dl.2 hst
    obtain ⟨s, h, -⟩ := seriesNew_stripes hg (A := B) (closed := true) (ix := (extractSpread e ix).1.toNat) (dflt := e.index.toNat) (extractSpread_ge he ix)
      (pts := pts) fun R h1 h2 => by
        have : R = r.rect := Rect.ext_of_le (h2 _ (r1.rect_has hl)) (r1.rect_least hl _ h1)
        rw [this]
        exact hB.ok _ _ _ dl.2 dh.2 hlt hM
    exact ⟨s, h⟩

/-! ### Collections -/

theorem hildexes_eq {δ : Type*} (H : HArith α) (rectOf : δ → Rect α) (r : Rect α) : ∀ (l : List δ) (n : Nat),
    ((l.zipIdx n).mapM fun x : δ × Nat => match pointHilbert H (H.center (rectOf x.1)) r with | none => none | some k => some (⟨k, x.2⟩ : Hildex)) =
      (((l.map rectOf).zipIdx n).mapM fun x : Rect α × Nat => match pointHilbert H (H.center x.1) r with | none => none | some k => some (⟨k, x.2⟩ : Hildex))
  | [], n => rfl
  | g :: l, n => by
    rw [List.map_cons, List.zipIdx_cons, List.zipIdx_cons, List.mapM_cons, List.mapM_cons, hildexes_eq H rectOf r l (n + 1)]

theorem multi_exists {δ δ' : Type*} {f : Ix α β} {g : Ix α γ} {H : HArith α} {Q : Qsort} (hQ : QsortOk Q) {rectOf : δ → Rect α} {rectOf' : δ' → Rect α}
    {gs : List δ} {gs' : List δ'} (hr : gs.map rectOf = gs'.map rectOf') {rect : Rect α} {ix : Option (Index β)} {ixg : List Nat}
    (h : multiNew f H Q rectOf gs = some ⟨gs, rect, ix, ixg⟩) : ∃ ix', multiNew g H Q rectOf' gs' = some ⟨gs', rect, ix', ixg⟩ := by
  have hlen : gs.length = gs'.length := by simpa using congrArg List.length hr
  unfold multiNew at h ⊢
  dsimp only at h ⊢
  rw [← hr, ← hlen]
  by_cases hc : gs.length ≥ multiSpread * 2
  · rw [if_pos hc] at h ⊢
    obtain ⟨h1, -⟩ := inflateRect_spec (gs.map rectOf)
    have k1 : ∀ g ∈ gs, (rectOf g).Le (inflateRect (gs.map rectOf)) := fun g hg => h1 _ (List.mem_map_of_mem hg)
    have k2 : ∀ g ∈ gs', (rectOf' g).Le (inflateRect (gs.map rectOf)) := fun g hg => h1 _ (by rw [hr]; exact List.mem_map_of_mem hg)
    have key : hildexes H rectOf' (inflateRect (gs.map rectOf)) gs' = hildexes H rectOf (inflateRect (gs.map rectOf)) gs := by
      refine (hildexes_eq H rectOf' _ gs' 0).trans (Eq.trans ?_ (hildexes_eq H rectOf _ gs 0).symm)
      rw [hr]
    cases hh : hildexes H rectOf (inflateRect (gs.map rectOf)) gs with
    | none =>
      unfold inflateIndex at h
      rw [hh] at h
      cases h
    | some hx =>
      obtain ⟨m, e0, e1, e2, e3, e4, -⟩ := inflateIndex_ok (f := f) hQ (s := multiSpread) (by decide)
        (m := ⟨gs, inflateRect (gs.map rectOf), none, []⟩) (by dsimp only; omega) k1 hh
      obtain ⟨m', e0', e1', e2', e3', e4', -⟩ := inflateIndex_ok (f := g) hQ (s := multiSpread) (by decide)
        (m := ⟨gs', inflateRect (gs.map rectOf), none, []⟩) (by dsimp only; omega) k2 (key.trans hh)
      rw [e0] at h
      cases h
      dsimp only at *
      have : m'.rect = rect := (Rect.ext_of_le e2' e3').trans (Rect.ext_of_le e2 e3).symm
      refine ⟨m'.index, ?_⟩
      rw [e0']
      rcases m' with ⟨a, b, c, d⟩
      dsimp only at *
      rw [e1', this, e4', e4]
  · rw [if_neg hc] at h ⊢
    cases h
    exact ⟨none, rfl⟩

/-- The search of a collection, if the callback does not look at the child. -/
theorem multi_search {δ δ' : Type*} {f : Ix α β} (hf : ∀ x y : β, x ≤ y → f.wide x ≤ f.wide y) {g : Ix α γ} (hg : ∀ x y : γ, x ≤ y → g.wide x ≤ g.wide y)
    {H : HArith α} {Q : Qsort} (hQ : QsortOk Q) {rectOf : δ → Rect α} {rectOf' : δ' → Rect α} {gs : List δ} {gs' : List δ'} (hr : gs.map rectOf = gs'.map rectOf')
    (ef : ∀ x ∈ gs, f.Encloses (rectOf x)) (eg : ∀ x ∈ gs', g.Encloses (rectOf' x)) {rect : Rect α} {ix : Option (Index β)} {ix' : Option (Index γ)} {ixg : List Nat}
    (h : multiNew f H Q rectOf gs = some ⟨gs, rect, ix, ixg⟩) (h' : multiNew g H Q rectOf' gs' = some ⟨gs', rect, ix', ixg⟩) {σ : Type*}
    {it : δ → Nat → σ → σ × Bool} {it' : δ' → Nat → σ → σ × Bool} (hit : ∀ x x' i st, it x i st = it' x' i st) (q : Rect α) (st : σ) :
    geomSearch f rectOf ⟨gs, rect, ix, ixg⟩ q it st = geomSearch g rectOf' ⟨gs', rect, ix', ixg⟩ q it' st := by
  have hlen : gs.length = gs'.length := by simpa using congrArg List.length hr
  obtain ⟨m1, m2⟩ := multiNew_ok hQ h
  obtain ⟨m1', m2'⟩ := multiNew_ok hQ h'
  rw [geomSearch_eq hf m1 ef, geomSearch_eq hg m1' eg]
  have hs : seqLeaf rectOf gs q it = seqLeaf rectOf' gs' q it' := by
    funext i st
    have := congrArg (fun l => l[i]?) hr
    simp only [List.getElem?_map] at this
    unfold seqLeaf
    cases h1 : gs[i]? with
    | none =>
      rw [h1] at this
      have : gs'[i]? = none := by simpa using this.symm
      rw [this]
    | some x =>
      rw [h1] at this
      obtain ⟨y, hy, hxy⟩ := Option.map_eq_some_iff.1 this.symm
      rw [hy]
      simp only [hxy, hit x y]
  have hx : ixLeaf rectOf ⟨gs, rect, ix, ixg⟩ q it = ixLeaf rectOf' ⟨gs', rect, ix', ixg⟩ q it' := by
    funext i st
    simp only [ixLeaf, hs]
  dsimp only at m2 m2' ⊢
  rw [hs, hx, hlen]
  rw [← hlen] at m2'
  cases ix with
  | none =>
    cases ix' with
    | none => rfl
    | some _ => have := m2.trans m2'.symm; simp at this
  | some _ =>
    cases ix' with
    | none => have := m2.trans m2'.symm; simp at this
    | some _ => rfl

end Tg.S.Ag
