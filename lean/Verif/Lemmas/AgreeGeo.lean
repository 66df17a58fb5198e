import Verif.Lemmas.Agree
/-! The same for polygons and geometries. -/
set_option linter.unusedSectionVars false
namespace Tg.S.Ag

variable {α β γ : Type*} [LinearOrder α] [LinearOrder β] [LinearOrder γ]

/-! ### Polygons -/

/-- Two rings with flags. The flags for the direction are the same if `c`. -/
structure TwinF (D : α → Prop) (f : Ix α β) (g : Ix α γ) (A B : Arith α) (c : Prop) (r : FRing α β) (s : FRing α γ) : Prop where
  ring : Twin D f g A B r.ring s.ring
  convex : r.convex = s.convex
  clockwise : c → r.clockwise = s.clockwise

/-- Two polygons. -/
inductive TwinP (D : α → Prop) (f : Ix α β) (g : Ix α γ) (A B : Arith α) (c : Prop) : PolyS α β → PolyS α γ → Prop
  | ring {r s} : TwinF D f g A B c r s → TwinP D f g A B c (.ring r) (.ring s)
  | poly {e e' hs hs'} : TwinF D f g A B c e e' → List.Forall₂ (TwinF D f g A B c) hs hs' → TwinP D f g A B c (.poly e hs) (.poly e' hs')

variable {D : α → Prop} {A B : Arith α} {R S : RArith α} (h : Agree D A B R S) {f : Ix α β} {g : Ix α γ} {fuel : Nat} {c : Prop}

theorem TwinP.ext {p : PolyS α β} {p' : PolyS α γ} (hp : TwinP D f g A B c p p') : TwinF D f g A B c p.ext p'.ext := by
  cases hp with
  | ring h => exact h
  | poly h _ => exact h

theorem TwinP.holes {p : PolyS α β} {p' : PolyS α γ} (hp : TwinP D f g A B c p p') : List.Forall₂ (TwinF D f g A B c) p.holes p'.holes := by
  cases hp with
  | ring _ => exact .nil
  | poly _ h => exact h

theorem TwinP.empty {p : PolyS α β} {p' : PolyS α γ} (hp : TwinP D f g A B c p p') : polyEmpty p = polyEmpty p' := by
  unfold polyEmpty
  rw [hp.ext.ring.empty]

theorem TwinP.rect {p : PolyS α β} {p' : PolyS α γ} (hp : TwinP D f g A B c p p') : polyRect p = polyRect p' := by
  unfold polyRect
  rw [hp.ext.ring.rect]

include h

theorem hit_congr {r : FRing α β} {s : FRing α γ} (hr : TwinF D f g A B c r s) {p : Pt α} (hp : PtIn D p) (edge : Bool) :
    hit ⟨f, A, R, fuel⟩ r p edge = hit ⟨g, B, S, fuel⟩ s p edge := by
  unfold hit
  dsimp only
  rw [hr.ring.pip _ _ hp]

theorem ptTouchesPoly_congr {q : PolyS α β} {q' : PolyS α γ} (hq : TwinP D f g A B c q q') {p : Pt α} (hp : PtIn D p) :
    ptTouchesPoly ⟨f, A, R, fuel⟩ p q = ptTouchesPoly ⟨g, B, S, fuel⟩ p q' :=
  anyOf_congr (T := TwinF D f g A B c) (fun _ _ hr => lineCoversPt_congr h hr.ring hp) (.cons hq.ext hq.holes)

theorem lineContainsPt_congr {l : Ring α β} {l' : Ring α γ} (hl : Twin D f g A B l l') {p : Pt α} (hp : PtIn D p) :
    lineContainsPt ⟨f, A, R, fuel⟩ l p = lineContainsPt ⟨g, B, S, fuel⟩ l' p := by
  unfold lineContainsPt
  dsimp only
  rw [lineCoversPt_congr h hl hp, hl.points, hl.nsegs]

omit h in
theorem rectToRing_same {r : Rect α} (hlo : PtIn D r.lo) (hhi : PtIn D r.hi) : Same D (rectToRing r : Ring α β) (rectToRing r : Ring α γ) where
  points := rfl
  npoints := rfl
  nsegs := rfl
  closed := rfl
  rect := rfl
  lo := hlo
  hi := hhi
  pts := by
    intro p hp
    simp only [rectToRing, List.mem_cons, List.not_mem_nil, or_false] at hp
    rcases hp with rfl | rfl | rfl | rfl | rfl
    exacts [hlo, ⟨hhi.1, hlo.2⟩, hhi, ⟨hlo.1, hhi.2⟩, hlo]

theorem lineCoversPoly_congr {l : Ring α β} {l' : Ring α γ} (hl : Twin D f g A B l l') {q : PolyS α β} {q' : PolyS α γ} (hq : TwinP D f g A B c q q') :
    lineCoversPoly ⟨f, A, R, fuel⟩ l q = lineCoversPoly ⟨g, B, S, fuel⟩ l' q' := by
  unfold lineCoversPoly
  dsimp only
  have h2 := lineCoversLine_congr h (fuel := fuel) hl.toSame (rectToRing_same (β := β) (γ := γ) (r := polyRect q') hq.ext.ring.lo hq.ext.ring.hi)
  rw [hl.empty, hq.empty, hq.rect, h2]

theorem polyHasPt_congr {q : PolyS α β} {q' : PolyS α γ} (hq : TwinP D f g A B c q q') {p : Pt α} (hp : PtIn D p) (edge : Bool) :
    polyHasPt ⟨f, A, R, fuel⟩ q p edge = polyHasPt ⟨g, B, S, fuel⟩ q' p edge := by
  cases hq with
  | ring hr => exact hit_congr h hr hp edge
  | poly he hs =>
    unfold polyHasPt
    dsimp only
    rw [he.ring.empty, hit_congr h he hp, anyOf_congr (T := TwinF D f g A B c) (fun x y hr => hit_congr h hr hp (!edge)) hs]

omit h in
theorem ringHasSeg_cw (f : Ix α β) (A : Arith α) (R : RArith α) (cv cw cw' : Bool) (r : Ring α β) (s : Seg α) :
    ringHasSeg f A R cv cw r s false = ringHasSeg f A R cv cw' r s false := rfl

theorem hasLine_congr {r : FRing α β} {s : FRing α γ} (hr : TwinF D f g A B c r s) {l : Ring α β} {l' : Ring α γ} (hl : Same D l l') (edge bd : Bool)
    (hc : c ∨ edge = false ∧ bd = false) : hasLine ⟨f, A, R, fuel⟩ r l edge bd = hasLine ⟨g, B, S, fuel⟩ s l' edge bd := by
  unfold hasLine
  dsimp only
  rcases hc with hc | ⟨rfl, rfl⟩
  · rw [ringHasLine_congr h hr.ring hl, hr.convex, hr.clockwise hc]
  · rw [ringHasLine_congr h hr.ring hl, hr.convex]
    simp only [ringHasLine, ringHasSeg_cw g B S s.convex r.clockwise s.clockwise, Bool.and_false, Bool.false_eq_true, ↓reduceIte]

theorem hasRing_congr {a b : FRing α β} {a' b' : FRing α γ} (ha : TwinF D f g A B c a a') (hb : TwinF D f g A B c b b') (edge : Bool) (hc : c ∨ edge = false) :
    hasRing ⟨f, A, R, fuel⟩ a b edge = hasRing ⟨g, B, S, fuel⟩ a' b' edge := by
  unfold hasRing
  dsimp only
  rcases hc with hc | rfl
  · rw [ringHasRing_congr h ha.ring hb.ring.toSame, ha.convex, ha.clockwise hc]
  · rw [ringHasRing_congr h ha.ring hb.ring.toSame, ha.convex]
    simp only [ringHasRing, ringHasSeg_cw g B S a'.convex a.clockwise a'.clockwise]

theorem polyCoversLine_congr (hcw : c) {a : PolyS α β} {a' : PolyS α γ} (ha : TwinP D f g A B c a a') {b : Ring α β} {b' : Ring α γ} (hb : Same D b b') :
    polyCoversLine ⟨f, A, R, fuel⟩ a b = polyCoversLine ⟨g, B, S, fuel⟩ a' b' := by
  unfold polyCoversLine
  dsimp only
  rw [ha.empty, hb.empty, hasLine_congr h ha.ext hb _ _ (.inl hcw), anyOf_congr (fun _ _ hr => ringXLine_congr h hr.ring hb false) ha.holes]

theorem polyContainsLine_congr (hcw : c) {a : PolyS α β} {a' : PolyS α γ} (ha : TwinP D f g A B c a a') {b : Ring α β} {b' : Ring α γ} (hb : Same D b b') :
    polyContainsLine ⟨f, A, R, fuel⟩ a b = polyContainsLine ⟨g, B, S, fuel⟩ a' b' := by
  unfold polyContainsLine
  dsimp only
  rw [ha.empty, hb.empty, hasLine_congr h ha.ext hb _ _ (.inl hcw), anyOf_congr (fun _ _ hr => ringXLine_congr h hr.ring hb false) ha.holes]

theorem polyXLine_congr {a : PolyS α β} {a' : PolyS α γ} (ha : TwinP D f g A B c a a') {b : Ring α β} {b' : Ring α γ} (hb : Same D b b') :
    polyXLine ⟨f, A, R, fuel⟩ a b = polyXLine ⟨g, B, S, fuel⟩ a' b' := by
  cases ha with
  | ring hr => exact ringXLine_congr h hr.ring hb true
  | poly he hs =>
    unfold polyXLine
    dsimp only
    rw [he.ring.empty, hb.empty, ringXLine_congr h he.ring hb, anyOf_congr (fun _ _ hr => hasLine_congr h hr hb false false (.inr ⟨rfl, rfl⟩)) hs]

theorem polyCoversPoly_congr (hcw : c) {a b : PolyS α β} {a' b' : PolyS α γ} (ha : TwinP D f g A B c a a') (hb : TwinP D f g A B c b b') :
    polyCoversPoly ⟨f, A, R, fuel⟩ a b = polyCoversPoly ⟨g, B, S, fuel⟩ a' b' := by
  have key : (if polyEmpty a || polyEmpty b then some false
      else andM (hasRing ⟨f, A, R, fuel⟩ a.ext b.ext true) (allOf (fun h : FRing α β =>
        match ringXRing f A R h.ring b.ext.ring false with
        | none => none
        | some false => some true
        | some true => anyOf (fun k => hasRing ⟨f, A, R, fuel⟩ k h true) b.holes) a.holes)) =
      (if polyEmpty a' || polyEmpty b' then some false
      else andM (hasRing ⟨g, B, S, fuel⟩ a'.ext b'.ext true) (allOf (fun h : FRing α γ =>
        match ringXRing g B S h.ring b'.ext.ring false with
        | none => none
        | some false => some true
        | some true => anyOf (fun k => hasRing ⟨g, B, S, fuel⟩ k h true) b'.holes) a'.holes)) := by
    rw [ha.empty, hb.empty, hasRing_congr h ha.ext hb.ext _ (.inl hcw)]
    congr 2
    refine allOf_congr (fun x y hr => ?_) ha.holes
    rw [ringXRing_congr h hr.ring hb.ext.ring, anyOf_congr (fun _ _ hk => hasRing_congr h hk hr true (.inl hcw)) hb.holes]
  cases ha with
  | ring hr =>
    cases hb with
    | ring hs => exact hasRing_congr h hr hs true (.inl hcw)
    | poly he hs => exact key
  | poly he hs =>
    cases hb with
    | ring hs => exact key
    | poly he hs => exact key

theorem polyXPoly_congr {a b : PolyS α β} {a' b' : PolyS α γ} (ha : TwinP D f g A B c a a') (hb : TwinP D f g A B c b b') :
    polyXPoly ⟨f, A, R, fuel⟩ a b = polyXPoly ⟨g, B, S, fuel⟩ a' b' := by
  have key : (if polyEmpty a || polyEmpty b then some false
      else andM (ringXRing f A R b.ext.ring a.ext.ring true)
        (andM (notM (anyOf (fun h => hasRing ⟨f, A, R, fuel⟩ h b.ext false) a.holes)) (notM (anyOf (fun h => hasRing ⟨f, A, R, fuel⟩ h a.ext false) b.holes)))) =
      (if polyEmpty a' || polyEmpty b' then some false
      else andM (ringXRing g B S b'.ext.ring a'.ext.ring true)
        (andM (notM (anyOf (fun h => hasRing ⟨g, B, S, fuel⟩ h b'.ext false) a'.holes)) (notM (anyOf (fun h => hasRing ⟨g, B, S, fuel⟩ h a'.ext false) b'.holes)))) := by
    rw [ha.empty, hb.empty, ringXRing_congr h hb.ext.ring ha.ext.ring, anyOf_congr (fun _ _ hr => hasRing_congr h hr hb.ext false (.inr rfl)) ha.holes,
      anyOf_congr (fun _ _ hr => hasRing_congr h hr ha.ext false (.inr rfl)) hb.holes]
  cases ha with
  | ring hr =>
    cases hb with
    | ring hs => exact ringXRing_congr h hr.ring hs.ring true
    | poly he hs => exact key
  | poly he hs =>
    cases hb with
    | ring hs => exact key
    | poly he hs => exact key

theorem onLine_congr {r : Ring α β} {s : Ring α γ} (hr : Twin D f g A B r s) {l : Ring α β} {l' : Ring α γ} (hl : Same D l l') :
    anyOf (fun p => lineCoversPt f A r p) (ptsOf l) = anyOf (fun p => lineCoversPt g B s p) (ptsOf l') := by
  unfold ptsOf
  rw [hl.points, hl.npoints]
  exact anyPt_congr (fun p hp => lineCoversPt_congr h hr hp) (hl.take _)

theorem polyTouchesLine_congr (hcw : c) {a : PolyS α β} {a' : PolyS α γ} (ha : TwinP D f g A B c a a') {b : Ring α β} {b' : Ring α γ} (hb : Same D b b') :
    polyTouchesLine ⟨f, A, R, fuel⟩ a b = polyTouchesLine ⟨g, B, S, fuel⟩ a' b' := by
  unfold polyTouchesLine
  dsimp only
  rw [ha.rect, hb.rect]
  congr 1
  refine inHole_congr (fun _ _ hr => hasLine_congr h hr hb true false (.inl hcw)) (fun _ _ hr => onLine_congr h hr.ring hb) ?_ ha.holes
  rw [onLine_congr h ha.ext.ring hb, hb.points, hb.nsegs, anySeg_congr hb.pts fun s hs => ringXSeg_congr h ha.ext.ring hs false]

theorem countTouches_congr {a : Ring α β} {a' : Ring α γ} (ha : Twin D f g A B a a') {pts : List (Pt α)} (hp : ∀ p ∈ pts, PtIn D p) :
    ∀ (l : List Nat) (n : Nat), countTouches ⟨f, A, R, fuel⟩ a pts l n = countTouches ⟨g, B, S, fuel⟩ a' pts l n
  | [], _ => rfl
  | i :: is, n => by
    unfold countTouches
    dsimp only
    cases hs : segAt pts i with
    | none => rfl
    | some s =>
      dsimp only
      rw [ringXSeg_congr h ha (segAt_in hp hs), ringXSeg_congr h ha (segAt_in hp hs)]
      simp only [countTouches_congr ha hp is]

theorem extTouches_congr {a b : Ring α β} {a' b' : Ring α γ} (ha : Twin D f g A B a a') (hb : Twin D f g A B b b') :
    extTouches ⟨f, A, R, fuel⟩ a b = extTouches ⟨g, B, S, fuel⟩ a' b' := by
  unfold extTouches
  rw [ha.points, hb.points, ha.nsegs, hb.nsegs, countTouches_congr h ha hb.pts, countTouches_congr h hb ha.pts]

theorem polyTouchesPoly_congr (hcw : c) {a b : PolyS α β} {a' b' : PolyS α γ} (ha : TwinP D f g A B c a a') (hb : TwinP D f g A B c b b') :
    polyTouchesPoly ⟨f, A, R, fuel⟩ a b = polyTouchesPoly ⟨g, B, S, fuel⟩ a' b' := by
  unfold polyTouchesPoly
  dsimp only
  rw [ha.rect, hb.rect]
  congr 1
  exact inHole_congr (fun _ _ hr => hasRing_congr h hr hb.ext true (.inl hcw)) (fun _ _ hr => onLine_congr h hr.ring hb.ext.ring.toSame)
    (inHole_congr (fun _ _ hr => hasRing_congr h hr ha.ext true (.inl hcw)) (fun _ _ hr => onLine_congr h hr.ring ha.ext.ring.toSame)
      (extTouches_congr h ha.ext.ring hb.ext.ring) hb.holes) ha.holes

/-! ### Simple geometries -/

omit h in
/-- Two simple geometries. -/
inductive TwinA (D : α → Prop) (f : Ix α β) (g : Ix α γ) (A B : Arith α) (c : Prop) : Atom α β → Atom α γ → Prop
  | point {p} : PtIn D p → TwinA D f g A B c (.point p) (.point p)
  | line {l l'} : TwinL D f g A B l l' → TwinA D f g A B c (.line l) (.line l')
  | poly {p p'} : TwinP D f g A B c p p' → TwinA D f g A B c (.poly p) (.poly p')

section
variable (hf : f.Lawful) (hg : g.Lawful) (hB : ∀ s t, B.segX s t = B.segX t s)
include hf hg hB

theorem atomX_congr {a b : Atom α β} {a' b' : Atom α γ} (ha : TwinA D f g A B c a a') (hb : TwinA D f g A B c b b') :
    atomX ⟨f, A, R, fuel⟩ a b = atomX ⟨g, B, S, fuel⟩ a' b' := by
  cases ha with
  | point hp =>
    cases hb with
    | point hq => rfl
    | line hl => exact lineCoversPt_congr h hl.toTwin hp
    | poly hq => exact polyHasPt_congr h hq hp true
  | line hl =>
    cases hb with
    | point hq => exact lineCoversPt_congr h hl.toTwin hq
    | line hm => exact lineXLine_congr h hf hg hB hl hm
    | poly hq => exact polyXLine_congr h hq hl.toSame
  | poly hp =>
    cases hb with
    | point hq => exact polyHasPt_congr h hp hq true
    | line hm => exact polyXLine_congr h hp hm.toSame
    | poly hq => exact polyXPoly_congr h hp hq

theorem atomCovers_congr (hcw : c) {a b : Atom α β} {a' b' : Atom α γ} (ha : TwinA D f g A B c a a') (hb : TwinA D f g A B c b b') :
    atomCovers ⟨f, A, R, fuel⟩ a b = atomCovers ⟨g, B, S, fuel⟩ a' b' := by
  cases ha with
  | point hp =>
    cases hb with
    | point hq => rfl
    | line hl => simp only [atomCovers, ptCoversLine, hl.empty, hl.rect]
    | poly hq => simp only [atomCovers, ptCoversPoly, hq.empty, hq.rect]
  | line hl =>
    cases hb with
    | point hq => exact lineCoversPt_congr h hl.toTwin hq
    | line hm => exact lineCoversLine_congr h hl.toSame hm.toSame
    | poly hq => exact lineCoversPoly_congr h hl.toTwin hq
  | poly hp =>
    cases hb with
    | point hq => exact polyHasPt_congr h hp hq true
    | line hm => exact polyCoversLine_congr h hcw hp hm.toSame
    | poly hq => exact polyCoversPoly_congr h hcw hp hq

theorem atomContains_congr (hcw : c) {a b : Atom α β} {a' b' : Atom α γ} (ha : TwinA D f g A B c a a') (hb : TwinA D f g A B c b b') :
    atomContains ⟨f, A, R, fuel⟩ a b = atomContains ⟨g, B, S, fuel⟩ a' b' := by
  cases ha with
  | point hp =>
    cases hb with
    | point hq => rfl
    | line hl => simp only [atomContains, ptCoversLine, hl.empty, hl.rect]
    | poly hq => rfl
  | line hl =>
    cases hb with
    | point hq => exact lineContainsPt_congr h hl.toTwin hq
    | line hm => exact lineCoversLine_congr h hl.toSame hm.toSame
    | poly hq => rfl
  | poly hp =>
    cases hb with
    | point hq => exact polyHasPt_congr h hp hq false
    | line hm => exact polyContainsLine_congr h hcw hp hm.toSame
    | poly hq => exact polyCoversPoly_congr h hcw hp hq

omit h hf hg hB in
theorem ptTouchesLine_congr {l : Ring α β} {l' : Ring α γ} (hl : Same D l l') (p : Pt α) : ptTouchesLine p l = ptTouchesLine p l' := by
  unfold ptTouchesLine
  rw [hl.points, hl.nsegs]

theorem atomTouches_congr (hcw : c) {a b : Atom α β} {a' b' : Atom α γ} (ha : TwinA D f g A B c a a') (hb : TwinA D f g A B c b b') :
    atomTouches ⟨f, A, R, fuel⟩ a b = atomTouches ⟨g, B, S, fuel⟩ a' b' := by
  cases ha with
  | point hp =>
    cases hb with
    | point hq => rfl
    | line hl => exact ptTouchesLine_congr hl.toSame _
    | poly hq => exact ptTouchesPoly_congr h hq hp
  | line hl =>
    cases hb with
    | point hq => exact ptTouchesLine_congr hl.toSame _
    | line hm => exact lineTouchesLine_congr h hf hg hB hl hm
    | poly hq => exact polyTouchesLine_congr h hcw hq hl.toSame
  | poly hp =>
    cases hb with
    | point hq => exact ptTouchesPoly_congr h hp hq
    | line hm => exact polyTouchesLine_congr h hcw hp hm.toSame
    | poly hq => exact polyTouchesPoly_congr h hcw hp hq

/-! ### Geometries -/

omit h hf hg hB in
mutual
/-- Two geometries. -/
inductive TwinG [Zero α] (D : α → Prop) (f : Ix α β) (g : Ix α γ) (A B : Arith α) (c : Prop) : Geo α β → Geo α γ → Prop
  | null : TwinG D f g A B c .null .null
  | empty : TwinG D f g A B c .empty .empty
  | atom {a a'} : TwinA D f g A B c a a' → TwinG D f g A B c (.atom a) (.atom a')
  | multi {flag rect cs cs' ix ix' ixg} : TwinGs D f g A B c cs cs' →
      (∀ q answers st, geomSearch f Geo.rect ⟨cs, rect, ix, ixg⟩ q (multiIter answers) st = geomSearch g Geo.rect ⟨cs', rect, ix', ixg⟩ q (multiIter answers) st) →
      TwinG D f g A B c (.multi flag cs rect ix ixg) (.multi flag cs' rect ix' ixg)

/-- Two lists of geometries. -/
inductive TwinGs [Zero α] (D : α → Prop) (f : Ix α β) (g : Ix α γ) (A B : Arith α) (c : Prop) : List (Geo α β) → List (Geo α γ) → Prop
  | nil : TwinGs D f g A B c [] []
  | cons {x x' xs xs'} : TwinG D f g A B c x x' → TwinGs D f g A B c xs xs' → TwinGs D f g A B c (x :: xs) (x' :: xs')
end

variable [Zero α]

omit h hf hg hB in
theorem TwinG.rect {a : Geo α β} {a' : Geo α γ} (ha : TwinG D f g A B c a a') : Geo.rect a = Geo.rect a' := by
  cases ha with
  | null => rfl
  | empty => rfl
  | atom hx =>
    cases hx with
    | point _ => rfl
    | line hl => exact hl.rect
    | poly hq => exact hq.rect
  | multi _ _ => rfl

omit h hf hg hB in
theorem TwinGs.rects : ∀ {a : List (Geo α β)} {a' : List (Geo α γ)}, TwinGs D f g A B c a a' → a.map Geo.rect = a'.map Geo.rect
  | _, _, .nil => rfl
  | _, _, .cons hc hcs => by rw [List.map_cons, List.map_cons, hc.rect, TwinGs.rects hcs]

omit h hf hg hB in
mutual
theorem TwinG.isEmpty : ∀ {a : Geo α β} {a' : Geo α γ}, TwinG D f g A B c a a' → a.isEmpty = a'.isEmpty
  | _, _, .null => rfl
  | _, _, .empty => rfl
  | _, _, .atom hx => by
    cases hx with
    | point _ => rfl
    | line hl => simp only [Geo.isEmpty, hl.empty]
    | poly hq => simp only [Geo.isEmpty, hq.empty]
  | _, _, .multi hc _ => by simp only [Geo.isEmpty, TwinGs.allEmpty hc]

theorem TwinGs.allEmpty : ∀ {a : List (Geo α β)} {a' : List (Geo α γ)}, TwinGs D f g A B c a a' → Tg.S.allEmpty a = Tg.S.allEmpty a'
  | _, _, .nil => rfl
  | _, _, .cons hc hcs => by simp only [Tg.S.allEmpty, TwinG.isEmpty hc, TwinGs.allEmpty hcs]
end

omit h hf hg hB in
theorem TwinGs.nil_iff {a : List (Geo α β)} {a' : List (Geo α γ)} (ha : TwinGs D f g A B c a a') : a.isEmpty = a'.isEmpty := by
  cases ha <;> rfl

omit h hf hg hB in
theorem TwinG.foreach {a : Geo α β} {a' : Geo α γ} (ha : TwinG D f g A B c a a') : TwinGs D f g A B c a.foreach a'.foreach := by
  cases ha with
  | null => exact .nil
  | empty => exact .cons .empty .nil
  | atom hx => exact .cons (.atom hx) .nil
  | multi hc _ => exact hc

omit h hf hg hB in
mutual
theorem someGeo_congr {t : Atom α β → Option Bool} {t' : Atom α γ → Option Bool} (ht : ∀ b b', TwinA D f g A B c b b' → t b = t' b') :
    ∀ {a : Geo α β} {a' : Geo α γ}, TwinG D f g A B c a a' → someGeo t a = someGeo t' a'
  | _, _, .null => by simp only [someGeo]
  | _, _, .empty => by simp only [someGeo]
  | _, _, .atom hx => by simp only [someGeo, ht _ _ hx]
  | _, _, .multi hc _ => by simp only [someGeo, someGeos_congr ht hc]

theorem someGeos_congr {t : Atom α β → Option Bool} {t' : Atom α γ → Option Bool} (ht : ∀ b b', TwinA D f g A B c b b' → t b = t' b') :
    ∀ {a : List (Geo α β)} {a' : List (Geo α γ)}, TwinGs D f g A B c a a' → someGeos t a = someGeos t' a'
  | _, _, .nil => by simp only [someGeos]
  | _, _, .cons hc hcs => by simp only [someGeos, someGeo_congr ht hc, someGeos_congr ht hcs]
end

omit h hf hg hB in
mutual
theorem everyGeo_congr {t : Atom α β → Option Bool} {t' : Atom α γ → Option Bool} (ht : ∀ b b', TwinA D f g A B c b b' → t b = t' b') :
    ∀ {a : Geo α β} {a' : Geo α γ}, TwinG D f g A B c a a' → everyGeo t a = everyGeo t' a'
  | _, _, .null => by simp only [everyGeo]
  | _, _, .empty => by simp only [everyGeo]
  | _, _, .atom hx => by simp only [everyGeo, ht _ _ hx]
  | _, _, .multi hc _ => by simp only [everyGeo, hc.nil_iff, everyGeos_congr ht hc]

theorem everyGeos_congr {t : Atom α β → Option Bool} {t' : Atom α γ → Option Bool} (ht : ∀ b b', TwinA D f g A B c b b' → t b = t' b') :
    ∀ {a : List (Geo α β)} {a' : List (Geo α γ)}, TwinGs D f g A B c a a' → everyGeos t a = everyGeos t' a'
  | _, _, .nil => by simp only [everyGeos]
  | _, _, .cons hc hcs => by simp only [everyGeos, everyGeo_congr ht hc, everyGeos_congr ht hcs]
end

mutual
theorem polyTouchesGeo_congr (hcw : c) {q : PolyS α β} {q' : PolyS α γ} (hq : TwinP D f g A B c q q') :
    ∀ {a : Geo α β} {a' : Geo α γ}, TwinG D f g A B c a a' → polyTouchesGeo ⟨f, A, R, fuel⟩ q a = polyTouchesGeo ⟨g, B, S, fuel⟩ q' a'
  | _, _, .null => by simp only [polyTouchesGeo]
  | _, _, .empty => by simp only [polyTouchesGeo]
  | _, _, .atom hx => by simp only [polyTouchesGeo, atomTouches_congr h hf hg hB hcw (.poly hq) hx]
  | _, _, .multi hc _ => by simp only [polyTouchesGeo, polyTouchesGeos_congr hcw hq hc]

theorem polyTouchesGeos_congr (hcw : c) {q : PolyS α β} {q' : PolyS α γ} (hq : TwinP D f g A B c q q') :
    ∀ {a : List (Geo α β)} {a' : List (Geo α γ)}, TwinGs D f g A B c a a' → ∀ t,
      polyTouchesGeos ⟨f, A, R, fuel⟩ q a t = polyTouchesGeos ⟨g, B, S, fuel⟩ q' a' t
  | _, _, .nil, t => by simp only [polyTouchesGeos]
  | _, _, .cons hc hcs, t => by
    simp only [polyTouchesGeos, polyTouchesGeo_congr hcw hq hc, polyTouchesGeos_congr hcw hq hcs,
      someGeo_congr (fun _ _ hb => atomX_congr h hf hg hB (.poly hq) hb) hc]
end

theorem atomTouchesGeo_congr (hcw : c) {a : Atom α β} {a' : Atom α γ} (ha : TwinA D f g A B c a a') {b : Geo α β} {b' : Geo α γ} (hb : TwinG D f g A B c b b') :
    atomTouchesGeo ⟨f, A, R, fuel⟩ a b = atomTouchesGeo ⟨g, B, S, fuel⟩ a' b' := by
  cases ha with
  | point hp => exact someGeo_congr (fun _ _ hc => atomTouches_congr h hf hg hB hcw (.point hp) hc) hb
  | line hl => exact someGeo_congr (fun _ _ hc => atomTouches_congr h hf hg hB hcw (.line hl) hc) hb
  | poly hq => exact polyTouchesGeo_congr h hf hg hB hcw hq hb

mutual
theorem geoX_congr {o : Geo α β} {o' : Geo α γ} (ho : TwinG D f g A B c o o') :
    ∀ {a : Geo α β} {a' : Geo α γ}, TwinG D f g A B c a a' → geoX ⟨f, A, R, fuel⟩ o a = geoX ⟨g, B, S, fuel⟩ o' a'
  | _, _, .null => by simp only [geoX]
  | _, _, .empty => by simp only [geoX]
  | _, _, .atom hx => by simp only [geoX, someGeo_congr (fun _ _ hb => atomX_congr h hf hg hB hx hb) ho]
  | _, _, .multi hc hs => by simp only [geoX, geoXs_congr ho hc, hs]

theorem geoXs_congr {o : Geo α β} {o' : Geo α γ} (ho : TwinG D f g A B c o o') :
    ∀ {a : List (Geo α β)} {a' : List (Geo α γ)}, TwinGs D f g A B c a a' → geoXs ⟨f, A, R, fuel⟩ o a = geoXs ⟨g, B, S, fuel⟩ o' a'
  | _, _, .nil => by simp only [geoXs]
  | _, _, .cons hc hcs => by simp only [geoXs, geoX_congr ho hc, geoXs_congr ho hcs]
end

omit h hf hg hB in
theorem coversLoopG_congr {t : Geo α β → Option Bool} {t' : Geo α γ → Option Bool} (ht : ∀ b b', TwinG D f g A B c b b' → t b = t' b') :
    ∀ {a : List (Geo α β)} {a' : List (Geo α γ)}, TwinGs D f g A B c a a' → ∀ r, coversLoopG t a r = coversLoopG t' a' r
  | _, _, .nil, r => by simp only [coversLoopG]
  | _, _, .cons hc hcs, r => by simp only [coversLoopG, hc.isEmpty, ht _ _ hc, coversLoopG_congr ht hcs]

omit h hf hg hB in
mutual
theorem geoCov_congr {tab : Atom α β → Atom α β → Option Bool} {tab' : Atom α γ → Atom α γ → Option Bool}
    (ht : ∀ a a' b b', TwinA D f g A B c a a' → TwinA D f g A B c b b' → tab a b = tab' a' b') :
    ∀ {a : Geo α β} {a' : Geo α γ}, TwinG D f g A B c a a' → ∀ {o : Geo α β} {o' : Geo α γ}, TwinG D f g A B c o o' → geoCov tab a o = geoCov tab' a' o'
  | _, _, .null, _, _, _ => by simp only [geoCov]
  | _, _, .empty, _, _, _ => by simp only [geoCov]
  | _, _, .atom hx, _, _, ho => by simp only [geoCov, everyGeo_congr (fun _ _ hb => ht _ _ _ _ hx hb) ho]
  | _, _, .multi hc _, _, _, ho => by
    simp only [geoCov, coversLoopG_congr (fun _ _ hb => geoCovAny_congr ht hc hb) ho.foreach]

theorem geoCovAny_congr {tab : Atom α β → Atom α β → Option Bool} {tab' : Atom α γ → Atom α γ → Option Bool}
    (ht : ∀ a a' b b', TwinA D f g A B c a a' → TwinA D f g A B c b b' → tab a b = tab' a' b') :
    ∀ {a : List (Geo α β)} {a' : List (Geo α γ)}, TwinGs D f g A B c a a' → ∀ {o : Geo α β} {o' : Geo α γ}, TwinG D f g A B c o o' →
      geoCovAny tab a o = geoCovAny tab' a' o'
  | _, _, .nil, _, _, _ => by simp only [geoCovAny]
  | _, _, .cons hc hcs, _, _, ho => by simp only [geoCovAny, geoCov_congr ht hc ho, geoCovAny_congr ht hcs ho]
end

omit h hf hg hB in
mutual
theorem geoCov_pt {tab : Atom α β → Atom α β → Option Bool} {tab' : Atom α γ → Atom α γ → Option Bool} {p : Pt α}
    (ht : ∀ a a', TwinA D f g A B c a a' → tab a (.point p) = tab' a' (.point p)) :
    ∀ {a : Geo α β} {a' : Geo α γ}, TwinG D f g A B c a a' → geoCov tab a (.atom (.point p)) = geoCov tab' a' (.atom (.point p))
  | _, _, .null => by simp only [geoCov]
  | _, _, .empty => by simp only [geoCov]
  | _, _, .atom hx => by simp only [geoCov, everyGeo, ht _ _ hx]
  | _, _, .multi hc _ => by simp only [geoCov, Geo.foreach, coversLoopG, geoCovAny_pt ht hc]; rfl

theorem geoCovAny_pt {tab : Atom α β → Atom α β → Option Bool} {tab' : Atom α γ → Atom α γ → Option Bool} {p : Pt α}
    (ht : ∀ a a', TwinA D f g A B c a a' → tab a (.point p) = tab' a' (.point p)) :
    ∀ {a : List (Geo α β)} {a' : List (Geo α γ)}, TwinGs D f g A B c a a' → geoCovAny tab a (.atom (.point p)) = geoCovAny tab' a' (.atom (.point p))
  | _, _, .nil => by simp only [geoCovAny]
  | _, _, .cons hc hcs => by simp only [geoCovAny, geoCov_pt ht hc, geoCovAny_pt ht hcs]
end

theorem geo_pt_congr {p : Pt α} (hp : PtIn D p) {a : Geo α β} {a' : Geo α γ} (ha : TwinG D f g A B c a a') :
    geoCovers ⟨f, A, R, fuel⟩ a (.atom (.point p)) = geoCovers ⟨g, B, S, fuel⟩ a' (.atom (.point p)) ∧
    geoContains ⟨f, A, R, fuel⟩ a (.atom (.point p)) = geoContains ⟨g, B, S, fuel⟩ a' (.atom (.point p)) := by
  refine ⟨geoCov_pt (fun x x' hx => ?_) ha, geoCov_pt (fun x x' hx => ?_) ha⟩
  · cases hx with
    | point hq => rfl
    | line hl => exact lineCoversPt_congr h hl.toTwin hp
    | poly hq => exact polyHasPt_congr h hq hp true
  · cases hx with
    | point hq => rfl
    | line hl => exact lineContainsPt_congr h hl.toTwin hp
    | poly hq => exact polyHasPt_congr h hq hp false

mutual
theorem geoTouches_congr (hcw : c) {o : Geo α β} {o' : Geo α γ} (ho : TwinG D f g A B c o o') :
    ∀ {a : Geo α β} {a' : Geo α γ}, TwinG D f g A B c a a' → geoTouches ⟨f, A, R, fuel⟩ o a = geoTouches ⟨g, B, S, fuel⟩ o' a'
  | _, _, .null => by simp only [geoTouches]
  | _, _, .empty => by simp only [geoTouches]
  | _, _, .atom hx => by simp only [geoTouches, atomTouchesGeo_congr h hf hg hB hcw hx ho]
  | _, _, .multi hc _ => by simp only [geoTouches, geoTouchesLoop_congr hcw ho hc]

theorem geoTouchesLoop_congr (hcw : c) {o : Geo α β} {o' : Geo α γ} (ho : TwinG D f g A B c o o') :
    ∀ {a : List (Geo α β)} {a' : List (Geo α γ)}, TwinGs D f g A B c a a' → ∀ t,
      geoTouchesLoop ⟨f, A, R, fuel⟩ o a t = geoTouchesLoop ⟨g, B, S, fuel⟩ o' a' t
  | _, _, .nil, t => by simp only [geoTouchesLoop]
  | _, _, .cons hc hcs, t => by
    simp only [geoTouchesLoop, geoTouches_congr hcw ho hc, geoTouchesLoop_congr hcw ho hcs, geoX_congr h hf hg hB ho hc]
end

variable {a b : Geo α β} {a' b' : Geo α γ} (ha : TwinG D f g A B c a a') (hb : TwinG D f g A B c b b')
include ha hb

/-- The answers of the predicates for two geometries and their twins are the same. -/
theorem geo_congr (hcw : c) :
    geoIntersects ⟨f, A, R, fuel⟩ a b = geoIntersects ⟨g, B, S, fuel⟩ a' b' ∧ geoCovers ⟨f, A, R, fuel⟩ a b = geoCovers ⟨g, B, S, fuel⟩ a' b' ∧
    geoContains ⟨f, A, R, fuel⟩ a b = geoContains ⟨g, B, S, fuel⟩ a' b' ∧
    geoTouches ⟨f, A, R, fuel⟩ a b = geoTouches ⟨g, B, S, fuel⟩ a' b' :=
  ⟨geoX_congr h hf hg hB hb ha, geoCov_congr (fun _ _ _ _ => atomCovers_congr h hf hg hB hcw) ha hb,
    geoCov_congr (fun _ _ _ _ => atomContains_congr h hf hg hB hcw) ha hb, geoTouches_congr h hf hg hB hcw ha hb⟩

end

end Tg.S.Ag
