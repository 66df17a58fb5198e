import Mathlib.Tactic.SplitIfs
import Mathlib.Tactic.Common
import Verif.Model.Predicates
import Verif.Model.IndexOpt
import Verif.Lemmas.SeriesApi
import Verif.Props.Multi
/-! The predicates on empty geometries. -/
set_option linter.unusedSectionVars false
namespace Tg.S

variable {α β : Type*} [LinearOrder α] [LinearOrder β] [Zero α]

/-- The zero rectangle. -/
def zeroRect : Rect α := ⟨⟨0, 0⟩, ⟨0, 0⟩⟩

/-! ### What is built -/

/-- A ring or line that the constructors make. -/
def MadeRing (f : Ix α β) (A : Arith α) (closed : Bool) (r : Ring α β) : Prop :=
  ∃ (e : Env) (pts : List (Pt α)) (ix : BitVec 32), e.Ok ∧ newIx f A e pts closed ix = some r

/-- A simple geometry of rings and lines that the constructors make. -/
def Atom.Made (f : Ix α β) (A : Arith α) : Atom α β → Prop
  | .point _ => True
  | .line l => MadeRing f A false l
  | .poly p => ∀ r ∈ p.ext :: p.holes, MadeRing f A true r.ring

mutual
/-- A geometry that the constructors make: a collection with the flag has no children (`geom_new_empty`), the others have the rectangle and the index of
`multiNew`, and index rectangles that enclose the children. -/
def Geo.Made (f : Ix α β) (A : Arith α) (H : HArith α) (Q : Qsort) : Geo α β → Prop
  | .null => True
  | .empty => True
  | .atom a => a.Made f A
  | .multi flag cs rect ix ixg =>
    (flag = true → cs = []) ∧ multiNew f H Q Geo.rect cs = some ⟨cs, rect, ix, ixg⟩ ∧ (∀ c ∈ cs, f.Encloses c.rect) ∧ AllMade f A H Q cs

/-- All children are made by the constructors. -/
def AllMade (f : Ix α β) (A : Arith α) (H : HArith α) (Q : Qsort) : List (Geo α β) → Prop
  | [] => True
  | c :: cs => c.Made f A H Q ∧ AllMade f A H Q cs
end

/-! ### Rings without segments -/

/-- A ring without segments. -/
structure Dead (r : Ring α β) : Prop where
  index : r.index = none
  ystripes : r.ystripes = none
  nsegs : r.nsegs = 0
  empty : ringEmpty r = true

theorem newIx_short {f : Ix α β} (hf : f.Lawful) {A : Arith α} {e : Env} (he : e.Ok) {pts : List (Pt α)} {closed : Bool} {ix : BitVec 32} {r : Ring α β}
    (h : newIx f A e pts closed ix = some r) (h2 : pts.length < 2) : r.rect = zeroRect := by
  unfold newIx seriesNew at h
  dsimp only at h
  match pts, h2 with
  | [], _ =>
    simp only [seriesBase] at h
    split at h
    · split at h
      · cases h
      · split at h
        · cases h
        · cases h; rfl
    · cases h; rfl
  | [_], _ =>
    simp only [seriesBase] at h
    split at h
    · split at h
      · cases h
      · split at h
        · cases h
        · cases h; rfl
    · cases h; rfl

theorem ringEmpty_eq {f : Ix α β} {pts : List (Pt α)} {closed : Bool} {sp : Nat} {r : Ring α β} (h : RingOk f pts closed sp r) :
    ringEmpty r = (closed && decide (pts.length < 3) || decide (pts.length < 2)) := by
  rw [ringEmpty, h.closed_eq, h.npoints_eq]

theorem MadeRing.dead {f : Ix α β} (hf : f.Lawful) {A : Arith α} {closed : Bool} {r : Ring α β} (h : MadeRing f A closed r)
    (he : ringEmpty r = true) : Dead r := by
  obtain ⟨e, pts, ix, hok, h⟩ := h
  obtain ⟨h1, h2, h3, -⟩ := newIx_some hf hok h
  have hl : pts.length < 3 ∧ (closed = false → pts.length < 2) := by
    rw [ringEmpty_eq h1] at he
    cases closed <;> simp at he ⊢ <;> omega
  have hk : kindsOf e pts.length closed ix = (false, false) := by
    have := extractSpread_ge hok ix
    unfold kindsOf indexKinds spreadOf
    rw [if_neg (by omega)]
  refine ⟨?_, ?_, ?_, he⟩
  · rw [hk] at h2
    cases hi : r.index with
    | none => rfl
    | some _ => rw [hi] at h2; simp at h2
  · rw [hk] at h3
    cases hi : r.ystripes with
    | none => rfl
    | some _ => rw [hi] at h3; simp at h3
  · rw [h1.nsegs_eq, ← numSegments_eq]
    unfold numSegments
    cases closed
    · simp only [Bool.false_eq_true, if_false]
      rw [if_pos (hl.2 rfl)]
    · simp only [if_true]
      rw [if_pos hl.1]

theorem MadeRing.valid {f : Ix α β} (hf : f.Lawful) {A : Arith α} {closed : Bool} {r : Ring α β} (h : MadeRing f A closed r) : r.rect.Valid := by
  obtain ⟨e, pts, ix, hok, h⟩ := h
  obtain ⟨h1, -⟩ := newIx_some hf hok h
  by_cases h2 : pts.length < 2
  · rw [newIx_short hf hok h h2]
    exact ⟨le_rfl, le_rfl⟩
  · match pts, h2 with
    | [], h2 => simp at h2
    | q :: _, h2 =>
      have := h1.rect_has (by omega) q (by simp)
      exact ⟨this.1.trans this.2.1, this.2.2.1.trans this.2.2.2⟩

namespace Dead
variable {r : Ring α β} (h : Dead r)
include h

theorem search {σ : Type*} (f : Ix α β) (q : Rect α) (iter : Iter α σ) (st : σ) : ringSearch f r q iter st = some (st, true) := by
  rw [ringSearch, h.index, h.nsegs]
  rfl

theorem coversPt (f : Ix α β) (A : Arith α) (p : Pt α) : lineCoversPt f A r p = some false := by
  rw [lineCoversPt, h.search]; rfl

theorem containsPt (f : Ix α β) (A : Arith α) (p : Pt α) (edge : Bool) : ringContainsPoint f A r p edge = some (false, none) := by
  rw [ringContainsPoint, h.ystripes, h.index, h.nsegs]
  split_ifs <;> rfl

theorem hit (P : Par α β) (p : Pt α) (edge : Bool) (cv cw : Bool) : hit P ⟨r, cv, cw⟩ p edge = some false := by
  rw [S.hit, h.containsPt]; rfl

theorem xSeg (f : Ix α β) (A : Arith α) (s : Seg α) (edge : Bool) : ringXSeg f A r s edge = some false := by
  rw [ringXSeg, h.containsPt, h.containsPt, h.search]
  split_ifs <;> simp

theorem isEmpty : r.isEmpty = true := h.empty

end Dead

theorem anyOf_false {γ : Type*} {t : γ → Option Bool} : ∀ {l : List γ}, (∀ x ∈ l, t x = some false) → anyOf t l = some false
  | [], _ => rfl
  | x :: l, h => by
    rw [anyOf, h x (by simp)]
    exact anyOf_false fun y hy => h y (by simp [hy])

theorem inHole_none {t ans : FRing α β → Option Bool} {rest : Option Bool} : ∀ {l : List (FRing α β)}, (∀ x ∈ l, t x = some false) →
    inHole t ans rest l = rest
  | [], _ => rfl
  | x :: l, h => by
    rw [inHole, h x (by simp)]
    exact inHole_none fun y hy => h y (by simp [hy])

/-! ### Simple geometries -/

/-- `tg_geom_is_empty` of a simple geometry. -/
def Atom.isEmpty : Atom α β → Bool
  | .point _ => false
  | .line l => ringEmpty l
  | .poly p => polyEmpty p

/-- A linestring with one point, or a polygon that has holes but an exterior with fewer than three points. -/
def Atom.Odd : Atom α β → Prop
  | .point _ => False
  | .line l => l.npoints = 1
  | .poly p => polyEmpty p = true ∧ p.holes ≠ []

section
variable {P : Par α β}

theorem polyHasPt_empty {q : PolyS α β} (h : Dead q.ext.ring) (p : Pt α) (edge : Bool) : polyHasPt P q p edge = some false := by
  match q, h with
  | .ring r, h => exact Dead.hit h P p edge _ _
  | .poly e hs, h =>
    rw [polyHasPt]
    simp only [PolyS.ext] at h
    rw [if_pos h.empty]

theorem polyXLine_empty {q : PolyS α β} {l : Ring α β} (h : ringEmpty q.ext.ring = true ∨ ringEmpty l = true) : polyXLine P q l = some false := by
  match q, h with
  | .ring r, h =>
    simp only [PolyS.ext] at h
    rw [polyXLine, ringXLine, if_pos (by rcases h with h | h <;> simp [h])]
  | .poly e hs, h =>
    simp only [PolyS.ext] at h
    rw [polyXLine, if_pos (by rcases h with h | h <;> simp [h])]

theorem polyXPoly_empty {q r : PolyS α β} (h : ringEmpty q.ext.ring = true ∨ ringEmpty r.ext.ring = true) : polyXPoly P q r = some false := by
  have hg : (polyEmpty q || polyEmpty r) = true := by rcases h with h | h <;> simp [polyEmpty, h]
  match q, r, h, hg with
  | .ring q, .ring r, h, _ =>
    simp only [PolyS.ext] at h
    rw [polyXPoly, ringXRing, if_pos (by rcases h with h | h <;> simp [h])]
  | .poly _ _, .ring _, _, hg => rw [polyXPoly, if_pos hg]; simp
  | .ring _, .poly _ _, _, hg => rw [polyXPoly, if_pos hg]; simp
  | .poly _ _, .poly _ _, _, hg => rw [polyXPoly, if_pos hg]; simp

theorem polyCoversPoly_empty {q r : PolyS α β} (h : ringEmpty q.ext.ring = true ∨ ringEmpty r.ext.ring = true) : polyCoversPoly P q r = some false := by
  have hg : (polyEmpty q || polyEmpty r) = true := by rcases h with h | h <;> simp [polyEmpty, h]
  match q, r, h, hg with
  | .ring q, .ring r, h, _ =>
    simp only [PolyS.ext] at h
    rw [polyCoversPoly, hasRing, ringHasRing, if_pos (by rcases h with h | h <;> simp [h])]
  | .poly _ _, .ring _, _, hg => rw [polyCoversPoly, if_pos hg]; simp
  | .ring _, .poly _ _, _, hg => rw [polyCoversPoly, if_pos hg]; simp
  | .poly _ _, .poly _ _, _, hg => rw [polyCoversPoly, if_pos hg]; simp

theorem lineXLine_empty {l m : Ring α β} (h : ringEmpty l = true ∨ ringEmpty m = true) : lineXLine P l m = some false := by
  rw [lineXLine, ringRingSearch, if_pos]
  · rfl
  · rcases h with h | h
    · have : l.isEmpty = true := h
      simp [this]
    · have : m.isEmpty = true := h
      simp [this]

variable (hf : P.f.Lawful)
include hf

theorem Atom.dead_line {l : Ring α β} (hm : Atom.Made P.f P.A (.line l)) (h : Atom.isEmpty (.line l) = true) : Dead l := MadeRing.dead hf hm h

theorem Atom.dead_poly {q : PolyS α β} (hm : Atom.Made P.f P.A (.poly q)) (h : Atom.isEmpty (.poly q) = true) : Dead q.ext.ring :=
  MadeRing.dead hf (hm _ (by simp)) h

theorem atomX_empty {a b : Atom α β} (ha : a.Made P.f P.A) (hb : b.Made P.f P.A) (h : a.isEmpty = true ∨ b.isEmpty = true) : atomX P a b = some false := by
  match a, b, ha, hb, h with
  | .point p, .point q, _, _, h => simp [Atom.isEmpty] at h
  | .point p, .line l, _, hb, h =>
    rcases h with h | h
    · cases h
    · exact (Atom.dead_line hf hb h).coversPt _ _ _
  | .point p, .poly q, _, hb, h =>
    rcases h with h | h
    · cases h
    · exact polyHasPt_empty (Atom.dead_poly hf hb h) _ _
  | .line l, .point p, ha, _, h =>
    rcases h with h | h
    · exact (Atom.dead_line hf ha h).coversPt _ _ _
    · cases h
  | .line l, .line m, _, _, h => exact lineXLine_empty h
  | .line l, .poly q, _, _, h => exact polyXLine_empty h.symm
  | .poly q, .point p, ha, _, h =>
    rcases h with h | h
    · exact polyHasPt_empty (Atom.dead_poly hf ha h) _ _
    · cases h
  | .poly q, .line l, _, _, h => exact polyXLine_empty h
  | .poly q, .poly r, _, _, h => exact polyXPoly_empty h

theorem atomCovers_empty {a b : Atom α β} (ha : a.Made P.f P.A) (_hb : b.Made P.f P.A) (h : a.isEmpty = true ∨ b.isEmpty = true) :
    atomCovers P a b = some false := by
  match a, b, ha, h with
  | .point p, .point q, _, h => simp [Atom.isEmpty] at h
  | .point p, .line l, _, h =>
    rcases h with h | h
    · cases h
    · simp only [Atom.isEmpty] at h
      simp [atomCovers, ptCoversLine, h]
  | .point p, .poly q, _, h =>
    rcases h with h | h
    · cases h
    · simp only [Atom.isEmpty] at h
      simp [atomCovers, ptCoversPoly, h]
  | .line l, .point p, ha, h =>
    rcases h with h | h
    · exact (Atom.dead_line hf ha h).coversPt _ _ _
    · cases h
  | .line l, .line m, _, h =>
    simp only [Atom.isEmpty] at h
    rw [atomCovers, lineCoversLine, if_pos (by rcases h with h | h <;> simp [h])]
  | .line l, .poly q, _, h =>
    simp only [Atom.isEmpty] at h
    rw [atomCovers, lineCoversPoly, if_pos (by rcases h with h | h <;> simp [h])]
  | .poly q, .point p, ha, h =>
    rcases h with h | h
    · exact polyHasPt_empty (Atom.dead_poly hf ha h) _ _
    · cases h
  | .poly q, .line l, _, h =>
    simp only [Atom.isEmpty] at h
    rw [atomCovers, polyCoversLine, if_pos (by rcases h with h | h <;> simp [h])]
  | .poly q, .poly r, _, h => exact polyCoversPoly_empty h

theorem atomContains_empty {a b : Atom α β} (ha : a.Made P.f P.A) (_hb : b.Made P.f P.A) (h : a.isEmpty = true ∨ b.isEmpty = true) :
    atomContains P a b = some false := by
  match a, b, ha, h with
  | .point p, .point q, _, h => simp [Atom.isEmpty] at h
  | .point p, .line l, _, h =>
    rcases h with h | h
    · cases h
    · simp only [Atom.isEmpty] at h
      simp [atomContains, ptCoversLine, h]
  | .point p, .poly q, _, h => rfl
  | .line l, .point p, ha, h =>
    rcases h with h | h
    · rw [atomContains, lineContainsPt, (Atom.dead_line hf ha h).coversPt]
    · cases h
  | .line l, .line m, _, h =>
    simp only [Atom.isEmpty] at h
    rw [atomContains, lineCoversLine, if_pos (by rcases h with h | h <;> simp [h])]
  | .line l, .poly q, _, h => rfl
  | .poly q, .point p, ha, h =>
    rcases h with h | h
    · exact polyHasPt_empty (Atom.dead_poly hf ha h) _ _
    · cases h
  | .poly q, .line l, _, h =>
    simp only [Atom.isEmpty] at h
    rw [atomContains, polyContainsLine, if_pos (by rcases h with h | h <;> simp [h])]
  | .poly q, .poly r, _, h => exact polyCoversPoly_empty h

omit hf in
theorem hasLine_empty {r : FRing α β} {l : Ring α β} {e b : Bool} (h : ringEmpty r.ring = true ∨ ringEmpty l = true) : hasLine P r l e b = some false := by
  rw [hasLine, ringHasLine, if_pos (by rcases h with h | h <;> simp [h])]

omit hf in
theorem hasRing_empty {r s : FRing α β} {e : Bool} (h : ringEmpty r.ring = true ∨ ringEmpty s.ring = true) : hasRing P r s e = some false := by
  rw [hasRing, ringHasRing, if_pos (by rcases h with h | h <;> simp [h])]

theorem polyTouchesLine_empty {q : PolyS α β} {l : Ring α β} (hq : Atom.Made P.f P.A (.poly q)) (hl : Atom.Made P.f P.A (.line l))
    (h : Atom.isEmpty (.poly q) = true ∨ Atom.isEmpty (.line l) = true) (o1 : ¬ (Atom.poly q).Odd) (o2 : ¬ (Atom.line l).Odd) :
    polyTouchesLine P q l = some false := by
  rw [polyTouchesLine]
  split_ifs with hr
  · rfl
  · have h0 : polyEmpty q = true → q.holes = [] := fun h => by
      by_contra hn
      exact o1 ⟨h, hn⟩
    rcases h with h | h
    · have hd := Atom.dead_poly hf hq h
      rw [h0 h, inHole, anyOf_false]
      · rfl
      · intro p _
        exact hd.coversPt _ _ _
    · have hd := Atom.dead_line hf hl h
      rw [inHole_none fun x _ => hasLine_empty (.inr hd.empty)]
      have hp : ptsOf l = [] := by
        have : l.npoints = 0 := by
          have h1 : ringEmpty l = true := h
          obtain ⟨e, pts, ix, hok, hn⟩ := hl
          obtain ⟨k1, -⟩ := newIx_some hf hok hn
          have o2 : l.npoints ≠ 1 := o2
          rw [ringEmpty, k1.closed_eq] at h1
          simp at h1
          omega
        rw [ptsOf, this]; rfl
      rw [hp]
      rfl

omit hf in
theorem countTouches_dead {r : Ring α β} (h : Dead r) {points : List (Pt α)} : ∀ {is : List Nat} {n : Nat}, (∀ i ∈ is, segAt points i ≠ none) →
    countTouches P r points is n = some (some n)
  | [], _, _ => rfl
  | i :: is, n, hs => by
    rw [countTouches]
    cases hi : segAt points i with
    | none => exact absurd hi (hs i (by simp))
    | some s =>
      dsimp only
      rw [h.xSeg, h.xSeg]
      simp only [Bool.false_and, Bool.false_eq_true, if_false, Bool.or_self]
      exact countTouches_dead h fun j hj => hs j (by simp [hj])

theorem MadeRing.segAt {r : Ring α β} (h : MadeRing P.f P.A true r) : ∀ i ∈ List.range r.nsegs, segAt r.points i ≠ none := by
  obtain ⟨e, pts, ix, hok, h⟩ := h
  obtain ⟨h1, -⟩ := newIx_some hf hok h
  intro i hi
  have hi := List.mem_range.1 hi
  rw [h1.nsegs_eq] at hi
  rw [h1.points_eq, segAt_eq _ _ hi, List.getElem?_eq_getElem hi]
  exact Option.some_ne_none _

theorem polyTouchesPoly_empty {q r : PolyS α β} (hq : Atom.Made P.f P.A (.poly q)) (hr : Atom.Made P.f P.A (.poly r))
    (h : Atom.isEmpty (.poly q) = true ∨ Atom.isEmpty (.poly r) = true) (o1 : ¬ (Atom.poly q).Odd) (o2 : ¬ (Atom.poly r).Odd) :
    polyTouchesPoly P q r = some false := by
  rw [polyTouchesPoly]
  split_ifs with hx
  · rfl
  · dsimp only
    have k1 : polyEmpty q = true → q.holes = [] := fun h => by
      by_contra hn
      exact o1 ⟨h, hn⟩
    have k2 : polyEmpty r = true → r.holes = [] := fun h => by
      by_contra hn
      exact o2 ⟨h, hn⟩
    have e1 : ∀ x ∈ q.holes, hasRing P x r.ext true = some false := by
      rcases h with h | h
      · rw [k1 h]; simp
      · intro x _
        exact hasRing_empty (.inr h)
    have e2 : ∀ x ∈ r.holes, hasRing P x q.ext true = some false := by
      rcases h with h | h
      · intro x _
        exact hasRing_empty (.inr h)
      · rw [k2 h]; simp
    rw [inHole_none e1, inHole_none e2, extTouches]
    rcases h with h | h
    · have hd := Atom.dead_poly hf hq h
      rw [countTouches_dead hd (MadeRing.segAt hf (hr _ (by simp))), hd.nsegs]
      rfl
    · have hd := Atom.dead_poly hf hr h
      rw [hd.nsegs]
      simp only [List.range_zero, countTouches]
      rw [countTouches_dead hd (MadeRing.segAt hf (hq _ (by simp)))]
      rfl

theorem ptTouchesPoly_empty {p : Pt α} {q : PolyS α β} (hq : Atom.Made P.f P.A (.poly q)) (h : Atom.isEmpty (.poly q) = true) (o : ¬ (Atom.poly q).Odd) :
    ptTouchesPoly P p q = some false := by
  have h0 : q.holes = [] := by
    by_contra hn
    exact o ⟨h, hn⟩
  rw [ptTouchesPoly, h0]
  exact anyOf_false fun r hr => by
    have : r = q.ext := by simpa using hr
    rw [this]
    exact (Atom.dead_poly hf hq h).coversPt _ _ _

theorem atomTouches_empty {a b : Atom α β} (ha : a.Made P.f P.A) (hb : b.Made P.f P.A) (h : a.isEmpty = true ∨ b.isEmpty = true) (oa : ¬ a.Odd)
    (ob : ¬ b.Odd) : atomTouches P a b = some false := by
  have key : ∀ {p : Pt α} {l : Ring α β}, Dead l → ptTouchesLine p l = some false := fun h => by rw [ptTouchesLine, if_pos h.nsegs]
  match a, b, ha, hb, h, oa, ob with
  | .point p, .point q, _, _, _, _, _ => rfl
  | .point p, .line l, _, hb, h, _, _ =>
    rcases h with h | h
    · cases h
    · exact key (Atom.dead_line hf hb h)
  | .point p, .poly q, _, hb, h, _, ob =>
    rcases h with h | h
    · cases h
    · exact ptTouchesPoly_empty hf hb h ob
  | .line l, .point p, ha, _, h, _, _ =>
    rcases h with h | h
    · exact key (Atom.dead_line hf ha h)
    · cases h
  | .line l, .line m, _, _, h, _, _ =>
    rw [atomTouches, lineTouchesLine, ringRingSearch, if_pos]
    · rfl
    · rcases h with h | h
      · have : l.isEmpty = true := h
        simp [this]
      · have : m.isEmpty = true := h
        simp [this]
  | .line l, .poly q, ha, hb, h, oa, ob => exact polyTouchesLine_empty hf hb ha h.symm ob oa
  | .poly q, .point p, ha, _, h, oa, _ =>
    rcases h with h | h
    · exact ptTouchesPoly_empty hf ha h oa
    · cases h
  | .poly q, .line l, ha, hb, h, oa, ob => exact polyTouchesLine_empty hf ha hb h oa ob
  | .poly q, .poly r, ha, hb, h, oa, ob => exact polyTouchesPoly_empty hf ha hb h oa ob

end

/-! ### Geometries -/

mutual
/-- All simple geometries in the geometry satisfy the predicate. -/
def Geo.Each (D : Atom α β → Prop) : Geo α β → Prop
  | .null => True
  | .empty => True
  | .atom a => D a
  | .multi _ cs _ _ _ => EachIn D cs

/-- All simple geometries in the children. -/
def EachIn (D : Atom α β → Prop) : List (Geo α β) → Prop
  | [] => True
  | c :: cs => c.Each D ∧ EachIn D cs
end

mutual
theorem Geo.Each.imp {D E : Atom α β → Prop} (h : ∀ a, D a → E a) : ∀ {g : Geo α β}, g.Each D → g.Each E
  | .null, _ => by rw [Geo.Each]; trivial
  | .empty, _ => by rw [Geo.Each]; trivial
  | .atom a, k => by rw [Geo.Each] at k ⊢; exact h a k
  | .multi _ cs _ _ _, k => by rw [Geo.Each] at k ⊢; exact EachIn.imp h k
theorem EachIn.imp {D E : Atom α β → Prop} (h : ∀ a, D a → E a) : ∀ {cs : List (Geo α β)}, EachIn D cs → EachIn E cs
  | [], _ => by rw [EachIn]; trivial
  | c :: cs, k => by rw [EachIn] at k ⊢; exact ⟨Geo.Each.imp h k.1, EachIn.imp h k.2⟩
end

mutual
theorem Geo.Each.and {D E : Atom α β → Prop} : ∀ {g : Geo α β}, g.Each D → g.Each E → g.Each fun a => D a ∧ E a
  | .null, _, _ => by rw [Geo.Each]; trivial
  | .empty, _, _ => by rw [Geo.Each]; trivial
  | .atom a, k, l => by rw [Geo.Each] at k l ⊢; exact ⟨k, l⟩
  | .multi _ cs _ _ _, k, l => by rw [Geo.Each] at k l ⊢; exact EachIn.and k l
theorem EachIn.and {D E : Atom α β → Prop} : ∀ {cs : List (Geo α β)}, EachIn D cs → EachIn E cs → EachIn (fun a => D a ∧ E a) cs
  | [], _, _ => by rw [EachIn]; trivial
  | c :: cs, k, l => by rw [EachIn] at k l ⊢; exact ⟨Geo.Each.and k.1 l.1, EachIn.and k.2 l.2⟩
end

theorem EachIn.mem {D : Atom α β → Prop} : ∀ {cs : List (Geo α β)}, EachIn D cs → ∀ c ∈ cs, c.Each D
  | [], _, c, h => by simp at h
  | x :: cs, k, c, h => by
    rw [EachIn] at k
    rcases List.mem_cons.1 h with rfl | h
    · exact k.1
    · exact k.2.mem c h

theorem AllMade.mem {f : Ix α β} {A : Arith α} {H : HArith α} {Q : Qsort} : ∀ {cs : List (Geo α β)}, AllMade f A H Q cs → ∀ c ∈ cs, c.Made f A H Q
  | [], _, c, h => by simp at h
  | x :: cs, k, c, h => by
    rw [AllMade] at k
    rcases List.mem_cons.1 h with rfl | h
    · exact k.1
    · exact k.2.mem c h

theorem Geo.Each.foreach {D : Atom α β → Prop} {g : Geo α β} (h : g.Each D) : ∀ o ∈ g.foreach, o.Each D := by
  match g, h with
  | .null, h => intro o ho; simp [Geo.foreach] at ho
  | .empty, h => intro o ho; simp [Geo.foreach] at ho; rw [ho]; exact h
  | .atom a, h => intro o ho; simp [Geo.foreach] at ho; rw [ho]; exact h
  | .multi _ cs _ _ _, h => rw [Geo.Each] at h; intro o ho; rw [Geo.foreach] at ho; exact h.mem o ho

mutual
theorem Geo.Made.each {f : Ix α β} {A : Arith α} {H : HArith α} {Q : Qsort} : ∀ {g : Geo α β}, g.Made f A H Q → g.Each fun a => a.Made f A
  | .null, _ => by rw [Geo.Each]; trivial
  | .empty, _ => by rw [Geo.Each]; trivial
  | .atom a, k => by rw [Geo.Made] at k; rw [Geo.Each]; exact k
  | .multi _ cs _ _ _, k => by rw [Geo.Made] at k; rw [Geo.Each]; exact AllMade.each k.2.2.2
theorem AllMade.each {f : Ix α β} {A : Arith α} {H : HArith α} {Q : Qsort} : ∀ {cs : List (Geo α β)}, AllMade f A H Q cs → EachIn (fun a => a.Made f A) cs
  | [], _ => by rw [EachIn]; trivial
  | c :: cs, k => by rw [AllMade] at k; rw [EachIn]; exact ⟨Geo.Made.each k.1, AllMade.each k.2⟩
end

mutual
theorem Geo.Made.each_empty {f : Ix α β} {A : Arith α} {H : HArith α} {Q : Qsort} : ∀ {g : Geo α β}, g.Made f A H Q → g.isEmpty = true →
    g.Each fun a => a.isEmpty = true
  | .null, _, _ => by rw [Geo.Each]; trivial
  | .empty, _, _ => by rw [Geo.Each]; trivial
  | .atom (.point _), _, h => by rw [Geo.isEmpty] at h; cases h
  | .atom (.line l), _, h => by rw [Geo.isEmpty] at h; rw [Geo.Each]; exact h
  | .atom (.poly l), _, h => by rw [Geo.isEmpty] at h; rw [Geo.Each]; exact h
  | .multi flag cs _ _ _, k, h => by
    rw [Geo.Made] at k
    rw [Geo.isEmpty] at h
    rw [Geo.Each]
    rcases Bool.or_eq_true_iff.1 h with h | h
    · rw [k.1 h, EachIn]; trivial
    · exact AllMade.each_empty k.2.2.2 h
theorem AllMade.each_empty {f : Ix α β} {A : Arith α} {H : HArith α} {Q : Qsort} : ∀ {cs : List (Geo α β)}, AllMade f A H Q cs → allEmpty cs = true →
    EachIn (fun a => a.isEmpty = true) cs
  | [], _, _ => by rw [EachIn]; trivial
  | c :: cs, k, h => by
    rw [AllMade] at k
    rw [allEmpty] at h
    rw [EachIn]
    have h := Bool.and_eq_true_iff.1 h
    exact ⟨Geo.Made.each_empty k.1 h.1, AllMade.each_empty k.2 h.2⟩
end

mutual
theorem Geo.each_of {D : Atom α β → Prop} (h : ∀ a, D a) : ∀ g : Geo α β, g.Each D
  | .null => by rw [Geo.Each]; trivial
  | .empty => by rw [Geo.Each]; trivial
  | .atom a => by rw [Geo.Each]; exact h a
  | .multi _ cs _ _ _ => by rw [Geo.Each]; exact eachIn_of h cs
theorem eachIn_of {D : Atom α β → Prop} (h : ∀ a, D a) : ∀ cs : List (Geo α β), EachIn D cs
  | [] => by rw [EachIn]; trivial
  | c :: cs => by rw [EachIn]; exact ⟨Geo.each_of h c, eachIn_of h cs⟩
end

mutual
theorem someGeo_false {t : Atom α β → Option Bool} : ∀ {g : Geo α β}, g.Each (fun b => t b = some false) → someGeo t g = some false
  | .null, _ => by rw [someGeo]
  | .empty, _ => by rw [someGeo]
  | .atom a, k => by rw [Geo.Each] at k; rw [someGeo]; exact k
  | .multi flag cs _ _ _, k => by
    rw [Geo.Each] at k
    rw [someGeo]
    split_ifs
    · rfl
    · exact someGeos_false k
theorem someGeos_false {t : Atom α β → Option Bool} : ∀ {cs : List (Geo α β)}, EachIn (fun b => t b = some false) cs → someGeos t cs = some false
  | [], _ => by rw [someGeos]
  | c :: cs, k => by
    rw [EachIn] at k
    rw [someGeos, someGeo_false k.1]
    exact someGeos_false k.2
end

mutual
theorem everyGeo_false {t : Atom α β → Option Bool} : ∀ {g : Geo α β}, g.Each (fun b => t b = some false) → everyGeo t g = some false
  | .null, _ => by rw [everyGeo]
  | .empty, _ => by rw [everyGeo]
  | .atom a, k => by rw [Geo.Each] at k; rw [everyGeo]; exact k
  | .multi flag cs _ _ _, k => by
    rw [Geo.Each] at k
    rw [everyGeo]
    split_ifs with h
    · rfl
    · exact everyGeos_false k (by rintro rfl; simp at h)
theorem everyGeos_false {t : Atom α β → Option Bool} : ∀ {cs : List (Geo α β)}, EachIn (fun b => t b = some false) cs → cs ≠ [] → everyGeos t cs = some false
  | [], _, h => absurd rfl h
  | c :: cs, k, _ => by
    rw [EachIn] at k
    rw [everyGeos, everyGeo_false k.1]
end

mutual
theorem polyTouchesGeo_false {P : Par α β} {q : PolyS α β} : ∀ {g : Geo α β},
    g.Each (fun b => atomTouches P (.poly q) b = some false ∧ atomX P (.poly q) b = some false) → polyTouchesGeo P q g = some false
  | .null, _ => by rw [polyTouchesGeo]
  | .empty, _ => by rw [polyTouchesGeo]
  | .atom a, k => by rw [Geo.Each] at k; rw [polyTouchesGeo]; exact k.1
  | .multi flag cs _ _ _, k => by
    rw [Geo.Each] at k
    rw [polyTouchesGeo]
    split_ifs
    · rfl
    · exact polyTouchesGeos_false k
theorem polyTouchesGeos_false {P : Par α β} {q : PolyS α β} : ∀ {cs : List (Geo α β)},
    EachIn (fun b => atomTouches P (.poly q) b = some false ∧ atomX P (.poly q) b = some false) cs → polyTouchesGeos P q cs false = some false
  | [], _ => by rw [polyTouchesGeos]
  | c :: cs, k => by
    rw [EachIn] at k
    rw [polyTouchesGeos, polyTouchesGeo_false k.1]
    dsimp only
    rw [someGeo_false (k.1.imp fun _ h => h.2)]
    exact polyTouchesGeos_false k.2
end

/-! ### Rectangles -/

theorem Rect.Le.valid {r s : Rect α} (h : r.Le s) (hr : r.Valid) : s.Valid :=
  ⟨h.1.trans (hr.1.trans h.2.1), h.2.2.1.trans (hr.2.trans h.2.2.2)⟩

theorem multiNew_nil {γ : Type*} {f : Ix α β} {H : HArith α} {Q : Qsort} {rectOf : γ → Rect α} {m : Multi α β γ}
    (h : multiNew f H Q rectOf [] = some m) : m.rect = zeroRect := by
  unfold multiNew multiSpread at h
  dsimp only at h
  rw [if_neg (by simp)] at h
  cases h
  rfl

mutual
theorem Geo.Made.valid {f : Ix α β} (hf : f.Lawful) {A : Arith α} {H : HArith α} {Q : Qsort} (hQ : QsortOk Q) : ∀ {g : Geo α β}, g.Made f A H Q →
    g.rect.Valid
  | .null, _ => by rw [Geo.rect]; exact ⟨le_rfl, le_rfl⟩
  | .empty, _ => by rw [Geo.rect]; exact ⟨le_rfl, le_rfl⟩
  | .atom (.point p), _ => by rw [Geo.rect]; exact ⟨le_rfl, le_rfl⟩
  | .atom (.line l), k => by rw [Geo.Made] at k; rw [Geo.rect]; exact MadeRing.valid hf k
  | .atom (.poly l), k => by rw [Geo.Made] at k; rw [Geo.rect]; exact MadeRing.valid hf (k _ (by simp))
  | .multi flag [] _ _ _, k => by
    rw [Geo.Made] at k
    rw [Geo.rect]
    have := multiNew_nil k.2.1
    dsimp only at this
    rw [this]
    exact ⟨le_rfl, le_rfl⟩
  | .multi flag (c :: cs) _ _ _, k => by
    rw [Geo.Made, AllMade] at k
    rw [Geo.rect]
    exact ((multiNew_ok hQ k.2.1).1.rect_le c (by simp)).valid (Geo.Made.valid hf hQ k.2.2.2.1)
end

/-! ### The searches over the children -/

theorem geoXs_length {P : Par α β} {b : Geo α β} : ∀ cs : List (Geo α β), (geoXs P b cs).length = cs.length
  | [] => by rw [geoXs]; rfl
  | c :: cs => by rw [geoXs, List.length_cons, geoXs_length cs, List.length_cons]

theorem geoXs_getElem {P : Par α β} {b : Geo α β} : ∀ (cs : List (Geo α β)) (i : Nat), (geoXs P b cs)[i]? = (cs[i]?).map (geoX P b)
  | [], i => by rw [geoXs]; simp
  | c :: cs, 0 => by rw [geoXs]; simp
  | c :: cs, i + 1 => by rw [geoXs]; simp [geoXs_getElem cs i]

theorem visit_answers {P : Par α β} {b : Geo α β} {cs : List (Geo α β)} : ∀ (l : List (Geo α β × Nat)), (∀ x ∈ l, cs[x.2]? = some x.1) →
    (∀ x ∈ l, geoX P b x.1 ≠ none) →
    visit (fun x : Geo α β × Nat => multiIter (geoXs P b cs) x.1 x.2) l (some false) = some (l.any fun x => geoX P b x.1 == some true)
  | [], _, _ => rfl
  | x :: l, h, hn => by
    have hx := h x (by simp)
    rw [visit, multiIter, geoXs_getElem, hx]
    simp only [Option.map_some]
    rcases hg : geoX P b x.1 with _ | (_ | _)
    · exact absurd hg (hn x (by simp))
    · dsimp only
      rw [visit_answers l (fun y hy => h y (by simp [hy])) fun y hy => hn y (by simp [hy])]
      simp [hg]
    · simp [hg]

/-- `tg_geom_intersects` on a collection: its children, if all of the answers are defined. -/
theorem geoX_multi {P : Par α β} (hf : P.f.Lawful) (hw : ∀ x y : β, x ≤ y → P.f.wide x ≤ P.f.wide y) {H : HArith α} {Q : Qsort} (hQ : QsortOk Q)
    {b : Geo α β} {cs : List (Geo α β)} {rect : Rect α} {ix : Option (Index β)} {ixg : List Nat} (hm : (Geo.multi false cs rect ix ixg).Made P.f P.A H Q)
    (hn : ∀ c ∈ cs, geoX P b c ≠ none) : geoX P b (.multi false cs rect ix ixg) = some (cs.any fun c => geoX P b c == some true) := by
  classical
  have hrv := Geo.Made.valid hf hQ hm
  rw [Geo.rect] at hrv
  rw [Geo.Made] at hm
  obtain ⟨-, hmul, henc, hall⟩ := hm
  obtain ⟨order, hp, -, hs⟩ := C39_search hw hQ hmul (fun c hc => Geo.Made.valid hf hQ (hall.mem c hc)) henc
  have hkey := hs rect hrv (multiIter (geoXs P b cs)) (some false)
  have hfil : (order.filter fun x => RectsShare x.1.rect rect) = order := by
    rw [List.filter_eq_self]
    intro x hx
    have hxc : x.1 ∈ cs := List.fst_mem_of_mem_zipIdx (hp.subset hx)
    have hle := (multiNew_ok hQ hmul).1.rect_le x.1 hxc
    have hv := Geo.Made.valid hf hQ (hall.mem x.1 hxc)
    simp only [decide_eq_true_eq]
    refine ⟨x.1.rect.lo, ⟨le_rfl, hv.1, le_rfl, hv.2⟩, hle.1, hv.1.trans hle.2.1, hle.2.2.1, hv.2.trans hle.2.2.2⟩
  rw [hfil, visit_answers order (fun x hx => by
      have := hp.subset hx
      exact List.mem_zipIdx_iff_getElem?.1 this) (fun x hx => hn x.1 (List.fst_mem_of_mem_zipIdx (hp.subset hx)))] at hkey
  have hany : (order.any fun x => geoX P b x.1 == some true) = cs.any fun c => geoX P b c == some true := by
    rw [hp.any_eq, Bool.eq_iff_iff, List.any_eq_true, List.any_eq_true]
    constructor
    · rintro ⟨x, hx, h⟩
      exact ⟨x.1, List.fst_mem_of_mem_zipIdx hx, h⟩
    · rintro ⟨c, hc, h⟩
      obtain ⟨i, hi, rfl⟩ := List.mem_iff_getElem.1 hc
      exact ⟨(cs[i], i), List.mem_zipIdx_iff_getElem?.2 (List.getElem?_eq_getElem hi), h⟩
  rw [hany] at hkey
  rw [geoX]
  simp only [Bool.false_eq_true, if_false]
  cases hg : geomSearch P.f Geo.rect ⟨cs, rect, ix, ixg⟩ rect (multiIter (geoXs P b cs)) (some false) with
  | none => rw [hg] at hkey; cases hkey
  | some r =>
    rw [hg] at hkey
    simpa using hkey

section
variable {P : Par α β} (hf : P.f.Lawful) (hw : ∀ x y : β, x ≤ y → P.f.wide x ≤ P.f.wide y) {H : HArith α} {Q : Qsort} (hQ : QsortOk Q)
include hf hw hQ

mutual
theorem geoX_false {b : Geo α β} : ∀ {a : Geo α β}, a.Made P.f P.A H Q → a.Each (fun x => b.Each fun y => atomX P x y = some false) →
    geoX P b a = some false
  | .null, _, _ => by rw [geoX]
  | .empty, _, _ => by rw [geoX]
  | .atom x, _, k => by rw [Geo.Each] at k; rw [geoX]; exact someGeo_false k
  | .multi flag cs r ix ixg, m, k => by
    rw [Geo.Each] at k
    have hall := geoXs_false (b := b) (by rw [Geo.Made] at m; exact m.2.2.2) k
    cases flag
    · rw [geoX_multi hf hw hQ m fun c hc => by rw [hall c hc]; simp]
      simp only [Option.some.injEq, List.any_eq_false]
      intro c hc
      rw [hall c hc]
      simp
    · rw [geoX]; simp
theorem geoXs_false {b : Geo α β} : ∀ {cs : List (Geo α β)}, AllMade P.f P.A H Q cs → EachIn (fun x => b.Each fun y => atomX P x y = some false) cs →
    ∀ c ∈ cs, geoX P b c = some false
  | [], _, _, c, hc => by simp at hc
  | x :: cs, m, k, c, hc => by
    rw [AllMade] at m
    rw [EachIn] at k
    rcases List.mem_cons.1 hc with h | hc
    · rw [h]; exact geoX_false m.1 k.1
    · exact geoXs_false m.2 k.2 c hc
end

mutual
theorem geoTouches_false {b : Geo α β} : ∀ {a : Geo α β}, a.Made P.f P.A H Q →
    a.Each (fun x => b.Each fun y => atomTouches P x y = some false ∧ atomX P x y = some false) → geoTouches P b a = some false
  | .null, _, _ => by rw [geoTouches]
  | .empty, _, _ => by rw [geoTouches]
  | .atom (.point p), _, k => by rw [Geo.Each] at k; rw [geoTouches, atomTouchesGeo]; exact someGeo_false (k.imp fun _ h => h.1); simp
  | .atom (.line l), _, k => by rw [Geo.Each] at k; rw [geoTouches, atomTouchesGeo]; exact someGeo_false (k.imp fun _ h => h.1); simp
  | .atom (.poly q), _, k => by rw [Geo.Each] at k; rw [geoTouches, atomTouchesGeo]; exact polyTouchesGeo_false k
  | .multi flag cs r ix ixg, m, k => by
    rw [Geo.Each] at k
    rw [geoTouches]
    split_ifs
    · rfl
    · exact geoTouchesLoop_false (by rw [Geo.Made] at m; exact m.2.2.2) k
theorem geoTouchesLoop_false {b : Geo α β} : ∀ {cs : List (Geo α β)}, AllMade P.f P.A H Q cs →
    EachIn (fun x => b.Each fun y => atomTouches P x y = some false ∧ atomX P x y = some false) cs → geoTouchesLoop P b cs false = some false
  | [], _, _ => by rw [geoTouchesLoop]
  | c :: cs, m, k => by
    rw [AllMade] at m
    rw [EachIn] at k
    rw [geoTouchesLoop, geoTouches_false m.1 k.1]
    dsimp only
    rw [geoX_false hf hw hQ m.1 (k.1.imp fun _ h => h.imp fun _ h => h.2)]
    exact geoTouchesLoop_false m.2 k.2
end

end

theorem coversLoopG_false {t : Geo α β → Option Bool} : ∀ {os : List (Geo α β)}, (∀ o ∈ os, t o = some false) → coversLoopG t os false = some false
  | [], _ => rfl
  | o :: os, h => by
    rw [coversLoopG, h o (by simp)]
    split_ifs
    · exact coversLoopG_false fun x hx => h x (by simp [hx])
    · rfl

mutual
theorem geoCov_false {tab : Atom α β → Atom α β → Option Bool} : ∀ {a b : Geo α β}, a.Each (fun x => b.Each fun y => tab x y = some false) →
    geoCov tab a b = some false
  | .null, _, _ => by rw [geoCov]
  | .empty, _, _ => by rw [geoCov]
  | .atom x, _, k => by rw [Geo.Each] at k; rw [geoCov]; exact everyGeo_false k
  | .multi flag cs r ix ixg, b, k => by
    rw [Geo.Each] at k
    rw [geoCov]
    split_ifs
    · rfl
    · refine coversLoopG_false fun o ho => geoCovAny_false (EachIn.imp (fun x hx => ?_) k)
      exact hx.foreach o ho
theorem geoCovAny_false {tab : Atom α β → Atom α β → Option Bool} : ∀ {cs : List (Geo α β)} {b : Geo α β},
    EachIn (fun x => b.Each fun y => tab x y = some false) cs → geoCovAny tab cs b = some false
  | [], _, _ => by rw [geoCovAny]
  | c :: cs, b, k => by
    rw [EachIn] at k
    rw [geoCovAny, geoCov_false k.1]
    exact geoCovAny_false k.2
end

/-- If one of the geometries is empty, a test that fails on pairs with an empty simple geometry fails on all pairs. -/
theorem each_pairs {f : Ix α β} {A : Arith α} {H : HArith α} {Q : Qsort} {D : Atom α β → Atom α β → Prop} {E : Atom α β → Prop} {a b : Geo α β}
    (ha : a.Made f A H Q) (hb : b.Made f A H Q) (h : a.isEmpty = true ∨ b.isEmpty = true) (ea : a.Each E) (eb : b.Each E)
    (hD : ∀ x y, x.Made f A → y.Made f A → (x.isEmpty = true ∨ y.isEmpty = true) → E x → E y → D x y) : a.Each fun x => b.Each fun y => D x y := by
  rcases h with h | h
  · exact ((ha.each.and (ha.each_empty h)).and ea).imp fun x hx => (hb.each.and eb).imp fun y hy => hD x y hx.1.1 hy.1 (.inl hx.1.2) hx.2 hy.2
  · exact (ha.each.and ea).imp fun x hx => ((hb.each.and (hb.each_empty h)).and eb).imp fun y hy => hD x y hx.1 hy.1.1 (.inr hy.1.2) hx.2 hy.2

end Tg.S
