import Mathlib.Order.Lattice
import Verif.Spec.Extent
/-!
Property C40: the rectangle of a geometry is the least one that holds the points of its parts.

An empty part (a line without points, an empty collection) has the rectangle from (0, 0) to (0, 0), which is included. So the full statement fails
(`C40_empty_part`), and holds for geometries without empty parts. `C40_rect` says what the rectangle is in all cases.
-/
namespace Tg

/-- The point (0, 0). -/
def origin : Pt := ⟨0#64, 0#64⟩

theorem Rect.Within.trans {r s t : Rect} (h : r.Within s) (h' : s.Within t) : r.Within t :=
  ⟨h'.1.trans h.1, h.2.1.trans h'.2.1, h'.2.2.1.trans h.2.2.1, h.2.2.2.trans h'.2.2.2⟩

theorem Rect.Holds.mono {r s : Rect} {p : Pt} (h : r.Holds p) (h' : r.Within s) : s.Holds p :=
  ⟨h'.1.trans h.1, h.2.1.trans h'.2.1, h'.2.2.1.trans h.2.2.1, h.2.2.2.trans h'.2.2.2⟩

theorem origin_num : origin.Num := ⟨by unfold F64.Num; decide, by unfold F64.Num; decide⟩

theorem Rect.IsHull.point {p : Pt} (h : p.Num) : p.rect.IsHull [p] := by
  refine ⟨⟨h, h⟩, ?_, ?_⟩
  · intro q hq
    rw [List.mem_singleton.1 hq]
    exact ⟨le_rfl, le_rfl, le_rfl, le_rfl⟩
  · intro t ht
    obtain ⟨h1, h2, h3, h4⟩ := ht p (by simp)
    exact ⟨h1, h2, h3, h4⟩

theorem Rect.IsHull.zero : Rect.zero.IsHull [origin] := Rect.IsHull.point origin_num

theorem Rect.IsHull.expand {P : Platform} (hP : P.Ok) {r s : Rect} {ps qs : List Pt} (hr : r.IsHull ps) (hs : s.IsHull qs) :
    (r.expand P s).IsHull (ps ++ qs) := by
  obtain ⟨a1, a2⟩ := hP.fmin _ _ hr.num.1.1 hs.num.1.1
  obtain ⟨b1, b2⟩ := hP.fmin _ _ hr.num.1.2 hs.num.1.2
  obtain ⟨c1, c2⟩ := hP.fmax _ _ hr.num.2.1 hs.num.2.1
  obtain ⟨d1, d2⟩ := hP.fmax _ _ hr.num.2.2 hs.num.2.2
  have w1 : r.Within (r.expand P s) := by
    unfold Rect.Within Rect.expand
    dsimp only
    rw [a2, b2, c2, d2]
    exact ⟨min_le_left _ _, le_max_left _ _, min_le_left _ _, le_max_left _ _⟩
  have w2 : s.Within (r.expand P s) := by
    unfold Rect.Within Rect.expand
    dsimp only
    rw [a2, b2, c2, d2]
    exact ⟨min_le_right _ _, le_max_right _ _, min_le_right _ _, le_max_right _ _⟩
  refine ⟨⟨⟨a1, b1⟩, c1, d1⟩, ?_, ?_⟩
  · intro p hp
    rcases List.mem_append.1 hp with h | h
    · exact (hr.holds p h).mono w1
    · exact (hs.holds p h).mono w2
  · intro t ht
    obtain ⟨e1, e2, e3, e4⟩ := hr.least t fun p hp => ht p (by simp [hp])
    obtain ⟨f1, f2, f3, f4⟩ := hs.least t fun p hp => ht p (by simp [hp])
    unfold Rect.Within Rect.expand
    dsimp only
    rw [a2, b2, c2, d2]
    exact ⟨le_min e1 f1, max_le e2 f2, le_min e3 f3, max_le e4 f4⟩

/-- Rectangles and points side by side. -/
inductive Hulls : List Rect → List Pt → Prop where
  | nil : Hulls [] []
  | cons {r rs ps qs} : r.IsHull ps → Hulls rs qs → Hulls (r :: rs) (ps ++ qs)

theorem Hulls.foldl {P : Platform} (hP : P.Ok) {rs : List Rect} {qs : List Pt} (h : Hulls rs qs) :
    ∀ {r : Rect} {ps : List Pt}, r.IsHull ps → (rs.foldl (Rect.expand P) r).IsHull (ps ++ qs) := by
  induction h with
  | nil => intro r ps h; simpa using h
  | cons h1 _ ih =>
    intro r ps h
    rw [← List.append_assoc]
    exact ih (h.expand hP h1)

theorem Hulls.all {P : Platform} (hP : P.Ok) {rs : List Rect} {qs : List Pt} (h : Hulls rs qs) (hne : rs ≠ []) :
    (expandAll P rs).IsHull qs := by
  cases h with
  | nil => exact absurd rfl hne
  | cons h1 h2 => exact h2.foldl hP h1

theorem Hulls.map {α : Type} {f : α → Rect} {g : α → List Pt} : ∀ {l : List α}, (∀ a ∈ l, (f a).IsHull (g a)) → Hulls (l.map f) (l.flatMap g)
  | [], _ => .nil
  | a :: l, h => by
    rw [List.map_cons, List.flatMap_cons]
    exact .cons (h a (by simp)) (Hulls.map fun b hb => h b (by simp [hb]))

theorem seriesHull {P : Platform} (hP : P.Ok) {l : List Pt} (h : ∀ p ∈ seriesPts [origin] l, p.Num) :
    (P.ringRect l).IsHull (seriesPts [origin] l) := by
  unfold seriesPts at *
  split_ifs at h ⊢ with hl
  · rw [hP.ring0 l hl]; exact .zero
  · exact hP.ring l (by omega) h

theorem lineHull {P : Platform} (hP : P.Ok) {l : Option (List Pt)} (h : ∀ p ∈ orPts [origin] (seriesPts [origin]) l, p.Num) :
    (match l with | none => Rect.zero | some pts => P.ringRect pts).IsHull (orPts [origin] (seriesPts [origin]) l) := by
  cases l with
  | none => exact .zero
  | some l => exact seriesHull hP h

theorem polyHull {P : Platform} (hP : P.Ok) {l : Option Poly} (h : ∀ p ∈ orPts [origin] (fun pl : Poly => seriesPts [origin] pl.ext) l, p.Num) :
    (match l with | none => Rect.zero | some pl => pl.rect P).IsHull (orPts [origin] (fun pl : Poly => seriesPts [origin] pl.ext) l) := by
  cases l with
  | none => exact .zero
  | some l => exact seriesHull hP h

mutual
/-- C40. What `tg_geom_rect` is: the least rectangle that holds all points, and the origin if there is an empty part. -/
theorem C40_rect {P : Platform} (hP : P.Ok) : (g : Geom) → (h : ∀ p ∈ g.pts [origin], p.Num) → (geomRect P g).IsHull (g.pts [origin])
  | .point _ p, h => by
    simp only [Geom.pts, geomRect] at *
    exact .point (h p (by simp))
  | .line _ pts, h => by
    simp only [Geom.pts, geomRect] at *
    exact seriesHull hP h
  | .poly _ pl, h => by
    simp only [Geom.pts, geomRect] at *
    exact seriesHull hP h
  | .gpoint _ p _ _ _, h => by
    simp only [Geom.pts, geomRect] at *
    exact .point (h p (by simp))
  | .gline _ l _ _, h => by
    simp only [Geom.pts, geomRect] at *
    exact lineHull hP h
  | .gpoly _ pl _ _, h => by
    simp only [Geom.pts, geomRect] at *
    exact polyHull hP h
  | .mpoint _ none _ _, h => by simp only [Geom.pts, geomRect, orPts]; exact .zero
  | .mpoint _ (some ps) _ _, h => by
    simp only [Geom.pts, geomRect, orPts] at *
    split_ifs at h ⊢ with hn
    · subst hn; exact .zero
    · have := Hulls.map (f := Pt.rect) (g := fun p => [p]) (l := ps) fun p hp => .point (h p hp)
      rw [List.flatMap_singleton'] at this
      exact this.all hP (by simpa using hn)
  | .mline _ none _ _, h => by simp only [Geom.pts, geomRect, orPts]; exact .zero
  | .mline _ (some ls) _ _, h => by
    simp only [Geom.pts, geomRect, orPts] at *
    split_ifs at h ⊢ with hn
    · subst hn; exact .zero
    · exact (Hulls.map fun l hl => lineHull hP fun p hp => h p (List.mem_flatMap.2 ⟨l, hl, hp⟩)).all hP (by simpa using hn)
  | .mpoly _ none _ _, h => by simp only [Geom.pts, geomRect, orPts]; exact .zero
  | .mpoly _ (some ps) _ _, h => by
    simp only [Geom.pts, geomRect, orPts] at *
    split_ifs at h ⊢ with hn
    · subst hn; exact .zero
    · exact (Hulls.map fun l hl => polyHull hP fun p hp => h p (List.mem_flatMap.2 ⟨l, hl, hp⟩)).all hP (by simpa using hn)
  | .coll _ hasMulti gs _ _, h => by
    simp only [Geom.pts, geomRect] at *
    by_cases hc : hasMulti = true ∧ gs ≠ []
    · rw [if_pos hc] at h ⊢
      rw [if_pos hc.1]
      refine (C40_rects hP gs h).all hP ?_
      obtain ⟨_, hne⟩ := hc
      cases gs with
      | nil => exact absurd rfl hne
      | cons g gs => simp [geomRects]
    · rw [if_neg hc]
      split_ifs with hm
      · have : gs = [] := by
          by_contra hne
          exact hc ⟨hm, hne⟩
        subst this
        exact .zero
      · exact .zero
  | .err _, h => by simp only [Geom.pts, geomRect]; exact .zero
/-- The same for the members of a collection. -/
theorem C40_rects {P : Platform} (hP : P.Ok) : (gs : List Geom) → (h : ∀ p ∈ Geom.listPts [origin] gs, p.Num) →
    Hulls (geomRects P gs) (Geom.listPts [origin] gs)
  | [], _ => by simp only [geomRects, Geom.listPts]; exact .nil
  | g :: gs, h => by
    simp only [geomRects, Geom.listPts] at *
    exact .cons (C40_rect hP g fun p hp => h p (by simp [hp])) (C40_rects hP gs fun p hp => h p (by simp [hp]))
end

/-- A line or ring has at least two points. -/
def NonEmptyPoly (pl : Poly) : Prop := 2 ≤ pl.ext.length

mutual
/-- No part of the geometry is empty. -/
def Geom.Solid : Geom → Prop
  | .point _ _ | .gpoint _ _ _ _ _ => True
  | .line _ pts => 2 ≤ pts.length
  | .poly _ pl => 2 ≤ pl.ext.length
  | .gline _ l _ _ => ∃ pts, l = some pts ∧ 2 ≤ pts.length
  | .gpoly _ p _ _ => ∃ pl, p = some pl ∧ 2 ≤ pl.ext.length
  | .mpoint _ ps _ _ => ∃ l, ps = some l ∧ l ≠ []
  | .mline _ ls _ _ => ∃ l, ls = some l ∧ l ≠ [] ∧ ∀ x ∈ l, ∃ pts, x = some pts ∧ 2 ≤ pts.length
  | .mpoly _ ps _ _ => ∃ l, ps = some l ∧ l ≠ [] ∧ ∀ x ∈ l, ∃ pl : Poly, x = some pl ∧ 2 ≤ pl.ext.length
  | .coll _ hasMulti gs _ _ => hasMulti = true ∧ gs ≠ [] ∧ Geom.allSolid gs
  | .err _ => False
def Geom.allSolid : List Geom → Prop
  | [] => True
  | g :: gs => g.Solid ∧ Geom.allSolid gs
end

theorem flatMap_eq {α β : Type} {f g : α → List β} : ∀ {l : List α}, (∀ a ∈ l, f a = g a) → l.flatMap f = l.flatMap g
  | [], _ => rfl
  | a :: l, h => by
    rw [List.flatMap_cons, List.flatMap_cons, h a (by simp), flatMap_eq fun b hb => h b (by simp [hb])]

theorem seriesPts_solid {o o' l : List Pt} (h : 2 ≤ l.length) : seriesPts o l = seriesPts o' l := by
  unfold seriesPts
  rw [if_neg (by omega), if_neg (by omega)]

mutual
theorem Geom.pts_solid (o o' : List Pt) : (g : Geom) → g.Solid → g.pts o = g.pts o'
  | .point _ _, _ => by simp [Geom.pts]
  | .gpoint _ _ _ _ _, _ => by simp [Geom.pts]
  | .line _ pts, h => by simp only [Geom.Solid, Geom.pts] at *; exact seriesPts_solid h
  | .poly _ pl, h => by simp only [Geom.Solid, Geom.pts] at *; exact seriesPts_solid h
  | .gline _ l _ _, h => by
    simp only [Geom.Solid, Geom.pts] at *
    obtain ⟨_, rfl, h⟩ := h
    exact seriesPts_solid h
  | .gpoly _ l _ _, h => by
    simp only [Geom.Solid, Geom.pts] at *
    obtain ⟨_, rfl, h⟩ := h
    exact seriesPts_solid h
  | .mpoint _ _ _ _, h => by
    simp only [Geom.Solid, Geom.pts] at *
    obtain ⟨_, rfl, h⟩ := h
    simp [orPts, h]
  | .mline _ _ _ _, h => by
    simp only [Geom.Solid, Geom.pts] at *
    obtain ⟨l, rfl, h, h'⟩ := h
    simp only [orPts, h, if_false]
    refine flatMap_eq fun x hx => ?_
    obtain ⟨_, rfl, h⟩ := h' x hx
    exact seriesPts_solid h
  | .mpoly _ _ _ _, h => by
    simp only [Geom.Solid, Geom.pts] at *
    obtain ⟨l, rfl, h, h'⟩ := h
    simp only [orPts, h, if_false]
    refine flatMap_eq fun x hx => ?_
    obtain ⟨_, rfl, h⟩ := h' x hx
    exact seriesPts_solid h
  | .coll _ _ gs _ _, h => by
    simp only [Geom.Solid, Geom.pts] at *
    obtain ⟨h1, h2, h3⟩ := h
    rw [if_pos ⟨h1, h2⟩, if_pos ⟨h1, h2⟩]
    exact Geom.listPts_solid o o' gs h3
  | .err _, h => by simp [Geom.Solid] at h
theorem Geom.listPts_solid (o o' : List Pt) : (gs : List Geom) → Geom.allSolid gs → Geom.listPts o gs = Geom.listPts o' gs
  | [], _ => by simp [Geom.listPts]
  | g :: gs, h => by
    simp only [Geom.allSolid, Geom.listPts] at *
    rw [Geom.pts_solid o o' g h.1, Geom.listPts_solid o o' gs h.2]
end

/-- C40 for geometries without empty parts: the rectangle is the least one that holds the points. Missing from the full statement: geometries with
empty parts, where it fails. -/
theorem C40_rect_partial {P : Platform} (hP : P.Ok) {g : Geom} (hs : g.Solid) (h : ∀ p ∈ g.points, p.Num) :
    (geomRect P g).IsHull g.points := by
  rw [Geom.points, Geom.pts_solid [] [origin] g hs] at *
  exact C40_rect hP g h

/-- The comparison of doubles. -/
def ieeeLt (a b : F64) : Bool := decide (F64.val a < F64.val b)

/-- `fmin0` as a conditional expression, tg.c:810-812. -/
def ieeeMin (a b : F64) : F64 := if ieeeLt a b then a else b

/-- `fmax0` as a conditional expression, tg.c:813-815. -/
def ieeeMax (a b : F64) : F64 := if ieeeLt b a then a else b

/-- The platform with these, and rings without an index. -/
def ieee : Platform where
  fmin := ieeeMin
  fmax := ieeeMax
  ringRect l :=
    match l with
    | p :: q :: rest =>
      (q :: rest).foldl (fun r p => ⟨⟨ieeeMin r.min.x p.x, ieeeMin r.min.y p.y⟩, ⟨ieeeMax r.max.x p.x, ieeeMax r.max.y p.y⟩⟩) p.rect
    | _ => .zero

theorem ieee_min (a b : F64) (ha : F64.Num a) (hb : F64.Num b) :
    F64.Num (ieeeMin a b) ∧ F64.val (ieeeMin a b) = min (F64.val a) (F64.val b) := by
  unfold ieeeMin ieeeLt
  by_cases h : F64.val a < F64.val b
  · simp only [h, decide_true, if_true]; exact ⟨ha, by omega⟩
  · simp only [h, decide_false]; exact ⟨hb, by simp; omega⟩

theorem ieee_max (a b : F64) (ha : F64.Num a) (hb : F64.Num b) :
    F64.Num (ieeeMax a b) ∧ F64.val (ieeeMax a b) = max (F64.val a) (F64.val b) := by
  unfold ieeeMax ieeeLt
  by_cases h : F64.val b < F64.val a
  · simp only [h, decide_true, if_true]; exact ⟨ha, by omega⟩
  · simp only [h, decide_false]; exact ⟨hb, by simp; omega⟩

/-- It meets the requirements. -/
theorem ieee_ok : ieee.Ok := by
  have key : ∀ (l : List Pt) (r : Rect) (ps : List Pt), (∀ p ∈ l, p.Num) → r.IsHull ps →
      (l.foldl (fun r p => (⟨⟨ieeeMin r.min.x p.x, ieeeMin r.min.y p.y⟩, ⟨ieeeMax r.max.x p.x, ieeeMax r.max.y p.y⟩⟩ : Rect)) r).IsHull
        (ps ++ l) := by
    intro l
    induction l with
    | nil => intro r ps _ h; simpa using h
    | cons p l ih =>
      intro r ps hl hr
      rw [List.foldl_cons, show ps ++ p :: l = (ps ++ [p]) ++ l by simp]
      apply ih _ _ fun q hq => hl q (by simp [hq])
      have hp := Rect.IsHull.point (hl p (by simp))
      obtain ⟨a1, a2⟩ := ieee_min _ _ hr.num.1.1 hp.num.1.1
      obtain ⟨b1, b2⟩ := ieee_min _ _ hr.num.1.2 hp.num.1.2
      obtain ⟨c1, c2⟩ := ieee_max _ _ hr.num.2.1 hp.num.2.1
      obtain ⟨d1, d2⟩ := ieee_max _ _ hr.num.2.2 hp.num.2.2
      simp only [Pt.rect] at a1 a2 b1 b2 c1 c2 d1 d2
      refine ⟨⟨⟨a1, b1⟩, c1, d1⟩, ?_, ?_⟩
      · intro q hq
        unfold Rect.Holds
        dsimp only
        rw [a2, b2, c2, d2]
        rcases List.mem_append.1 hq with h | h
        · obtain ⟨h1, h2, h3, h4⟩ := hr.holds q h
          omega
        · rw [List.mem_singleton.1 h]
          omega
      · intro t ht
        obtain ⟨e1, e2, e3, e4⟩ := hr.least t fun q hq => ht q (by simp [hq])
        obtain ⟨f1, f2, f3, f4⟩ := ht p (by simp)
        unfold Rect.Within
        dsimp only
        rw [a2, b2, c2, d2]
        omega
  refine ⟨ieee_min, ieee_max, ?_, ?_⟩
  · intro l hl h
    match l, hl, h with
    | p :: q :: rest, _, h =>
      have := key (q :: rest) p.rect [p] (fun x hx => h x (by simp [hx])) (.point (h p (by simp)))
      exact this
  · intro l hl
    match l, hl with
    | [], _ => rfl
    | [_], _ => rfl

/-- The point (5, 5). -/
def five : Pt := ⟨0x4014000000000000#64, 0x4014000000000000#64⟩

/-- The full statement fails: the rectangle of a collection of the point (5, 5) and an empty line begins at (0, 0), which no part reaches. -/
theorem C40_empty_part : (geomRect ieee (.coll {} true [.point {} five, .gline { isEmpty := true } none [] none] [] none)).min = origin ∧
    (Geom.coll {} true [.point {} five, .gline { isEmpty := true } none [] none] [] none).points = [five] := by
  refine ⟨?_, ?_⟩ <;> decide +kernel

/-- A collection in a collection, with a line from (0, 5) to (5, 0) and the point (5, 5). -/
example : (Geom.coll {} true [.coll {} true [.line {} [⟨0#64, five.y⟩, ⟨five.x, 0#64⟩]] [] none, .point {} five] [] none).Solid ∧
    (∀ p ∈ (Geom.coll {} true [.coll {} true [.line {} [⟨0#64, five.y⟩, ⟨five.x, 0#64⟩]] [] none, .point {} five] [] none).points, p.Num) ∧
    geomRect ieee (.coll {} true [.coll {} true [.line {} [⟨0#64, five.y⟩, ⟨five.x, 0#64⟩]] [] none, .point {} five] [] none)
      = ⟨origin, five⟩ := by
  refine ⟨?_, ?_, ?_⟩
  · simp [Geom.Solid, Geom.allSolid]
  · simp only [Geom.points, Geom.pts, Geom.listPts, seriesPts]
    simp [Pt.Num, F64.Num, F64.mag, five]
  · decide +kernel

end Tg
