import Verif.Lemmas.Predicates
import Verif.Props.Line
import Verif.Props.Relate
/-! Property C38: the predicates on geometries that are defined by others, and empty geometries. -/
namespace Tg
open S

variable {α β : Type*} [LinearOrder α] [LinearOrder β] [Zero α]

/-! ### More iterations -/

/-- The same with more iterations for the loop of `tg_line_covers_line`. -/
def S.Par.more (P : Par α β) (n : Nat) : Par α β := { P with fuel := P.fuel + n }

theorem S.coversLoop_more {A : Arith α} {a b : Ring α β} {x : Bool} : ∀ {fuel : Nat} (n : Nat) {i j : Nat}, coversLoop A a b fuel i j = some x →
    coversLoop A a b (fuel + n) i j = some x
  | 0, n, i, j, h => by rw [coversLoop] at h; cases h
  | fuel + 1, n, i, j, h => by
    rw [show fuel + 1 + n = (fuel + n) + 1 by omega, coversLoop]
    rw [coversLoop] at h
    by_cases hc : i < b.nsegs ∧ j < a.nsegs
    · rw [if_pos hc] at h ⊢
      cases h1 : segAt a.points j with
      | none => rw [h1] at h; cases h
      | some s =>
        cases h2 : segAt b.points i with
        | none => rw [h1, h2] at h; cases h
        | some t =>
          rw [h1, h2] at h
          dsimp only at h ⊢
          split_ifs at h ⊢
          · exact S.coversLoop_more n h
          · exact h
          · exact S.coversLoop_more n h
          · exact S.coversLoop_more n h
          · exact S.coversLoop_more n h
    · rw [if_neg hc] at h ⊢
      exact h

theorem S.lineCoversLine_more {A : Arith α} {a b : Ring α β} {fuel : Nat} (n : Nat) {x : Bool} (h : lineCoversLine A fuel a b = some x) :
    lineCoversLine A (fuel + n) a b = some x := by
  rw [lineCoversLine] at h ⊢
  split_ifs at h ⊢
  · exact h
  · exact h
  · cases h1 : segAt b.points 0 with
    | none => rw [h1] at h; cases h
    | some s =>
      rw [h1] at h
      dsimp only at h ⊢
      rcases h2 : firstCovering A a s (List.range a.nsegs) with _ | (_ | j)
      · rw [h2] at h; cases h
      · rw [h2] at h; exact h
      · rw [h2] at h
        exact S.coversLoop_more n h

theorem S.atomContains_more (P : Par α β) (n : Nat) : ∀ (a b : Atom α β) (x : Bool), atomContains P a b = some x → atomContains (P.more n) a b = some x
  | .point _, .point _, _, h => h
  | .point _, .line _, _, h => h
  | .point _, .poly _, _, h => h
  | .line _, .point _, _, h => h
  | .line _, .line _, _, h => S.lineCoversLine_more n h
  | .line _, .poly _, _, h => h
  | .poly _, .point _, _, h => h
  | .poly _, .line _, _, h => h
  | .poly _, .poly _, _, h => h

section
variable {t t' : Atom α β → Option Bool} (ht : ∀ a x, t a = some x → t' a = some x)
include ht

mutual
theorem S.everyGeo_more : ∀ {g : Geo α β} {x : Bool}, everyGeo t g = some x → everyGeo t' g = some x
  | .null, x, h => by rw [everyGeo] at h ⊢; exact h
  | .empty, x, h => by rw [everyGeo] at h ⊢; exact h
  | .atom a, x, h => by rw [everyGeo] at h ⊢; exact ht a x h
  | .multi flag cs _ _ _, x, h => by
    rw [everyGeo] at h ⊢
    split_ifs at h ⊢
    · exact h
    · exact S.everyGeos_more h
theorem S.everyGeos_more : ∀ {cs : List (Geo α β)} {x : Bool}, everyGeos t cs = some x → everyGeos t' cs = some x
  | [], x, h => by rw [everyGeos] at h ⊢; exact h
  | c :: cs, x, h => by
    rw [everyGeos] at h ⊢
    rcases hc : everyGeo t c with _ | (_ | _)
    · rw [hc] at h; cases h
    · rw [hc] at h; rw [S.everyGeo_more hc]; exact h
    · rw [hc] at h; rw [S.everyGeo_more hc]; exact S.everyGeos_more h
end
end

theorem S.coversLoopG_more {t t' : Geo α β → Option Bool} (ht : ∀ a x, t a = some x → t' a = some x) : ∀ {os : List (Geo α β)} {r x : Bool},
    coversLoopG t os r = some x → coversLoopG t' os r = some x
  | [], r, x, h => h
  | o :: os, r, x, h => by
    rw [coversLoopG] at h ⊢
    split_ifs at h ⊢
    · exact S.coversLoopG_more ht h
    · rcases ho : t o with _ | (_ | _)
      · rw [ho] at h; cases h
      · rw [ho] at h; rw [ht o _ ho]; exact h
      · rw [ho] at h; rw [ht o _ ho]; exact S.coversLoopG_more ht h

section
variable {t t' : Atom α β → Atom α β → Option Bool} (ht : ∀ a b x, t a b = some x → t' a b = some x)
include ht

mutual
theorem S.geoCov_more : ∀ {a b : Geo α β} {x : Bool}, geoCov t a b = some x → geoCov t' a b = some x
  | .null, _, x, h => by rw [geoCov] at h ⊢; exact h
  | .empty, _, x, h => by rw [geoCov] at h ⊢; exact h
  | .atom a, _, x, h => by rw [geoCov] at h ⊢; exact everyGeo_more (ht a) h
  | .multi flag cs _ _ _, b, x, h => by
    rw [geoCov] at h ⊢
    split_ifs at h ⊢
    · exact h
    · exact coversLoopG_more (fun o x h => S.geoCovAny_more h) h
theorem S.geoCovAny_more : ∀ {cs : List (Geo α β)} {b : Geo α β} {x : Bool}, geoCovAny t cs b = some x → geoCovAny t' cs b = some x
  | [], _, x, h => by rw [geoCovAny] at h ⊢; exact h
  | c :: cs, b, x, h => by
    rw [geoCovAny] at h ⊢
    rcases hc : geoCov t c b with _ | (_ | _)
    · rw [hc] at h; cases h
    · rw [hc] at h; rw [S.geoCov_more hc]; exact S.geoCovAny_more h
    · rw [hc] at h; rw [S.geoCov_more hc]; exact h
end
end

theorem S.geoContains_more {P : Par α β} (n : Nat) {a b : Geo α β} {x : Bool} (h : geoContains P a b = some x) : geoContains (P.more n) a b = some x :=
  geoCov_more (atomContains_more P n) h

theorem S.geoEquals_more {P : Par α β} (n : Nat) {a b : Geo α β} {x : Bool} (h : geoEquals P a b = some x) : geoEquals (P.more n) a b = some x := by
  unfold geoEquals geoWithin S.andM at *
  rcases hc : geoContains P b a with _ | (_ | _)
  · rw [hc] at h; cases h
  · rw [hc] at h; rw [geoContains_more n hc]; exact h
  · rw [hc] at h; rw [geoContains_more n hc]; exact geoContains_more n h

/-! ### The theorems -/

/-- C38: `tg_geom_equals` says true exactly if each contains the other. -/
theorem C38_equals (P : Par α β) (a b : Geo α β) :
    geoEquals P a b = some true ↔ geoContains P a b = some true ∧ geoContains P b a = some true := by
  unfold geoEquals geoWithin S.andM
  rcases geoContains P b a with _ | (_ | _) <;> simp

/-- C38: the predicates that are others with the arguments exchanged, or negated. -/
theorem C38_dual (P : Par α β) (a b : Geo α β) (x : Bool) :
    (geoWithin P a b = some x ↔ geoContains P b a = some x) ∧ (geoCoveredBy P a b = some x ↔ geoCovers P b a = some x) ∧
      (geoDisjoint P a b = some x ↔ geoIntersects P a b = some (!x)) := by
  refine ⟨Iff.rfl, Iff.rfl, ?_⟩
  unfold geoDisjoint S.notM
  rcases geoIntersects P a b with _ | (_ | _) <;> cases x <;> simp

/-- C38: if `tg_geom_equals` ends for both orders of the arguments, after any number of iterations of the loop of `tg_line_covers_line`, the answers are
the same. See `C38_equals_hangs`: it can end for one order only. -/
theorem C38_equals_symm (P : Par α β) (a b : Geo α β) {m n : Nat} {x y : Bool} (hx : geoEquals (P.more m) a b = some x)
    (hy : geoEquals (P.more n) b a = some y) : x = y := by
  have e1 : (P.more m).more n = (P.more n).more m := by simp only [Par.more]; congr 1; omega
  have hx := geoEquals_more n hx
  have hy := geoEquals_more m hy
  rw [e1] at hx
  have k1 := C38_equals ((P.more n).more m) a b
  have k2 := C38_equals ((P.more n).more m) b a
  rw [hx] at k1
  rw [hy] at k2
  have : x = true ↔ y = true := by
    rw [and_comm] at k2
    simpa using k1.trans k2.symm
  cases x <;> cases y <;> simp_all

section
variable {P : Par α β} (hf : P.f.Lawful) (hw : ∀ x y : β, x ≤ y → P.f.wide x ≤ P.f.wide y) {H : HArith α} {Q : Qsort} (hQ : QsortOk Q) {a b : Geo α β}
  (ha : a.Made P.f P.A H Q) (hb : b.Made P.f P.A H Q) (h : a.isEmpty = true ∨ b.isEmpty = true)
include hf hw hQ ha hb h

/-- C38: if one of the geometries is NULL or empty, then all of the predicates end, `disjoint` says true, the others false. -/
theorem C38_empty : geoIntersects P a b = some false ∧ geoDisjoint P a b = some true ∧ geoCovers P a b = some false ∧ geoCoveredBy P a b = some false ∧
    geoContains P a b = some false ∧ geoWithin P a b = some false ∧ geoEquals P a b = some false := by
  have t1 : ∀ g : Geo α β, g.Each fun _ => True := Geo.each_of fun _ => trivial
  have x1 : geoIntersects P a b = some false := geoX_false hf hw hQ ha
    (each_pairs (E := fun _ => True) ha hb h (t1 _) (t1 _) fun x y hx hy he _ _ => atomX_empty hf hx hy he)
  have c1 : geoContains P a b = some false := geoCov_false
    (each_pairs (E := fun _ => True) ha hb h (t1 _) (t1 _) fun x y hx hy he _ _ => atomContains_empty hf hx hy he)
  have c2 : geoContains P b a = some false := geoCov_false
    (each_pairs (E := fun _ => True) hb ha h.symm (t1 _) (t1 _) fun x y hx hy he _ _ => atomContains_empty hf hx hy he)
  refine ⟨x1, ?_, ?_, ?_, c1, c2, ?_⟩
  · rw [geoDisjoint, x1]; rfl
  · exact geoCov_false (each_pairs (E := fun _ => True) ha hb h (t1 _) (t1 _) fun x y hx hy he _ _ => atomCovers_empty hf hx hy he)
  · exact geoCov_false (each_pairs (E := fun _ => True) hb ha h.symm (t1 _) (t1 _) fun x y hx hy he _ _ => atomCovers_empty hf hx hy he)
  · rw [geoEquals, geoWithin, c2]; rfl

/-- C38 for `tg_geom_touches`: false if one of the geometries is NULL or empty, if there are no linestrings with one point and no polygons with holes in
an exterior of fewer than three points (`C38_touches_point_wrong`, `C38_touches_hole_wrong`). -/
theorem C38_empty_touches_partial (oa : a.Each fun x => ¬ x.Odd) (ob : b.Each fun x => ¬ x.Odd) : geoTouches P b a = some false :=
  geoTouches_false hf hw hQ ha (each_pairs ha hb h oa ob fun _ _ hx hy he o1 o2 => ⟨atomTouches_empty hf hx hy he o1 o2, atomX_empty hf hx hy he⟩)

end

/-! ### Witnesses -/

/-- Exact arithmetic on the rational numbers. -/
def S.parQ : Par ℚ ℚ := ⟨Ix.exact, arithQ, exactR, 100⟩

/-- Geometries made of points, with the flags that the code computes. -/
def S.lineQ (pts : List (Pt ℚ)) : Option (Geo ℚ ℚ) := (newIx Ix.exact arithQ Env.initial pts false 0#32).map fun l => .atom (.line l)
def S.fringQ (pts : List (Pt ℚ)) : Option (FRing ℚ ℚ) :=
  (newIx Ix.exact arithQ Env.initial pts true 0#32).bind fun r => (ringConvex pts).bind fun cv => (ringClockwise pts).map fun cw => ⟨r, cv, cw⟩
def S.polyQ (pts : List (Pt ℚ)) : Option (Geo ℚ ℚ) := (fringQ pts).map fun r => .atom (.poly (.ring r))
def S.holedQ (pts hole : List (Pt ℚ)) : Option (Geo ℚ ℚ) := (fringQ pts).bind fun r => (fringQ hole).map fun h => .atom (.poly (.poly r [h]))
def S.collQ (cs : List (Geo ℚ ℚ)) : Option (Geo ℚ ℚ) :=
  (multiNew Ix.exact exactH insertionQsort Geo.rect cs).map fun m => .multi false m.geoms m.rect m.index m.ixgeoms
def S.boxQ (a b c d : ℚ) : List (Pt ℚ) := [⟨a, b⟩, ⟨c, b⟩, ⟨c, d⟩, ⟨a, d⟩, ⟨a, b⟩]

/-- Wrong for C38: a linestring with one point is empty, and touches the polygon on whose edge the point is. -/
theorem C38_touches_point_wrong : (lineQ [⟨5, 0⟩]).map Geo.isEmpty = some true ∧
    ((polyQ (boxQ 0 0 10 10)).bind fun p => (lineQ [⟨5, 0⟩]).bind fun l => geoTouches parQ l p) = some true := by
  refine ⟨?_, ?_⟩ <;> decide +kernel

/-- Wrong for C38: a polygon with an exterior of two points is empty, and touches a point on the edge of a hole. -/
theorem C38_touches_hole_wrong : (holedQ [⟨0, 0⟩, ⟨10, 10⟩] (boxQ 2 2 4 4)).map Geo.isEmpty = some true ∧
    ((holedQ [⟨0, 0⟩, ⟨10, 10⟩] (boxQ 2 2 4 4)).bind fun p => geoTouches parQ (.atom (.point ⟨3, 2⟩)) p) = some true := by
  refine ⟨?_, ?_⟩ <;> decide +kernel

/-- A collection is not flattened: neither of the two points covers both. -/
theorem C38_nested_not_covered : let p : Geo ℚ ℚ := .atom (.point ⟨1, 1⟩)
    let q : Geo ℚ ℚ := .atom (.point ⟨2, 2⟩)
    ((collQ [p, q]).bind fun a => (collQ [a]).bind fun b => geoCovers parQ a b) = some false ∧
    ((collQ [p, q]).bind fun a => (collQ [a]).bind fun b => geoCovers parQ b a) = some true := by
  refine ⟨?_, ?_⟩ <;> decide +kernel

/-- Empty members are skipped by a collection, but not by a polygon: it covers the point and not the collection of the point and an empty linestring,
which a collection of the same polygon covers. -/
theorem C38_empty_member : let p : Geo ℚ ℚ := .atom (.point ⟨1, 1⟩)
    ((polyQ (boxQ 0 0 10 10)).bind fun s => (collQ [p, .empty]).bind fun b => geoCovers parQ s b) = some false ∧
    ((polyQ (boxQ 0 0 10 10)).bind fun s => (collQ [p, .empty]).bind fun b => (collQ [s]).bind fun a => geoCovers parQ a b) = some true := by
  refine ⟨?_, ?_⟩ <;> decide +kernel

section
variable {K : Type*} [Field K] [LinearOrder K] [IsStrictOrderedRing K] [FloorRing K]

/-- `tg_geom_equals` can end for one order of the arguments only. -/
theorem C38_equals_hangs {ε : K} {ns : List (Pt K) → Nat} {e : Env} (he : e.Ok) {a b : Ring K K}
    (ha : newIx Ix.exact (exact ε ns) e [⟨0, 0⟩, ⟨10, 0⟩, ⟨10, 10⟩] false 0#32 = some a)
    (hb : newIx Ix.exact (exact ε ns) e [⟨5, 0⟩, ⟨10, 0⟩, ⟨5, 5⟩] false 0#32 = some b) (fuel : Nat) :
    geoEquals ⟨Ix.exact, exact ε ns, exactR, fuel⟩ (.atom (.line a)) (.atom (.line b)) = some false ∧
    geoEquals ⟨Ix.exact, exact ε ns, exactR, fuel⟩ (.atom (.line b)) (.atom (.line a)) = none := by
  obtain ⟨a1, -⟩ := newIx_some Ix.exact_lawful he ha
  obtain ⟨b1, -⟩ := newIx_some Ix.exact_lawful he hb
  have hbx : (5 : K) ≤ b.rect.lo.x := by
    have := b1.rect_least (by simp) ⟨⟨5, 0⟩, ⟨10, 5⟩⟩ (by
      intro q hq
      simp only [List.mem_cons, List.not_mem_nil, or_false] at hq
      rcases hq with rfl | rfl | rfl <;> (refine ⟨?_, ?_, ?_, ?_⟩ <;> norm_num))
    exact this.1
  have hax := (a1.rect_has (by simp) ⟨0, 0⟩ (by simp)).1
  have hcov : a.rect.covers b.rect = true := by
    have h1 := a1.rect_has (by simp) ⟨0, 0⟩ (by simp)
    have h2 := a1.rect_has (by simp) ⟨10, 10⟩ (by simp)
    have h3 := b1.rect_least (by simp) a.rect (by
      intro q hq
      simp only [List.mem_cons, List.not_mem_nil, or_false] at hq
      obtain ⟨u1, u2, u3, u4⟩ := h1
      obtain ⟨v1, v2, v3, v4⟩ := h2
      simp only at u1 u2 u3 u4 v1 v2 v3 v4
      rcases hq with rfl | rfl | rfl <;> (refine ⟨?_, ?_, ?_, ?_⟩ <;> simp only <;> linarith))
    rw [Rect.covers]
    obtain ⟨k1, k2, k3, k4⟩ := h3
    simp [k1, k2, k3, k4]
  have hnot : b.rect.covers a.rect = false := by
    rw [Bool.eq_false_iff]
    intro h
    rw [Rect.covers] at h
    simp at h
    obtain ⟨h1, -⟩ := h
    simp only at hax
    linarith
  have hang := C37_hangs he he ha hb hcov (j := 0) (p := ⟨0, 0⟩) (q := ⟨10, 0⟩) (r := ⟨10, 10⟩) (b0 := ⟨5, 0⟩) (b2 := ⟨5, 5⟩) rfl rfl rfl rfl rfl rfl
    (by simp) ⟨1/2, by norm_num, by norm_num, by norm_num, by norm_num⟩ (by intro k s hk; omega)
    (by rintro ⟨t, t1, t2, t3, t4⟩; norm_num at t4) (by rintro ⟨t, t1, t2, t3, t4⟩; norm_num at t3) fuel
  have hane : ringEmpty a = false := by rw [ringEmpty_eq a1]; rfl
  have hbne : ringEmpty b = false := by rw [ringEmpty_eq b1]; rfl
  constructor
  · rw [geoEquals, geoWithin, geoContains, geoCov, everyGeo, atomContains, lineCoversLine, hane, hbne, hnot]
    rfl
  · rw [geoEquals, geoWithin, geoContains, geoCov, everyGeo, atomContains]
    dsimp only
    rw [hang]
    rfl

end

/-- Equal geometries that are not the same, for `C38_equals` and `C38_equals_symm`. -/
example : ((polyQ (boxQ 0 0 10 10)).bind fun a => (polyQ ([⟨10, 0⟩, ⟨10, 10⟩, ⟨0, 10⟩, ⟨0, 0⟩, ⟨10, 0⟩])).bind fun b => geoEquals parQ a b) = some true := by
  decide +kernel

/-- A collection of an empty line, an empty geometry and a NULL pointer, and a polygon, meet the hypotheses of `C38_empty` and
`C38_empty_touches_partial`. -/
example : ∃ a b : Geo ℚ ℚ, a.Made parQ.f parQ.A exactH insertionQsort ∧ b.Made parQ.f parQ.A exactH insertionQsort ∧ a.isEmpty = true ∧ b.isEmpty = false ∧
    (a.Each fun x => ¬ x.Odd) ∧ b.Each fun x => ¬ x.Odd := by
  have hl : ∃ l, newIx Ix.exact arithQ Env.initial ([] : List (Pt ℚ)) false 0#32 = some l := Option.isSome_iff_exists.1 (by decide +kernel)
  have hr : ∃ l, newIx Ix.exact arithQ Env.initial (boxQ 0 0 10 10) true 0#32 = some l := Option.isSome_iff_exists.1 (by decide +kernel)
  obtain ⟨l, hl⟩ := hl
  obtain ⟨r, hr⟩ := hr
  have hok : Env.initial.Ok := ⟨by decide, by decide⟩
  obtain ⟨l1, -⟩ := newIx_some Ix.exact_lawful hok hl
  obtain ⟨r1, -⟩ := newIx_some Ix.exact_lawful hok hr
  have ne : ringEmpty r = false := by rw [ringEmpty_eq r1]; rfl
  obtain ⟨m, hm⟩ := C39_made (f := (Ix.exact : Ix ℚ ℚ)) (H := exactH) (Q := insertionQsort) insertionQsort_ok (rectOf := Geo.rect)
    (geoms := [.atom (.line l), .empty, .null]) (.inl (by simp))
  obtain ⟨h1, -⟩ := multiNew_ok insertionQsort_ok hm
  have hm' : multiNew (Ix.exact : Ix ℚ ℚ) exactH insertionQsort Geo.rect [.atom (.line l), .empty, .null] =
      some ⟨[.atom (.line l), .empty, .null], m.rect, m.index, m.ixgeoms⟩ := by
    rw [hm]
    congr 1
    rw [← h1.geoms_eq]
  refine ⟨.multi false [.atom (.line l), .empty, .null] m.rect m.index m.ixgeoms, .atom (.poly (.ring ⟨r, true, false⟩)), ?_, ?_, ?_, ?_, ?_, ?_⟩
  · rw [Geo.Made]
    refine ⟨by simp, hm', fun c _ => ⟨le_rfl, le_rfl, le_rfl, le_rfl⟩, ?_⟩
    simp only [AllMade, Geo.Made, and_true]
    exact ⟨_, _, _, hok, hl⟩
  · rw [Geo.Made]
    intro x hx
    simp only [PolyS.ext, PolyS.holes, List.mem_cons, List.not_mem_nil, or_false] at hx
    rw [hx]
    exact ⟨_, _, _, hok, hr⟩
  · simp only [Geo.isEmpty, allEmpty, Bool.and_true, Bool.false_or]
    rw [ringEmpty_eq l1]
    rfl
  · rw [Geo.isEmpty]; exact ne
  · simp only [Geo.Each, EachIn, and_true, Atom.Odd]
    rw [l1.npoints_eq]
    simp
  · simp only [Geo.Each, Atom.Odd, polyEmpty, PolyS.ext, PolyS.holes]
    simp

end Tg
