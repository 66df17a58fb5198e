import Verif.Model.Access
import Verif.Lemmas.History
import Verif.Lemmas.SeriesApi
import Verif.Props.Plane
/-!
Property C36: access by index.

The full statement: for every `int` the accessor gives the element, or the documented empty value if
there is none. `tg_geom_point_at`, `tg_geom_line_at`, `tg_geom_poly_at` and `tg_geom_geometry_at` test
`index <= ngeoms`, so for the index that equals the count they read past the array
(`C36_past_end`). The theorems about them are therefore `_partial`: every other index.
-/
set_option linter.dupNamespace false
namespace Tg
open Heap

/-- The children of a geometry of type `ty`; none for other types and for NULL. -/
def Heap.Heap.childrenAs (h : Heap) (ty : GType) (p : Ptr) : List Ptr :=
  match p.bind h.cells with
  | some (.geom _ ty' _ (some m) _ _ _ _ _) =>
    if ty' = ty then
      match h.cells m with
      | some (.multi (some g) _ _ _) =>
        match h.cells g with
        | some (.geoms l) => l
        | _ => []
      | _ => []
    else []
  | _ => []

/-- The element at an index, NULL if there is none. -/
def Heap.elementAt (l : List Ptr) (i : Int) : Ptr := if 0 ≤ i then (l[i.toNat]?).join else none

/-- A collection of type `ty` that is not one of the empty geometries without children. -/
def Heap.Heap.isCollection (h : Heap) (ty : GType) (p : Ptr) : Prop :=
  ∃ a rc fl m co er pt z mm, p = some a ∧ h.cells a = some (.geom rc ty fl (some m) co er pt z mm)

section
variable {fails : Nat → Bool} {ok : Heap → Op → Prop} {h : Heap} {own : Multiset Nat}

/-- What the invariant says about a collection. -/
theorem Heap.collection_shape (hr : Runs fails ok h own) {ty : GType} (hty : isMulti ty = true)
    {a m : Nat} {rc fl co er pt z mm}
    (hc : h.cells a = some (.geom rc ty fl (some m) co er pt z mm)) :
    ∃ g n ix ixg, h.cells m = some (.multi g n ix ixg) ∧
      ((g = none ∧ n = 0 ∧ h.childrenAs ty (some a) = []) ∨
        ∃ g' l, g = some g' ∧ h.cells g' = some (.geoms l) ∧ l.length = n ∧
          h.childrenAs ty (some a) = l) := by
  obtain ⟨r, inv⟩ := runs_inv hr
  have t := inv.typed a _ (by simp) hc
  obtain ⟨c, hm, hk⟩ := t.2.2.2.2.2 hty m rfl
  cases c with
  | multi g n ix ixg =>
    refine ⟨g, n, ix, ixg, hm, ?_⟩
    have t2 := inv.typed m _ (by simp) hm
    cases g with
    | none =>
      refine Or.inl ⟨rfl, t2.2.2.2 rfl, ?_⟩
      simp [Heap.Heap.childrenAs, hc, hm]
    | some g' =>
      obtain ⟨c, hg, hk⟩ := t2.1 g' rfl
      cases c with
      | geoms l =>
        refine Or.inr ⟨g', l, rfl, hg, by simpa [Cell.kind] using hk, ?_⟩
        simp [Heap.Heap.childrenAs, hc, hm, hg]
      | series rc cl => cases cl <;> cases hk
      | _ => cases hk
  | series rc cl => cases cl <;> cases hk
  | _ => cases hk

theorem Heap.geomNum_coll {ty : GType} {a m : Nat} {rc fl co er pt z mm}
    (hc : h.cells a = some (.geom rc ty fl (some m) co er pt z mm)) {g n ix ixg}
    (hm : h.cells m = some (.multi g n ix ixg)) :
    geomNum ty (some a) h = some ((n : Int), h) := by
  unfold geomNum
  dsimp only
  rw [bind_of (a := Cell.geom rc ty fl (some m) co er pt z mm) (h' := h) (by simp [load, hc])]
  dsimp only
  rw [if_pos rfl, bind_of (a := Cell.multi g n ix ixg) (h' := h) (by simp [load, hm])]
  rfl

theorem Heap.geomAt_coll {ty : GType} {a m : Nat} {rc fl co er pt z mm} {i : Int}
    (hc : h.cells a = some (.geom rc ty fl (some m) co er pt z mm)) {g n ix ixg}
    (hm : h.cells m = some (.multi g n ix ixg)) : geomAt ty (some a) i h =
      (if 0 ≤ i ∧ i ≤ (n : Int) then arrayAt g i.toNat else pure none) h := by
  unfold geomAt
  dsimp only
  rw [bind_of (a := Cell.geom rc ty fl (some m) co er pt z mm) (h' := h) (by simp [load, hc])]
  dsimp only
  rw [if_pos rfl, bind_of (a := Cell.multi g n ix ixg) (h' := h) (by simp [load, hm])]

/-- A geometry that is not a collection of type `ty`. -/
theorem Heap.not_coll {p : Ptr} {ty : GType} (hp : Arg h own Cell.isGeometry p)
    (hn : ¬ h.isCollection ty p) : h.childrenAs ty p = [] ∧ geomNum ty p h = some (0, h) ∧
      ∀ i, geomAt ty p i h = some (none, h) := by
  cases p with
  | none => exact ⟨rfl, rfl, fun i => rfl⟩
  | some a =>
    obtain ⟨_, c, hc, hk⟩ := hp a rfl
    have hl : load a h = some (c, h) := by simp [load, hc]
    cases c with
    | geom rc ty' fl child co er pt z mm =>
      cases child with
      | none =>
        refine ⟨by simp [Heap.Heap.childrenAs, hc], ?_, fun i => ?_⟩
        · unfold geomNum; dsimp only; rw [bind_of hl]; rfl
        · unfold geomAt; dsimp only; rw [bind_of hl]; rfl
      | some m =>
        have hne : ty' ≠ ty := by
          rintro rfl
          exact hn ⟨a, rc, fl, m, co, er, pt, z, mm, rfl, hc⟩
        refine ⟨by simp [Heap.Heap.childrenAs, hc, hne], ?_, fun i => ?_⟩
        · unfold geomNum; dsimp only; rw [bind_of hl]; dsimp only; rw [if_neg hne]; rfl
        · unfold geomAt; dsimp only; rw [bind_of hl]; dsimp only; rw [if_neg hne]; rfl
    | series rc cl ix st pts =>
      refine ⟨by simp [Heap.Heap.childrenAs, hc], ?_, fun i => ?_⟩
      · unfold geomNum; dsimp only; rw [bind_of hl]; rfl
      · unfold geomAt; dsimp only; rw [bind_of hl]; rfl
    | bpoint rc pt =>
      refine ⟨by simp [Heap.Heap.childrenAs, hc], ?_, fun i => ?_⟩
      · unfold geomNum; dsimp only; rw [bind_of hl]; rfl
      · unfold geomAt; dsimp only; rw [bind_of hl]; rfl
    | poly rc e n hs =>
      refine ⟨by simp [Heap.Heap.childrenAs, hc], ?_, fun i => ?_⟩
      · unfold geomNum; dsimp only; rw [bind_of hl]; rfl
      · unfold geomAt; dsimp only; rw [bind_of hl]; rfl
    | _ => exact absurd rfl hk

/-- `tg_geom_num_points`, `_lines`, `_polys`, `_geometries` count the children. -/
theorem C36_num (hr : Runs fails ok h own) {ty : GType} (hty : isMulti ty = true) {p : Ptr}
    (hp : Arg h own Cell.isGeometry p) :
    geomNum ty p h = some (((h.childrenAs ty p).length : Int), h) := by
  by_cases hc : h.isCollection ty p
  · obtain ⟨a, rc, fl, m, co, er, pt, z, mm, rfl, hc⟩ := hc
    obtain ⟨g, n, ix, ixg, hm, hs⟩ := collection_shape hr hty hc
    rw [geomNum_coll hc hm]
    rcases hs with ⟨_, rfl, e⟩ | ⟨g', l, _, _, rfl, e⟩ <;> rw [e]
    rfl
  · obtain ⟨h1, h2, _⟩ := not_coll hp hc
    rw [h1, h2]
    rfl

/-- `tg_geom_line_at`, `tg_geom_poly_at`, `tg_geom_geometry_at` give the child, and NULL outside the
range, for every index except the number of children. -/
theorem C36_at_partial (hr : Runs fails ok h own) {ty : GType} (hty : isMulti ty = true) {p : Ptr}
    (hp : Arg h own Cell.isGeometry p) {i : Int} (hi : i ≠ ((h.childrenAs ty p).length : Int)) :
    geomAt ty p i h = some (elementAt (h.childrenAs ty p) i, h) := by
  by_cases hc : h.isCollection ty p
  · obtain ⟨a, rc, fl, m, co, er, pt, z, mm, rfl, hc⟩ := hc
    obtain ⟨g, n, ix, ixg, hm, hs⟩ := collection_shape hr hty hc
    rw [geomAt_coll hc hm]
    rcases hs with ⟨_, rfl, e⟩ | ⟨g', l, rfl, hg, rfl, e⟩ <;> rw [e] at hi ⊢
    · rw [if_neg (by simp at hi; omega)]
      simp [elementAt]; rfl
    · by_cases hin : 0 ≤ i ∧ i ≤ (l.length : Int)
      · rw [if_pos hin]
        have hlt : i.toNat < l.length := by omega
        unfold arrayAt
        dsimp only
        rw [bind_of (a := Cell.geoms l) (h' := h) (by simp [load, hg])]
        dsimp only
        rw [elementAt, if_pos hin.1, List.getElem?_eq_getElem hlt]
        rfl
      · rw [if_neg hin, elementAt]
        split
        · rw [List.getElem?_eq_none (by omega)]; rfl
        · rfl
  · obtain ⟨h1, _, h2⟩ := not_coll hp hc
    rw [h1, h2 i]
    simp [elementAt]

/-- For every collection, the index that equals the number of children reads past the array. -/
theorem C36_past_end (hr : Runs fails ok h own) {ty : GType} (hty : isMulti ty = true) {p : Ptr}
    (hc : h.isCollection ty p) : geomAt ty p ((h.childrenAs ty p).length : Int) h = none := by
  obtain ⟨a, rc, fl, m, co, er, pt, z, mm, rfl, hc⟩ := hc
  obtain ⟨g, n, ix, ixg, hm, hs⟩ := collection_shape hr hty hc
  rw [geomAt_coll hc hm]
  rcases hs with ⟨rfl, rfl, e⟩ | ⟨g', l, rfl, hg, rfl, e⟩ <;> rw [e]
  · rfl
  · rw [if_pos (by omega)]
    unfold arrayAt
    dsimp only
    rw [bind_of (a := Cell.geoms l) (h' := h) (by simp [load, hg])]
    simp
    rfl

/-- `tg_geom_point_at` gives the point, and (0, 0) outside the range, for every index except the
number of points. The children have to be points, as `C45_built` says of `tg_geom_new_multipoint`. -/
theorem C36_point_at_partial (hr : Runs fails ok h own) {p : Ptr}
    (hp : Arg h own Cell.isGeometry p) {pts : List Pt}
    (hpts : ∀ (i : Nat) (q : Ptr), (h.childrenAs .multipoint p)[i]? = some q → ∃ b rc x,
      q = some b ∧ pts[i]? = some x ∧ h.cells b = some (.bpoint rc x)) {i : Int}
    (hi : i ≠ ((h.childrenAs .multipoint p).length : Int)) (hl : pts.length = (h.childrenAs .multipoint p).length) :
    geomPointAt p i h = some (if 0 ≤ i then (pts[i.toNat]?).getD ⟨0, 0⟩ else ⟨0, 0⟩, h) := by
  by_cases hc : h.isCollection .multipoint p
  · obtain ⟨a, rc, fl, m, co, er, pt, z, mm, rfl, hc⟩ := hc
    obtain ⟨g, n, ix, ixg, hm, hs⟩ := collection_shape hr rfl hc
    unfold geomPointAt
    dsimp only
    rw [bind_of (a := Cell.geom rc .multipoint fl (some m) co er pt z mm) (h' := h) (by simp [load, hc])]
    dsimp only
    rw [bind_of (a := Cell.multi g n ix ixg) (h' := h) (by simp [load, hm])]
    dsimp only
    rcases hs with ⟨_, rfl, e⟩ | ⟨g', l, rfl, hg, rfl, e⟩ <;> rw [e] at hi hpts hl
    · rw [if_neg (by simp at hi; omega)]
      rw [List.length_eq_zero_iff.1 hl]
      simp; rfl
    · by_cases hin : 0 ≤ i ∧ i ≤ (l.length : Int)
      · rw [if_pos hin]
        have hlt : i.toNat < l.length := by omega
        obtain ⟨b, rc', x, e1, e2, e3⟩ := hpts i.toNat _ (List.getElem?_eq_getElem hlt)
        have : arrayAt (some g') i.toNat h = some (some b, h) := by
          unfold arrayAt
          dsimp only
          rw [bind_of (a := Cell.geoms l) (h' := h) (by simp [load, hg])]
          dsimp only
          rw [List.getElem?_eq_getElem hlt, e1]
          rfl
        rw [bind_of this, if_pos hin.1, e2]
        unfold boxedPoint
        dsimp only
        rw [bind_of (a := Cell.bpoint rc' x) (h' := h) (by simp [load, e3])]
        rfl
      · rw [if_neg hin]
        split
        · rw [List.getElem?_eq_none (by omega)]; rfl
        · rfl
  · obtain ⟨h1, _, _⟩ := not_coll hp hc
    rw [h1] at hl
    rw [List.length_eq_zero_iff.1 hl]
    have : geomPointAt p i h = some (ptZero, h) := by
      cases p with
      | none => rfl
      | some a =>
        obtain ⟨_, c, hca, hk⟩ := hp a rfl
        unfold geomPointAt
        dsimp only
        rw [bind_of (a := c) (h' := h) (by simp [load, hca])]
        cases c with
        | geom rc ty' fl child co er pt z mm =>
          cases child with
          | none => cases ty' <;> rfl
          | some m =>
            cases ty' with
            | multipoint => exact absurd ⟨a, rc, fl, m, co, er, pt, z, mm, rfl, hca⟩ hc
            | _ => rfl
        | series => rfl
        | bpoint => rfl
        | poly => rfl
        | _ => exact absurd rfl hk
    rw [this]
    simp [ptZero]

/-- The holes of a polygon; none for a ring in place of a polygon and for NULL. -/
def Heap.Heap.holesOf (h : Heap) (p : Ptr) : List Ptr :=
  match p.bind h.cells with
  | some (.poly _ _ _ (some g)) =>
    match h.cells g with
    | some (.rings l) => l
    | _ => []
  | _ => []

/-- `tg_poly_num_holes` and `tg_poly_hole_at`: every index. -/
theorem C36_holes (hr : Runs fails ok h own) {p : Ptr} (hp : Arg h own Cell.isPolygon p) :
    polyNumHoles p h = some (((h.holesOf p).length : Int), h) ∧
    ∀ i, polyHoleAt p i h = some (elementAt (h.holesOf p) i, h) := by
  cases p with
  | none => exact ⟨rfl, fun i => by simp [polyHoleAt, elementAt, Heap.Heap.holesOf]; rfl⟩
  | some a =>
    obtain ⟨_, c, hc, hk⟩ := hp a rfl
    obtain ⟨r, inv⟩ := runs_inv hr
    have hl : load a h = some (c, h) := by simp [load, hc]
    have t := inv.typed a _ (by simp) hc
    cases c with
    | series rc cl ix st pts =>
      have : cl = true := hk
      subst this
      have e : h.holesOf (some a) = [] := by simp [Heap.Heap.holesOf, hc]
      rw [e]
      refine ⟨?_, fun i => ?_⟩
      · unfold polyNumHoles; dsimp only; rw [bind_of hl]; rfl
      · unfold polyHoleAt; dsimp only; rw [bind_of hl]; simp [elementAt]; rfl
    | poly rc e n hs =>
      obtain ⟨_, t2, t3⟩ := t
      unfold polyNumHoles
      dsimp only
      rw [bind_of hl]
      have hat : ∀ i, polyHoleAt (some a) i h =
          (if i < 0 ∨ i ≥ (n : Int) then pure none else holeAt hs i.toNat) h := fun i => by
        unfold polyHoleAt; dsimp only; rw [bind_of hl]
      cases hs with
      | none =>
        have hn := t3.1 rfl
        subst hn
        have e : h.holesOf (some a) = [] := by simp [Heap.Heap.holesOf, hc]
        rw [e]
        refine ⟨rfl, fun i => ?_⟩
        rw [hat, if_pos (by simp; omega)]
        simp [elementAt]; rfl
      | some g =>
        obtain ⟨c, hg, hkg⟩ := t2 g rfl
        cases c with
        | rings l =>
          have hn : l.length = n := by simpa [Cell.kind] using hkg
          subst hn
          have e : h.holesOf (some a) = l := by simp [Heap.Heap.holesOf, hc, hg]
          rw [e]
          refine ⟨rfl, fun i => ?_⟩
          rw [hat]
          by_cases hin : i < 0 ∨ i ≥ (l.length : Int)
          · rw [if_pos hin, elementAt]
            split
            · rw [List.getElem?_eq_none (by omega)]; rfl
            · rfl
          · rw [if_neg hin]
            have hlt : i.toNat < l.length := by omega
            unfold holeAt
            dsimp only
            rw [bind_of (a := Cell.rings l) (h' := h) (by simp [load, hg])]
            dsimp only
            rw [elementAt, if_pos (by omega), List.getElem?_eq_getElem hlt]
            rfl
        | series rc cl => cases cl <;> cases hkg
        | _ => cases hkg
    | _ => exact absurd hk id

/-- The ring around a polygon: a ring in place of a polygon is its own exterior. -/
def Heap.Heap.exteriorOf (h : Heap) (p : Ptr) : Ptr :=
  match p.bind h.cells with
  | some (.poly _ e _ _) => e
  | some (.series _ true _ _ _) => p
  | _ => none

/-- `tg_poly_exterior`: the ring around the polygon, NULL for NULL. -/
theorem C36_exterior (hr : Runs fails ok h own) {p : Ptr} (hp : Arg h own Cell.isPolygon p) :
    polyExterior p h = some (h.exteriorOf p, h) ∧
    ∀ a, h.exteriorOf p = some a → ∃ rc ix st pts, h.cells a = some (.series rc true ix st pts) := by
  cases p with
  | none => exact ⟨rfl, fun _ h => by cases h⟩
  | some a =>
    obtain ⟨_, c, hc, hk⟩ := hp a rfl
    obtain ⟨r, inv⟩ := runs_inv hr
    have hl : load a h = some (c, h) := by simp [load, hc]
    have t := inv.typed a _ (by simp) hc
    cases c with
    | series rc cl ix st pts =>
      have : cl = true := hk
      subst this
      have e : h.exteriorOf (some a) = some a := by simp [Heap.Heap.exteriorOf, hc]
      rw [e]
      refine ⟨?_, fun b hb => by cases hb; exact ⟨rc, ix, st, pts, hc⟩⟩
      unfold polyExterior; dsimp only; rw [bind_of hl]; rfl
    | poly rc e n hs =>
      have e' : h.exteriorOf (some a) = e := by simp [Heap.Heap.exteriorOf, hc]
      rw [e']
      refine ⟨by unfold polyExterior; dsimp only; rw [bind_of hl]; rfl, fun b hb => ?_⟩
      obtain ⟨c, hb', hk'⟩ := t.1 b hb
      cases c with
      | series rc cl ix st pts =>
        cases cl with
        | true => exact ⟨rc, ix, st, pts, hb'⟩
        | false => cases hk'
      | _ => cases hk'
    | _ => exact absurd hk id

end

/-- A MultiPoint with two points: the last point, and one past it. -/
example : ∃ h', (Op.multipoint [⟨1, 2⟩, ⟨3, 4⟩]).run (Heap.init fun _ => false) = some (some 0, h') ∧
    h'.childrenAs .multipoint (some 0) = [some 3, some 4] ∧
    (geomPointAt (some 0) 1 h').map Prod.fst = some ⟨3, 4⟩ ∧
    (geomPointAt (some 0) 5 h').map Prod.fst = some ⟨0, 0⟩ ∧
    (geomPointAt (some 0) (-1) h').map Prod.fst = some ⟨0, 0⟩ ∧
    geomPointAt (some 0) 2 h' = none :=
  ⟨_, rfl, rfl, rfl, rfl, rfl, rfl⟩

section
open S
variable {α β : Type*} [LinearOrder α] [LinearOrder β]

/-- `tg_ring_point_at`, `tg_line_point_at`: the point, or (0, 0) for every index out of range. -/
theorem C36_point_of_series [Zero α] {f : Ix α β} (hf : f.Lawful) {A : Arith α} {e : Env} (he : e.Ok)
    {pts : List (S.Pt α)} {closed : Bool} {ix : BitVec 32} {ring : Ring α β}
    (h : newIx f A e pts closed ix = some ring) (i : Int) :
    ringPointAt (some ring) i = some (if 0 ≤ i then (pts[i.toNat]?).getD ⟨0, 0⟩ else ⟨0, 0⟩) := by
  obtain ⟨ro, _⟩ := newIx_some hf he h
  unfold ringPointAt
  dsimp only
  rw [ro.npoints_eq, ro.points_eq]
  by_cases hi : i < 0 ∨ i ≥ (pts.length : Int)
  · rw [if_pos hi]
    split
    · rw [List.getElem?_eq_none (by omega)]; rfl
    · rfl
  · have hlt : i.toNat < pts.length := by omega
    rw [if_neg hi, if_pos (by omega), List.getElem?_append_left hlt, List.getElem?_eq_getElem hlt]
    rfl

/-- `tg_ring_segment_at`, `tg_line_segment_at`: the segment, which for a ring may be the closing one,
or the segment from (0, 0) to (0, 0) for every index out of range. -/
theorem C36_segment_of_series [Zero α] {f : Ix α β} (hf : f.Lawful) {A : Arith α} {e : Env} (he : e.Ok)
    {pts : List (S.Pt α)} {closed : Bool} {ix : BitVec 32} {ring : Ring α β}
    (h : newIx f A e pts closed ix = some ring) (i : Int) :
    ringSegmentAt (some ring) i =
      some (if 0 ≤ i then ((segments pts closed)[i.toNat]?).getD ⟨⟨0, 0⟩, ⟨0, 0⟩⟩ else ⟨⟨0, 0⟩, ⟨0, 0⟩⟩) := by
  obtain ⟨ro, _⟩ := newIx_some hf he h
  unfold ringSegmentAt
  dsimp only
  rw [ro.nsegs_eq, ro.points_eq]
  by_cases hi : i < 0 ∨ i ≥ ((segments pts closed).length : Int)
  · rw [if_pos hi]
    split
    · rw [List.getElem?_eq_none (by omega)]; rfl
    · rfl
  · have hlt : i.toNat < (segments pts closed).length := by omega
    rw [if_neg hi, if_pos (by omega), segAt_eq pts closed hlt, List.getElem?_eq_getElem hlt]
    rfl

end

open S in
/-- A ring that is not closed by its last point has a closing segment. -/
example : ((newIx Ix.exact arithQ Env.initial [⟨1, 1⟩, ⟨2, 1⟩, ⟨2, 2⟩] true 0).bind fun r =>
      ringSegmentAt (some r) 2) = some ⟨⟨2, 2⟩, ⟨1, 1⟩⟩ ∧
    ((newIx Ix.exact arithQ Env.initial [⟨1, 1⟩, ⟨2, 1⟩, ⟨2, 2⟩] true 0).bind fun r =>
      ringPointAt (some r) 3) = some ⟨0, 0⟩ :=
  ⟨by decide +kernel, by decide +kernel⟩

end Tg
