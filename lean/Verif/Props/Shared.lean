import Verif.Lemmas.SharedPlain
import Verif.Props.Float32
/-!
C71: shared vertices are found with doubles of any size. Most predicates can be wrong by rounding when a vertex of one geometry is near a segment of the
other. A vertex that two geometries have in common is found whatever the rounding, and geometries with rectangles that have no point in common do not
intersect.
-/
namespace Tg

open S Sh

section
variable {α : Type*} [LinearOrder α]

/-- C71. Whatever the arithmetic, a segment covers its ends and itself, a ray from an end is on it, and segments with a common end intersect. -/
theorem C71_segment (A : Arith α) (s : Seg α) :
    segCoversPt A s s.a = true ∧ segCoversPt A s s.b = true ∧ segCoversSeg A s s = true ∧ raycast A s s.a = .on ∧ raycast A s s.b = .on ∧
      ∀ t : Seg α, t.a = s.a ∨ t.a = s.b ∨ t.b = s.a ∨ t.b = s.b → segIntersects A s t = true ∧ segIntersects A t s = true := by
  have h1 := covers_end A (s := s) (.inl rfl)
  have h2 := covers_end A (s := s) (.inr rfl)
  refine ⟨h1, h2, by rw [segCoversSeg, h1, h2]; rfl, ray_end A (.inl rfl), ray_end A (.inr rfl), fun t ht => ?_⟩
  rcases ht with h | h | h | h
  · exact ⟨meet_end A (.inl rfl) (.inl h.symm), meet_end A (.inl h.symm) (.inl rfl)⟩
  · exact ⟨meet_end A (.inr rfl) (.inl h.symm), meet_end A (.inl h.symm) (.inr rfl)⟩
  · exact ⟨meet_end A (.inl rfl) (.inr h.symm), meet_end A (.inr h.symm) (.inl rfl)⟩
  · exact ⟨meet_end A (.inr rfl) (.inr h.symm), meet_end A (.inr h.symm) (.inr rfl)⟩

end

section
variable {K β : Type*} [Field K] [LinearOrder K] [IsStrictOrderedRing K] [LinearOrder β]

/-- C71. Whatever the arithmetic, a point, line or polygon does not intersect one on the other side of a horizontal or vertical line. -/
theorem C71_beside {C : Maker K β} (hf : C.f.Lawful) (R : RArith K) (fuel : Nat) {x y : AShape K} {xa ya : Atom K β} (hx : x.By C xa) (hy : y.By C ya)
    (lx : ∀ s, x = .line s → 2 ≤ s.pts.length) (ly : ∀ s, y = .line s → 2 ≤ s.pts.length) (px : ∀ e hs, x = .poly e hs → 3 ≤ e.pts.length)
    (py : ∀ e hs, y = .poly e hs → 3 ≤ e.pts.length) (hb : Beside x.verts y.verts) :
    geoIntersects ⟨C.f, C.A, R, fuel⟩ (.atom xa) (.atom ya) = some false ∧ geoDisjoint ⟨C.f, C.A, R, fuel⟩ (.atom xa) (.atom ya) = some true := by
  have long : ∀ z : AShape K, (∀ s, z = .line s → 2 ≤ s.pts.length) → (∀ e hs, z = .poly e hs → 3 ≤ e.pts.length) → Long z := fun z h1 h2 => by
    cases z with
    | point => trivial
    | line s => exact h1 s rfl
    | poly e hs => exact h2 e hs rfl
  have h := atom_beside hf (P := ⟨C.f, C.A, R, fuel⟩) rfl rfl hx hy (long x lx px) (long y ly py) hb
  have h' : geoIntersects ⟨C.f, C.A, R, fuel⟩ (.atom xa) (.atom ya) = some false := by
    unfold geoIntersects geoX
    simp [someGeo, h]
  exact ⟨h', by rw [geoDisjoint, h']; rfl⟩

end

variable {F : Fp} (hF : Spec.Double.Rounding F.rnd) {r : ℚ → ℚ} (hr : Spec.Float32.Rounding r) (hn : ∀ pts, F.ns pts < 2 ^ 31)
include hF hr hn

omit hn in
theorem S.plain_fits : Ag.Fits Plain (F.ix32 r) := by
  have h := Float32.ix32_fits hr hF
  exact ⟨h.lawful, h.wide_mono, fun x hx => h.down x hx.2, fun x hx => h.up x hx.2⟩

theorem S.shared_has {x y : AShape ℚ} {v : Pt ℚ} (h : Vertex x y v) {xa : Atom ℚ ℚ} (hx : x.By (F.maker (F.ix32 r)) xa) :
    Sh.Has (F.maker (F.ix32 r)) x v ∧ ∀ t ∈ Holes x, Free (F.maker (F.ix32 r)) y t := by
  have hf := plain_fits hF hr
  cases x with
  | point p => exact ⟨⟨trivial, h.mem, by simp, by simp⟩, by simp [Holes]⟩
  | line s =>
    refine ⟨⟨h.line s rfl, h.mem, by simp, ?_⟩, by simp [Holes]⟩
    rintro _ ⟨⟩
    refine hf.tight fun t ht => ?_
    obtain ⟨m1, m2⟩ := seg_mem_pts ht
    exact ⟨h.plain _ m1, h.plain _ m2⟩
  | poly e hs =>
    cases xa <;> try exact hx.elim
    obtain ⟨he, hh, -⟩ := polyBy hx
    have nodes : ∀ s ∈ e :: hs, ∀ p ∈ s.pts, Plain p.x ∧ Plain p.y := fun s hs p hp => h.plain p (by
      simp only [AShape.nodes]
      exact List.mem_flatMap.2 ⟨s, hs, hp⟩)
    have closed : ∀ s ∈ e :: hs, Closed s := h.closed
    refine ⟨⟨(closed e (by simp)).1, h.mem, ?_, by simp⟩, fun t ht => ?_⟩
    · rintro _ _ ⟨⟩
      exact ⟨soundBy hF hn hf.lawful (closed e (by simp)) (nodes e (by simp)),
        heldBy hF hn hf.lawful he.ok (closed e (by simp)).1 (nodes e (by simp)) (h.below e hs rfl)⟩
    · have ht' : t ∈ e :: hs := List.mem_cons_of_mem _ ht
      rcases h.holes e hs rfl t ht with hb | ⟨p, p1, p2, p3⟩
      · exact .inl hb
      · obtain ⟨q, -, hq⟩ := forall2_right hh.flip ht
        exact .inr ⟨p, p1, p2, (closed t ht').1, soundBy hF hn hf.lawful (closed t ht') (nodes t ht'),
          heldBy hF hn hf.lawful hq.ok (closed t ht').1 (nodes t ht') p3⟩

/-- C71. With doubles, and with indexes in floats, two geometries that have a vertex in common intersect. -/
theorem C71_shared {x y : AShape ℚ} {v : Pt ℚ} (hx : Vertex x y v) (hy : Vertex y x v) {xa ya : Atom ℚ ℚ} (ax : x.By (F.maker (F.ix32 r)) xa)
    (ay : y.By (F.maker (F.ix32 r)) ya) (R : RArith ℚ) (fuel : Nat) :
    geoIntersects ⟨F.ix32 r, F.arith, R, fuel⟩ (.atom xa) (.atom ya) = some true ∧ geoDisjoint ⟨F.ix32 r, F.arith, R, fuel⟩ (.atom xa) (.atom ya) = some false := by
  obtain ⟨x1, x2⟩ := shared_has hF hr hn hx ax
  obtain ⟨y1, y2⟩ := shared_has hF hr hn hy ay
  have h := atom_shared (plain_fits hF hr).lawful (P := ⟨F.ix32 r, F.arith, R, fuel⟩) (C := F.maker (F.ix32 r)) rfl rfl ax ay x1 y1 x2 y2
  have h' : geoIntersects ⟨F.ix32 r, F.arith, R, fuel⟩ (.atom xa) (.atom ya) = some true := by
    unfold geoIntersects geoX
    simp [someGeo, h]
  exact ⟨h', by rw [geoDisjoint, h']; rfl⟩

/-- C71. With doubles a geometry covers its vertices. -/
theorem C71_covers_vertex {x : AShape ℚ} {v : Pt ℚ} (hx : Vertex x (.point v) v) (hv : Plain v.x ∧ Plain v.y) {xa : Atom ℚ ℚ}
    (ax : x.By (F.maker (F.ix32 r)) xa) (R : RArith ℚ) (fuel : Nat) :
    geoCovers ⟨F.ix32 r, F.arith, R, fuel⟩ (.atom xa) (.atom (.point v)) = some true := by
  obtain ⟨x1, x2⟩ := shared_has hF hr hn hx ax
  obtain ⟨y1, y2⟩ := shared_has hF hr hn (x := .point v) (y := x) (v := v) ⟨by simp [AShape.verts], by simpa [AShape.nodes] using hv, by simp, by simp [AShape.rings],
    by simp, by simp⟩ (xa := .point v) rfl
  have h := atom_shared (plain_fits hF hr).lawful (P := ⟨F.ix32 r, F.arith, R, fuel⟩) (C := F.maker (F.ix32 r)) rfl rfl ax (show AShape.By _ (.point v) (.point v) from rfl) x1 y1 x2 y2
  cases xa <;> simpa [geoCovers, geoCov, everyGeo, atomCovers, atomX] using h

omit hF hr hn in
/-- The doubles 0, 0.1 and 1. -/
theorem S.plain_example : Plain 0 ∧ Plain (3602879701896397 / 2 ^ 55) ∧ Plain 1 := by
  have d : ∀ (n j : ℤ), |n| ≤ 2 ^ 53 → -1074 ≤ j → j ≤ 960 → ∃ x : F64, Spec.Double.IsFinite x ∧ Spec.Double.val x = n * 2 ^ j := fun n j a b c => isD_int a b c
  refine ⟨⟨by simpa using d 0 0 (by norm_num) (by norm_num) (by norm_num), .inl rfl⟩, ⟨?_, .inr ?_⟩, ⟨by simpa using d 1 0 (by norm_num) (by norm_num) (by norm_num), .inr ?_⟩⟩
  · have := d 3602879701896397 (-55) (by norm_num) (by norm_num) (by norm_num)
    rwa [show ((3602879701896397 : ℤ) : ℚ) * 2 ^ (-55 : ℤ) = 3602879701896397 / 2 ^ 55 from by norm_num] at this
  · refine ⟨?_, ?_⟩ <;> norm_num
  · refine ⟨?_, ?_⟩ <;> norm_num

/-- A triangle and a line that starts at its corner (0.1, 0). -/
def S.cornerTri : AShape ℚ := .poly ⟨Env.initial, 0#32, [⟨0, 0⟩, ⟨3602879701896397 / 2 ^ 55, 0⟩, ⟨1, 1⟩, ⟨0, 0⟩]⟩ []
def S.cornerLine : AShape ℚ := .line ⟨Env.initial, 0#32, [⟨3602879701896397 / 2 ^ 55, 0⟩, ⟨1, 0⟩]⟩

omit hF hr hn in
theorem S.corner_vertex : Vertex cornerTri cornerLine ⟨3602879701896397 / 2 ^ 55, 0⟩ ∧ Vertex cornerLine cornerTri ⟨3602879701896397 / 2 ^ 55, 0⟩ := by
  obtain ⟨z, t, o⟩ := plain_example
  refine ⟨⟨by simp [cornerTri, AShape.verts], ?_, by simp [cornerTri], ?_, ?_, ?_⟩, ⟨by simp [cornerLine, AShape.verts], ?_, ?_, by simp [cornerLine, AShape.rings],
    by simp [cornerLine], by simp [cornerLine]⟩⟩
  · intro p hp
    simp only [cornerTri, AShape.nodes, List.flatMap_cons, List.flatMap_nil, List.append_nil, List.mem_cons, List.not_mem_nil, or_false] at hp
    rcases hp with rfl | rfl | rfl | rfl
    exacts [⟨z, z⟩, ⟨t, z⟩, ⟨o, o⟩, ⟨z, z⟩]
  · intro s hs
    simp only [cornerTri, AShape.rings, List.mem_cons, List.not_mem_nil, or_false] at hs
    subst hs
    exact ⟨by simp, by simp⟩
  · intro e hs h
    cases h
    refine ⟨⟨⟨0, 0⟩, ⟨3602879701896397 / 2 ^ 55, 0⟩⟩, ?_, .inr rfl, ⟨1, 1⟩, by simp, ⟨0, 0⟩, by simp, ?_, by norm_num⟩
    · simp [segments, edges]
    · intro p hp
      simp only [List.mem_cons, List.not_mem_nil, or_false] at hp
      rcases hp with rfl | rfl | rfl | rfl <;> norm_num
  · intro e hs h
    cases h
    simp
  · intro p hp
    simp only [cornerLine, AShape.nodes, List.mem_cons, List.not_mem_nil, or_false] at hp
    rcases hp with rfl | rfl
    exacts [⟨t, z⟩, ⟨o, z⟩]
  · intro s hs
    cases hs
    simp

omit hr in
/-- They can be made with doubles, and then they intersect. -/
example (hr : Spec.Float32.Rounding r) (R : RArith ℚ) (fuel : Nat) : ∃ xa ya, cornerTri.By (F.maker (F.ix32 r)) xa ∧ cornerLine.By (F.maker (F.ix32 r)) ya ∧
    geoIntersects ⟨F.ix32 r, F.arith, R, fuel⟩ (.atom xa) (.atom ya) = some true := by
  have hok : Env.initial.Ok := ⟨by decide, by decide⟩
  obtain ⟨e, he⟩ := newIx_small' (F.ix32 r) (e := Env.initial) (pts := [⟨0, 0⟩, ⟨3602879701896397 / 2 ^ 55, 0⟩, ⟨1, 1⟩, ⟨0, 0⟩]) (closed := true) (ix := 0#32)
    (by show 4 < _; decide) F.arith
  obtain ⟨l, hl⟩ := newIx_small' (F.ix32 r) (e := Env.initial) (pts := [⟨3602879701896397 / 2 ^ 55, 0⟩, ⟨1, 0⟩]) (closed := false) (ix := 0#32)
    (by show 2 < _; decide) F.arith
  obtain ⟨o, ho⟩ := F.orient_some [⟨0, 0⟩, ⟨3602879701896397 / 2 ^ 55, 0⟩, ⟨1, 1⟩, ⟨0, 0⟩]
  have hx : cornerTri.By (F.maker (F.ix32 r)) (.poly (.ring ⟨e, o.convex, o.clockwise⟩)) :=
    ⟨rfl, hok, he, by show F.ringConvex _ = _; rw [Fp.ringConvex, ho]; rfl, by show F.ringClockwise _ = _; rw [Fp.ringClockwise, ho]; rfl⟩
  have hy : cornerLine.By (F.maker (F.ix32 r)) (.line l) := ⟨hok, hl⟩
  exact ⟨_, _, hx, hy, (C71_shared hF hr hn corner_vertex.1 corner_vertex.2 hx hy R fuel).1⟩

/-- A triangle in the same place is on the other side of a vertical line from a point. -/
example : Beside cornerTri.verts (AShape.point ⟨2, 1 / 3⟩ : AShape ℚ).verts := by
  left
  intro p hp q hq
  simp only [cornerTri, AShape.verts, List.mem_cons, List.not_mem_nil, or_false] at hp hq
  subst hq
  rcases hp with rfl | rfl | rfl | rfl <;> norm_num

end Tg
