import Verif.Lemmas.Bridge
import Verif.Lemmas.MadeExists
import Verif.Props.Query
import Verif.Props.Wkt
import Verif.Props.Wkb
import Verif.Props.GeojsonParse
/-!
C79: from texts to answers. `Geom.shape` is what an object of the parsers is made of; `Shape.By` says that a geometry, with its indexes, is made of this by
the constructors with doubles. `Covers v w`: the geometry `v`, as a user sees it, has the point `w`.
-/
namespace Tg

open S Spec

section has
variable (e : Env) (ix : BitVec 32)

/-- The same part with another environment and index option. -/
def S.AShape.reset : AShape ℚ → AShape ℚ
  | .point p => .point p
  | .line s => .line ⟨e, ix, s.pts⟩
  | .poly ext holes => .poly ⟨e, ix, ext.pts⟩ (holes.map fun h => ⟨e, ix, h.pts⟩)

theorem S.AShape.reset_has (x : AShape ℚ) (w : S.Pt ℚ) : (x.reset e ix).Has w ↔ x.Has w := by
  cases x with
  | point => exact Iff.rfl
  | line => exact Iff.rfl
  | poly ext holes =>
    simp only [AShape.reset, AShape.Has, List.forall_mem_map]
    exact Iff.rfl

theorem polyParts_reset (e' : Env) (ix' : BitVec 32) (rs : List (List (List F64))) :
    (polyParts e' ix' rs).map (AShape.reset e ix) = polyParts e ix rs := by
  cases rs with
  | nil => rfl
  | cons r rs => simp [polyParts, AShape.reset, seriesOf]

mutual
theorem parts_reset (e' : Env) (ix' : BitVec 32) : ∀ v : GV, (parts e' ix' v).map (AShape.reset e ix) = parts e ix v
  | .point _ _ none => rfl
  | .point _ _ (some p) => rfl
  | .line _ _ ps => rfl
  | .poly _ _ rs => polyParts_reset e ix e' ix' rs
  | .mpoint _ _ ps => by simp [parts, AShape.reset]
  | .mline _ _ ls => by simp [parts, AShape.reset, seriesOf]
  | .mpoly _ _ ps => by simp only [parts, List.map_flatMap, polyParts_reset]
  | .coll gs => by rw [parts, parts, partss_reset e' ix' gs]
theorem partss_reset (e' : Env) (ix' : BitVec 32) : ∀ vs : List GV, (partss e' ix' vs).map (AShape.reset e ix) = partss e ix vs
  | [] => rfl
  | v :: vs => by rw [partss, partss, List.map_append, parts_reset e' ix' v, partss_reset e' ix' vs]
end

theorem covers_iff (v : GV) (w : S.Pt ℚ) : Covers v w ↔ ∃ x ∈ parts e ix v, x.Has w := by
  rw [Covers, ← parts_reset e ix Env.initial 0 v]
  simp only [List.mem_map, exists_exists_and_eq_and, AShape.reset_has]

/-- C79. The points of an object are those of the geometry that a user sees; they do not depend on the environment or the index option. -/
theorem C79_has {g : Geom} {v : GV} (h : view g = some v) (w : S.Pt ℚ) : (g.shape e ix).Has w ↔ Covers v w := by
  rw [Shape.has_iff, covers_iff e ix v w]
  exact (view_parts e ix g v h).exists_iff _ fun x hx => void_has hx w

theorem covers_bare (v : GV) (w : S.Pt ℚ) : Covers (Wkt.bare v) w ↔ Covers v w := by rw [Covers, Covers, parts_bare]

theorem covers_reread (v : GV) (w : S.Pt ℚ) : Covers (Geojson.reread v) w ↔ Covers v w := by rw [Covers, Covers, parts_reread]

/-- C79. The object parsed from a WKT text has the points of the geometry of the text. -/
theorem C79_wkt_has (sd : List Byte → F64) (rnd : ℚ → F64) (hs : Wkt.Strtod sd rnd) (v : GV) (hv : Wkt.Wf v) (d : List Byte)
    (hd : Wkt.IsText (Wkt.NumOf rnd) v d) (hc : d.count 0x28#8 ≤ 1024) :
    ∃ g, Wp.tgParseWkt sd d = .geom g ∧ ∀ w, (g.shape e ix).Has w ↔ Covers v w := by
  obtain ⟨g, h1, h2⟩ := C52_wkt_accepted sd rnd hs v hv d hd hc
  exact ⟨g, h1, fun w => by rw [C79_has e ix h2, covers_bare]⟩

/-- C79. The object parsed from a GeoJSON text has the points of the geometry of the text. -/
theorem C79_geojson_has (sd : List Byte → F64 × Nat) (rnd : ℚ → F64) (hs : StrtodAll sd rnd) (v : GV) (hv : Wkt.Wf v) (hz : Geojson.ZFirst v)
    (t w w' : List Byte) (ht : Geojson.IsGeometry (ShortNum rnd) v t) (hw : Spec.Json.Ws w) (hw' : Spec.Json.Ws w') (hd : Spec.Json.Val Spec.Json.Str 1024 t)
    (hn : ¬ ([0xF4, 0x8F, 0xBF, 0xBF] : List Byte) <:+: w ++ (t ++ w')) :
    ∃ g, Gp.tgParseGeojson sd (w ++ (t ++ w')) = .geom g ∧ ∀ u, (g.shape e ix).Has u ↔ Covers v u := by
  obtain ⟨g, h1, h2, -⟩ := C55_geojson_accepted sd rnd hs v hv hz t w w' ht hw hw' hd hn
  exact ⟨g, h1, fun u => by rw [C79_has e ix h2, covers_reread]⟩

/-- C79. The object parsed from the WKB of a geometry has its points. -/
theorem C79_wkb_has (v : GV) (hv : Valid v) (hh : height v ≤ 1024) (bs rest : List Byte) (hb : Enc v bs) :
    ∃ g, tgParseWkb (bs ++ rest) = .geom g ∧ ∀ w, (g.shape e ix).Has w ↔ Covers v w :=
  ⟨build v, tgParseWkb_enc hb hv hh rest, fun w => C79_has e ix (view_build v hv) w⟩

end has

/-! ### Answers -/

/-- The vertices of the parts of a geometry. -/
def vertsOf (v : GV) : List (S.Pt ℚ) := (parts Env.initial 0 v).flatMap AShape.verts

/-- What is asked of a geometry, given the points that its rings are tested with: fixed-point coordinates, polygons as they should be, and rings for which the
search and the point test are right. -/
structure Sound (ns : List (S.Pt ℚ) → Nat) (k : ℤ) (e : Env) (ix : BitVec 32) (v : GV) (ps : List (S.Pt ℚ)) : Prop where
  grid : ∀ x ∈ parts e ix v, ∀ p ∈ x.nodes, GridPt k p
  ok : ∀ x ∈ parts e ix v, x.Ok
  fit : ∀ x ∈ parts e ix v, ∀ s ∈ x.rings, Fit ns s ps

theorem verts_reset (e : Env) (ix : BitVec 32) (v : GV) : (parts e ix v).flatMap AShape.verts = vertsOf v := by
  rw [vertsOf, ← parts_reset e ix Env.initial 0 v, List.flatMap_map]
  congr 1
  funext x
  cases x <;> rfl

theorem shape_verts {e : Env} {ix : BitVec 32} {g : Geom} {v : GV} (h : view g = some v) : (g.shape e ix).verts = vertsOf v := by
  rw [← verts_reset e ix v]
  exact (view_parts e ix g v h).flatMap _ fun x hx => void_verts hx

theorem Sound.shape {ns : List (S.Pt ℚ) → Nat} {k : ℤ} {e : Env} {ix : BitVec 32} {g : Geom} {v : GV} {ps : List (S.Pt ℚ)} (hs : Sound ns k e ix v ps)
    (h : view g = some v) : (∀ p ∈ (g.shape e ix).nodes, GridPt k p) ∧ (∀ x ∈ (g.shape e ix).atoms, x.Ok) ∧ ∀ s ∈ (g.shape e ix).rings, Fit ns s ps := by
  have same := view_parts e ix g v h
  refine ⟨?_, ?_, ?_⟩
  · intro p hp
    obtain ⟨x, hx, hp⟩ := List.mem_flatMap.1 hp
    exact (same.forall_iff (fun x => ∀ p ∈ x.nodes, GridPt k p) fun x hx => by rw [void_nodes hx]; simp).2 hs.grid x hx p hp
  · exact (same.forall_iff _ fun x hx => void_ok hx).2 hs.ok
  · intro s hs'
    obtain ⟨x, hx, hs'⟩ := List.mem_flatMap.1 hs'
    exact (same.forall_iff (fun x => ∀ s ∈ x.rings, Fit ns s ps) fun x hx => by rw [void_rings hx]; simp).2 hs.fit x hx s hs'

theorem Sound.bare {ns : List (S.Pt ℚ) → Nat} {k : ℤ} {e : Env} {ix : BitVec 32} {v : GV} {ps : List (S.Pt ℚ)} (hs : Sound ns k e ix v ps) :
    Sound ns k e ix (Wkt.bare v) ps := by
  obtain ⟨a, b, c⟩ := hs
  rw [← parts_bare] at a b c
  exact ⟨a, b, c⟩

theorem Sound.reread {ns : List (S.Pt ℚ) → Nat} {k : ℤ} {e : Env} {ix : BitVec 32} {v : GV} {ps : List (S.Pt ℚ)} (hs : Sound ns k e ix v ps) :
    Sound ns k e ix (Geojson.reread v) ps := by
  obtain ⟨a, b, c⟩ := hs
  rw [← parts_reread] at a b c
  exact ⟨a, b, c⟩

theorem verts_bare (v : GV) : vertsOf (Wkt.bare v) = vertsOf v := by rw [vertsOf, vertsOf, parts_bare]

theorem verts_reread (v : GV) : vertsOf (Geojson.reread v) = vertsOf v := by rw [vertsOf, vertsOf, parts_reread]

section env
variable (e : Env) (ix : BitVec 32)

theorem poly_env (p : Poly) : ∀ x ∈ (p.shape e ix).atoms, ∀ s, x = .line s ∨ s ∈ x.rings → s.e = e := by
  intro x hx s hs
  rw [Poly.shape, Shape.atoms, List.mem_singleton] at hx
  subst hx
  rcases hs with hs | hs
  · cases hs
  · rw [AShape.rings, ← List.map_cons (f := made e ix)] at hs
    obtain ⟨r, -, rfl⟩ := List.mem_map.1 hs
    rfl

theorem allAtoms_mem {x : AShape ℚ} : ∀ {l : List (Shape ℚ)}, x ∈ Shape.allAtoms l → ∃ c ∈ l, x ∈ c.atoms
  | [], h => by simp [Shape.allAtoms] at h
  | c :: l, h => by
    rw [Shape.allAtoms, List.mem_append] at h
    rcases h with h | h
    · exact ⟨c, by simp, h⟩
    · obtain ⟨c', h1, h2⟩ := allAtoms_mem h
      exact ⟨c', by simp [h1], h2⟩

mutual
theorem shape_env : ∀ (g : Geom), ∀ x ∈ (g.shape e ix).atoms, ∀ s, x = .line s ∨ s ∈ x.rings → s.e = e
  | .point _ p => by
    intro x hx s hs
    rw [Geom.shape, Shape.atoms, List.mem_singleton] at hx
    subst hx
    simp [AShape.rings] at hs
  | .line _ pts => by
    intro x hx s hs
    rw [Geom.shape, Shape.atoms, List.mem_singleton] at hx
    subst hx
    simp [AShape.rings] at hs
    rw [← hs]; rfl
  | .poly _ pl => by rw [Geom.shape]; exact poly_env e ix pl
  | .gpoint fl p _ _ _ => by
    rw [Geom.shape]
    split_ifs
    · simp [Shape.atoms]
    · intro x hx s hs
      rw [Shape.atoms, List.mem_singleton] at hx
      subst hx
      simp [AShape.rings] at hs
  | .gline fl none _ _ => by
    rw [Geom.shape]
    split_ifs <;> simp [Shape.atoms]
  | .gline fl (some pts) _ _ => by
    rw [Geom.shape]
    split_ifs
    · simp [Shape.atoms]
    · intro x hx s hs
      rw [Shape.atoms, List.mem_singleton] at hx
      subst hx
      simp [AShape.rings] at hs
      rw [← hs]; rfl
  | .gpoly fl none _ _ => by
    rw [Geom.shape]
    split_ifs <;> simp [Shape.atoms]
  | .gpoly fl (some pl) _ _ => by
    rw [Geom.shape]
    split_ifs
    · simp [Shape.atoms]
    · exact poly_env e ix pl
  | .mpoint fl ps _ _ => by
    rw [Geom.shape, Shape.atoms]
    intro x hx s hs
    obtain ⟨c, hc, hx⟩ := allAtoms_mem hx
    split_ifs at hc
    · simp at hc
    · obtain ⟨p, -, rfl⟩ := List.mem_map.1 hc
      rw [Shape.atoms, List.mem_singleton] at hx
      subst hx
      simp [AShape.rings] at hs
  | .mline fl ls _ _ => by
    rw [Geom.shape, Shape.atoms]
    intro x hx s hs
    obtain ⟨c, hc, hx⟩ := allAtoms_mem hx
    split_ifs at hc
    · simp at hc
    · obtain ⟨p, -, rfl⟩ := List.mem_map.1 hc
      cases p with
      | none => simp [Shape.atoms] at hx
      | some pts =>
        simp only [Shape.atoms, List.mem_singleton] at hx
        subst hx
        simp [AShape.rings] at hs
        rw [← hs]; rfl
  | .mpoly fl ps _ _ => by
    rw [Geom.shape, Shape.atoms]
    intro x hx s hs
    obtain ⟨c, hc, hx⟩ := allAtoms_mem hx
    split_ifs at hc
    · simp at hc
    · obtain ⟨p, -, rfl⟩ := List.mem_map.1 hc
      cases p with
      | none => simp [Shape.atoms] at hx
      | some pl => exact poly_env e ix pl x hx s hs
  | .coll fl hm gs _ _ => by
    rw [Geom.shape, Shape.atoms]
    split_ifs
    · simp [Shape.allAtoms]
    · exact shapes_env gs
  | .err _ => by simp [Geom.shape, Shape.atoms]
theorem shapes_env : ∀ (gs : List Geom), ∀ x ∈ Shape.allAtoms (Geom.shapes e ix gs), ∀ s, x = .line s ∨ s ∈ x.rings → s.e = e
  | [] => by simp [Geom.shapes, Shape.allAtoms]
  | g :: gs => by
    rw [Geom.shapes, Shape.allAtoms]
    intro x hx
    rcases List.mem_append.1 hx with hx | hx
    · exact shape_env g x hx
    · exact shapes_env gs x hx
end

end env

section answers
variable {F : Fp} (hF : Spec.Double.Rounding F.rnd) {q : ℚ → ℚ} (hq : Spec.Float32.Rounding q) {k : ℤ} (h1 : -125 ≤ k) (h2 : k ≤ 102)
  (hn : ∀ pts, F.ns pts < 2 ^ 31) {H : HArith ℚ} {Q : Qsort} (hQ : QsortOk Q) {e e' : Env} {ix ix' : BitVec 32}
include hF hq h1 h2 hn hQ

/-- C79. Two objects that show `v` and `u`: `tg_geom_intersects`, with doubles and with indexes in floats, answers whether `v` and `u` have a point in
common. -/
theorem C79_intersects {a b : Geom} {v u : GV} (ha : view a = some v) (hb : view b = some u) (sv : Sound F.ns k e ix v (vertsOf u))
    (su : Sound F.ns k e' ix' u (vertsOf v)) (fuel : Nat) (ga gb : Geo ℚ ℚ) (ma : (a.shape e ix).By (F.maker (F.ix32 q)) H Q ga)
    (mb : (b.shape e' ix').By (F.maker (F.ix32 q)) H Q gb) :
    ∃ r, geoIntersects ⟨F.ix32 q, F.arith, F.rarith, fuel⟩ ga gb = some r ∧ (r = true ↔ ∃ w, Covers v w ∧ Covers u w) := by
  obtain ⟨a1, a2, a3⟩ := sv.shape ha
  obtain ⟨b1, b2, b3⟩ := su.shape hb
  obtain ⟨r, r1, r2⟩ := C68_intersects hF hq h1 h2 hn (H := H) hQ _ _ a1 b1 a2 b2 (by rw [shape_verts hb]; exact a3) (by rw [shape_verts ha]; exact b3) fuel
    ga gb ma mb
  refine ⟨r, r1, r2.trans ?_⟩
  simp only [C79_has e ix ha, C79_has e' ix' hb]

/-- C79. `tg_geom_intersects_rect` of an object that shows `v` answers whether `v` has a point in the rectangle. -/
theorem C79_rect {a : Geom} {v : GV} (ha : view a = some v) (r : S.Rect ℚ) (hx : r.lo.x ≤ r.hi.x) (hy : r.lo.y ≤ r.hi.y)
    (sv : Sound F.ns k e ix v r.corners) (dr : GridPt k r.lo ∧ GridPt k r.hi) (fuel : Nat) (ga : Geo ℚ ℚ)
    (ma : (a.shape e ix).By (F.maker (F.ix32 q)) H Q ga) :
    ∃ t, geoIntersectsRect ⟨F.ix32 q, F.arith, F.rarith, fuel⟩ ga r = some t ∧
      (t = true ↔ ∃ w, Covers v w ∧ r.lo.x ≤ w.x ∧ w.x ≤ r.hi.x ∧ r.lo.y ≤ w.y ∧ w.y ≤ r.hi.y) := by
  obtain ⟨a1, a2, a3⟩ := sv.shape ha
  obtain ⟨t, t1, t2⟩ := C72_intersects_rect_ieee hF hq h1 h2 hn (H := H) hQ _ r hx hy a1 dr a2 a3 fuel ga ma
  refine ⟨t, t1, t2.trans ?_⟩
  simp only [C79_has e ix ha]

/-- C79. `tg_geom_covers` of an object that shows `v` and a point answers whether `v` has the point. -/
theorem C79_covers_point {a : Geom} {v : GV} (ha : view a = some v) (p : S.Pt ℚ) (dp : GridPt k p) (sv : Sound F.ns k e ix v [p]) (fuel : Nat) (ga : Geo ℚ ℚ)
    (ma : (a.shape e ix).By (F.maker (F.ix32 q)) H Q ga) :
    ∃ r, geoCovers ⟨F.ix32 q, F.arith, F.rarith, fuel⟩ ga (.atom (.point p)) = some r ∧ (r = true ↔ Covers v p) := by
  obtain ⟨a1, a2, a3⟩ := sv.shape ha
  obtain ⟨⟨r, r1, r2⟩, -⟩ := C67_point hF (by omega) (by omega) hn (C68_fits hF hq h1 h2) (H := H) hQ _ p a1 dp a3 fuel ga ma
  exact ⟨r, r1, r2.trans (C79_has e ix ha p)⟩

/-- C79. A WKT text and a GeoJSON text, both of fixed-point coordinates: both are parsed, and `tg_geom_intersects` of the two answers whether the
geometries of the texts have a point in common. -/
theorem C79_texts {sd : List Byte → F64} {sd' : List Byte → F64 × Nat} {rnd : ℚ → F64} (hs : Wkt.Strtod sd rnd) (hs' : StrtodAll sd' rnd)
    {v u : GV} (hv : Wkt.Wf v) (hu : Wkt.Wf u) (hz : Geojson.ZFirst u) {d t w w' : List Byte} (hd : Wkt.IsText (Wkt.NumOf rnd) v d)
    (hc : d.count 0x28#8 ≤ 1024) (ht : Geojson.IsGeometry (ShortNum rnd) u t) (hw : Spec.Json.Ws w) (hw' : Spec.Json.Ws w')
    (hl : Spec.Json.Val Spec.Json.Str 1024 t) (hx : ¬ ([0xF4, 0x8F, 0xBF, 0xBF] : List Byte) <:+: w ++ (t ++ w'))
    (sv : Sound F.ns k e ix v (vertsOf u)) (su : Sound F.ns k e' ix' u (vertsOf v)) (fuel : Nat) :
    ∃ a b, Wp.tgParseWkt sd d = .geom a ∧ Gp.tgParseGeojson sd' (w ++ (t ++ w')) = .geom b ∧
      ∀ ga gb : Geo ℚ ℚ, (a.shape e ix).By (F.maker (F.ix32 q)) H Q ga → (b.shape e' ix').By (F.maker (F.ix32 q)) H Q gb →
        ∃ r, geoIntersects ⟨F.ix32 q, F.arith, F.rarith, fuel⟩ ga gb = some r ∧ (r = true ↔ ∃ p, Covers v p ∧ Covers u p) := by
  obtain ⟨a, a1, a2⟩ := C52_wkt_accepted sd rnd hs v hv d hd hc
  obtain ⟨b, b1, b2, -⟩ := C55_geojson_accepted sd' rnd hs' u hu hz t w w' ht hw hw' hl hx
  refine ⟨a, b, a1, b1, fun ga gb ma mb => ?_⟩
  have := C79_intersects hF hq h1 h2 hn (H := H) hQ a2 b2 (by rw [verts_reread]; exact sv.bare) (by rw [verts_bare]; exact su.reread) fuel ga gb ma mb
  simpa only [covers_bare, covers_reread] using this

theorem same_answer {a a' b : Geom} {v v' u : GV} (ha : view a = some v) (ha' : view a' = some v') (hv : ∀ e ix, parts e ix v' = parts e ix v) (hb : view b = some u)
    (sv : Sound F.ns k e ix v (vertsOf u)) (su : Sound F.ns k e' ix' u (vertsOf v)) (fuel : Nat) (ga ga' gb : Geo ℚ ℚ)
    (ma : (a.shape e ix).By (F.maker (F.ix32 q)) H Q ga) (ma' : (a'.shape e ix).By (F.maker (F.ix32 q)) H Q ga')
    (mb : (b.shape e' ix').By (F.maker (F.ix32 q)) H Q gb) :
    geoIntersects ⟨F.ix32 q, F.arith, F.rarith, fuel⟩ ga gb = geoIntersects ⟨F.ix32 q, F.arith, F.rarith, fuel⟩ ga' gb := by
  have hvv : vertsOf v' = vertsOf v := by rw [vertsOf, vertsOf, hv]
  obtain ⟨r, r1, r2⟩ := C79_intersects hF hq h1 h2 hn (H := H) hQ ha hb sv su fuel ga gb ma mb
  obtain ⟨r', r1', r2'⟩ := C79_intersects hF hq h1 h2 hn (H := H) (e := e) (ix := ix) hQ ha' hb ⟨by rw [hv]; exact sv.grid, by rw [hv]; exact sv.ok, by rw [hv]; exact sv.fit⟩
    (by rw [hvv]; exact su) fuel ga' gb ma' mb
  rw [r1, r1', Option.some.injEq, Bool.eq_iff_iff, r2, r2']
  simp only [Covers, hv]

/-- C79. The format does not matter: the objects of a WKT text and of a GeoJSON text of the same geometry give the same answer against any other object. -/
theorem C79_format {sd : List Byte → F64} {sd' : List Byte → F64 × Nat} {rnd : ℚ → F64} (hs : Wkt.Strtod sd rnd) (hs' : StrtodAll sd' rnd)
    {v u : GV} (hv : Wkt.Wf v) (hz : Geojson.ZFirst v) {d t w w' : List Byte} (hd : Wkt.IsText (Wkt.NumOf rnd) v d)
    (hc : d.count 0x28#8 ≤ 1024) (ht : Geojson.IsGeometry (ShortNum rnd) v t) (hw : Spec.Json.Ws w) (hw' : Spec.Json.Ws w')
    (hl : Spec.Json.Val Spec.Json.Str 1024 t) (hx : ¬ ([0xF4, 0x8F, 0xBF, 0xBF] : List Byte) <:+: w ++ (t ++ w')) {b : Geom} (hb : view b = some u)
    (sv : Sound F.ns k e ix v (vertsOf u)) (su : Sound F.ns k e' ix' u (vertsOf v)) (fuel : Nat) :
    ∃ a a', Wp.tgParseWkt sd d = .geom a ∧ Gp.tgParseGeojson sd' (w ++ (t ++ w')) = .geom a' ∧
      ∀ ga ga' gb : Geo ℚ ℚ, (a.shape e ix).By (F.maker (F.ix32 q)) H Q ga → (a'.shape e ix).By (F.maker (F.ix32 q)) H Q ga' →
        (b.shape e' ix').By (F.maker (F.ix32 q)) H Q gb →
        geoIntersects ⟨F.ix32 q, F.arith, F.rarith, fuel⟩ ga gb = geoIntersects ⟨F.ix32 q, F.arith, F.rarith, fuel⟩ ga' gb := by
  obtain ⟨a, a1, a2⟩ := C52_wkt_accepted sd rnd hs v hv d hd hc
  obtain ⟨a', b1, b2, -⟩ := C55_geojson_accepted sd' rnd hs' v hv hz t w w' ht hw hw' hl hx
  refine ⟨a, a', a1, b1, fun ga ga' gb ma ma' mb => ?_⟩
  exact same_answer hF hq h1 h2 hn (H := H) hQ a2 b2 (fun e ix => by rw [parts_bare, parts_reread]) hb sv.bare (by rw [verts_bare]; exact su) fuel ga ga' gb ma ma' mb

/-- C79. The constructors succeed: for an object that shows `v` of fixed-point coordinates there is a geometry made of it, if no ring with Y-stripes is flat, and if
either no collection has 64 members or the conversion of the Hilbert order gives a number always. -/
theorem C79_made {a : Geom} {v : GV} (ha : view a = some v) (he : e.Ok) (hg : ∀ x ∈ parts e ix v, ∀ p ∈ x.nodes, GridPt k p)
    (hh : ∀ x ∈ parts e ix v, ∀ s ∈ x.rings, s.High) (hH : (∀ lo hi v, H.cell lo hi v ≠ none) ∨ (a.shape e ix).Narrow) :
    ∃ ga : Geo ℚ ℚ, (a.shape e ix).By (F.maker (F.ix32 q)) H Q ga := by
  have same := view_parts e ix a v ha
  refine shape_made hF (k := k) (by omega) (by omega) hn (C68_lawful hF hq) hQ _ hH fun x hx => ⟨fun s hs => ⟨?_, ?_⟩, fun s hs => ?_, ?_⟩
  · rw [shape_env e ix a x hx s (.inr hs)]; exact he
  · exact (same.forall_iff (fun x => ∀ s ∈ x.rings, s.High) fun x hx => by rw [void_rings hx]; simp).2 hh x hx s hs
  · rw [shape_env e ix a x hx s (.inl hs)]; exact he
  · exact (same.forall_iff (fun x => ∀ p ∈ x.nodes, GridPt k p) fun x hx => by rw [void_nodes hx]; simp).2 hg x hx

end answers

/-! ### A case -/

/-- The geometry of the WKT text of the case. -/
def wktView : GV := .mpoint true false [[0x3FF8000000000000#64, 0#64, 0#64], [0#64, 0#64, 0x3FF8000000000000#64]]

/-- The geometry of the GeoJSON text of the case. -/
def jsonView : GV := .point true false (some [0x3FF8000000000000#64, 0#64, 0#64])

theorem val_three_halves : Spec.Double.val 0x3FF8000000000000#64 = 3 / 2 := by decide +kernel

theorem val_nought : Spec.Double.val 0#64 = 0 := by decide +kernel

theorem wktView_parts (e : Env) (ix : BitVec 32) : parts e ix wktView = [.point ⟨3 / 2, 0⟩, .point ⟨0, 0⟩] := by
  simp [parts, wktView, posPt, val_three_halves, val_nought]

theorem jsonView_parts (e : Env) (ix : BitVec 32) : parts e ix jsonView = [.point ⟨3 / 2, 0⟩] := by
  simp [parts, jsonView, posPt, val_three_halves, val_nought]

theorem points_sound (ns : List (S.Pt ℚ) → Nat) (e : Env) (ix : BitVec 32) (ps : List (S.Pt ℚ)) : Sound ns (-1) e ix wktView ps ∧ Sound ns (-1) e ix jsonView ps := by
  have g0 : OnGrid (-1) 0 := ⟨0, by norm_num, by norm_num⟩
  have g1 : OnGrid (-1) (3 / 2) := ⟨3, by norm_num, by norm_num⟩
  constructor
  · refine ⟨?_, ?_, ?_⟩ <;> rw [wktView_parts] <;> simp [AShape.nodes, AShape.Ok, AShape.rings, GridPt, g0, g1]
  · refine ⟨?_, ?_, ?_⟩ <;> rw [jsonView_parts] <;> simp [AShape.nodes, AShape.Ok, AShape.rings, GridPt, g0, g1]

/-- The texts ` MultiPoint z ((1.5 0 0) ,( 0 0\t1.5))` and `{"coordinates" :[1.5, 0,0],"name":"x", "t\u0079pe":"Point"}`: both are parsed, the objects can be made, and however
they are made, they intersect. -/
example {F : Fp} (hF : Spec.Double.Rounding F.rnd) {q : ℚ → ℚ} (hq : Spec.Float32.Rounding q) (hn : ∀ pts, F.ns pts < 2 ^ 31) (fuel : Nat) :
    ∃ a b, Wp.tgParseWkt (Wp.readNum demoRnd) (txt " MultiPoint z ((1.5 0 0) ,( 0 0\t1.5))") = .geom a ∧
      Gp.tgParseGeojson (Gp.readAll demoRnd) ([] ++ (demoObject ++ [])) = .geom b ∧
      (∃ ga : Geo ℚ ℚ, (a.shape Env.initial 0).By (F.maker (F.ix32 q)) ⟨fun r => r.lo, fun _ _ _ => some 0⟩ insertionQsort ga) ∧
      (∃ gb : Geo ℚ ℚ, (b.shape Env.initial 0).By (F.maker (F.ix32 q)) ⟨fun r => r.lo, fun _ _ _ => some 0⟩ insertionQsort gb) ∧
      ∀ ga gb : Geo ℚ ℚ, (a.shape Env.initial 0).By (F.maker (F.ix32 q)) ⟨fun r => r.lo, fun _ _ _ => some 0⟩ insertionQsort ga →
        (b.shape Env.initial 0).By (F.maker (F.ix32 q)) ⟨fun r => r.lo, fun _ _ _ => some 0⟩ insertionQsort gb →
        geoIntersects ⟨F.ix32 q, F.arith, F.rarith, fuel⟩ ga gb = some true := by
  have ws : Spec.Json.Ws [] := by simp [Spec.Json.Ws]
  have wfa : Wkt.Wf wktView := by simp [wktView, Wkt.Wf, posOk, dims]
  have wfb : Wkt.Wf jsonView := by simp [jsonView, Wkt.Wf, posOk, dims]
  have zb : Geojson.ZFirst jsonView := by simp [jsonView, Geojson.ZFirst]
  have hl := Json.val_up (Gp.obj_level demo_obj.1 demo_obj.2) (m := 1024) (by omega)
  have hx : ¬ ([0xF4, 0x8F, 0xBF, 0xBF] : List Byte) <:+: [] ++ (demoObject ++ []) := by decide +kernel
  have hc : (txt " MultiPoint z ((1.5 0 0) ,( 0 0\t1.5))").count 0x28#8 ≤ 1024 := by decide +kernel
  obtain ⟨a, a1, a2⟩ := C52_wkt_accepted _ _ demo_strtod wktView wfa _ demo_isText hc
  obtain ⟨b, b1, b2, -⟩ := C55_geojson_accepted _ demoRnd (readAll_strtod _) jsonView wfb zb demoObject [] [] demo_geometry ws ws hl hx
  obtain ⟨a', b', a1', b1', h⟩ := C79_texts hF hq (k := -1) (by norm_num) (by norm_num) hn (H := ⟨fun r => r.lo, fun _ _ _ => some 0⟩) insertionQsort_ok demo_strtod
    (readAll_strtod _) wfa wfb zb demo_isText hc demo_geometry ws ws hl hx (points_sound F.ns Env.initial 0 _).1 (points_sound F.ns Env.initial 0 _).2 fuel
  rw [a1] at a1'
  rw [b1] at b1'
  cases a1'
  cases b1'
  refine ⟨a, b, a1, b1, ?_, ?_, fun ga gb ma mb => ?_⟩
  · refine C79_made hF hq (k := -1) (by norm_num) (by norm_num) hn insertionQsort_ok a2 ⟨by decide, by decide⟩ (points_sound F.ns Env.initial 0 []).1.bare.grid ?_
      (.inl (by simp))
    rw [parts_bare, wktView_parts]
    simp [AShape.rings]
  · refine C79_made hF hq (k := -1) (by norm_num) (by norm_num) hn insertionQsort_ok b2 ⟨by decide, by decide⟩ (points_sound F.ns Env.initial 0 []).2.reread.grid ?_
      (.inl (by simp))
    rw [parts_reread, jsonView_parts]
    simp [AShape.rings]
  · obtain ⟨r, r1, r2⟩ := h ga gb ma mb
    rw [r1, Option.some.injEq, r2]
    refine ⟨⟨3 / 2, 0⟩, ?_, ?_⟩
    · rw [Covers, wktView_parts]; simp [AShape.Has]
    · rw [Covers, jsonView_parts]; simp [AShape.Has]

/-- A square is sound. -/
example (ns : List (S.Pt ℚ) → Nat) (ps : List (S.Pt ℚ)) : Sound ns (-1) Env.initial 0 (.poly false false [[[0#64, 0#64], [0x3FF8000000000000#64, 0#64],
    [0x3FF8000000000000#64, 0x3FF8000000000000#64], [0#64, 0x3FF8000000000000#64], [0#64, 0#64]]]) ps := by
  have g0 : OnGrid (-1) 0 := ⟨0, by norm_num, by norm_num⟩
  have g1 : OnGrid (-1) (3 / 2) := ⟨3, by norm_num, by norm_num⟩
  obtain ⟨o1, o2⟩ := rect_shape ns ⟨⟨0, 0⟩, ⟨3 / 2, 3 / 2⟩⟩ ps
  have e : parts Env.initial 0 (.poly false false [[[0#64, 0#64], [0x3FF8000000000000#64, 0#64],
      [0x3FF8000000000000#64, 0x3FF8000000000000#64], [0#64, 0x3FF8000000000000#64], [0#64, 0#64]]]) =
      (Shape.atom (.poly (Rect.series ⟨⟨0, 0⟩, ⟨3 / 2, 3 / 2⟩⟩) [])).atoms := by
    simp [parts, polyParts, seriesOf, posPt, val_three_halves, val_nought, Shape.atoms, Rect.series, boxPts]
  refine ⟨?_, ?_, ?_⟩ <;> rw [e]
  · simp [Shape.atoms, AShape.nodes, Rect.series, boxPts, GridPt, g0, g1]
  · exact o1
  · intro x hx s hs
    exact o2 s (List.mem_flatMap.2 ⟨x, hx, hs⟩)

end Tg
