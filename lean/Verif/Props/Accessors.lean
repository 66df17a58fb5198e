import Verif.Lemmas.Straight
import Verif.Props.Wkb
import Verif.Props.Wkt
import Verif.Props.GeojsonParse
/-!
Properties C83 and C84: the functions that tell a user what a geometry holds, and `tg_geom_foreach`.
-/
set_option linter.dupNamespace false
namespace Tg
open Spec Get

/-! ### C83 -/

/-- C83. The accessors lose nothing and add nothing: the program `Api.read`, which can only call them, finds out the geometry that the object is (type, Z/M, every
position, every member), and no call reads outside of an array. -/
theorem C83_read {g : Geom} {v : GV} (hs : Straight g) (hv : view g = some v) (n : Nat) (hn : nest g < n) : Get.api.read n (some g) = some v :=
  read_view n g v hn hs hv

/-- C83. Objects that the parsers return meet the hypotheses, whatever the bytes. -/
theorem C83_parsed (g : Geom) :
    ((∃ data, tgParseWkb data = .geom g) ∨ (∃ sd data, Wp.tgParseWkt sd data = .geom g) → Straight g ∧ nest g ≤ 1024) ∧
    ((∃ sd data, Gp.tgParseGeojson sd data = .geom g) → Straight g) := by
  refine ⟨?_, ?_⟩
  · rintro (⟨d, h⟩ | ⟨sd, d, h⟩)
    · exact ⟨tgParseWkb_straight h, C05_wkb_nesting d g h⟩
    · exact ⟨Wp.tgParseWkt_straight h, C15_wkt_depth sd d g h⟩
  · rintro ⟨sd, d, h⟩
    exact tgParseGeojson_straight h

/-- C83. From the bytes to the user: a WKB encoding of `v` is parsed, and the accessors tell `v`. -/
theorem C83_wkb (v : GV) (hv : Valid v) (hh : height v ≤ 1024) (bs rest : List Byte) (hb : Enc v bs) :
    ∃ g, tgParseWkb (bs ++ rest) = .geom g ∧ Get.api.read 1025 (some g) = some v := by
  have h := tgParseWkb_enc hb hv hh rest
  exact ⟨_, h, C83_read (tgParseWkb_straight h) (view_build v hv) 1025 (by have := C05_wkb_nesting _ _ h; omega)⟩

/-- C83. The same from a Well-Known Text (`bare`: tg keeps no Z/M of what is empty). -/
theorem C83_wkt (sd : List Byte → F64) (rnd : ℚ → F64) (hs : Wkt.Strtod sd rnd) (v : GV) (hv : Wkt.Wf v) (d : List Byte) (hd : Wkt.IsText (Wkt.NumOf rnd) v d)
    (hc : d.count 0x28#8 ≤ 1024) : ∃ g, Wp.tgParseWkt sd d = .geom g ∧ Get.api.read 1025 (some g) = some (Wkt.bare v) := by
  obtain ⟨g, h, h2⟩ := C52_wkt_accepted sd rnd hs v hv d hd hc
  exact ⟨g, h, C83_read (Wp.tgParseWkt_straight h) h2 1025 (by have := C15_wkt_depth _ _ _ h; omega)⟩

/-- C83. The same from a GeoJSON text. -/
theorem C83_geojson (sd : List Byte → F64 × Nat) (rnd : ℚ → F64) (hs : StrtodAll sd rnd) (v : GV) (hv : Wkt.Wf v) (hz : Geojson.ZFirst v) (t w w' : List Byte)
    (ht : Geojson.IsGeometry (ShortNum rnd) v t) (hw : Spec.Json.Ws w) (hw' : Spec.Json.Ws w') (hd : Spec.Json.Val Spec.Json.Str 1024 t)
    (hn : ¬ ([0xF4, 0x8F, 0xBF, 0xBF] : List Byte) <:+: w ++ (t ++ w')) :
    ∃ g, Gp.tgParseGeojson sd (w ++ (t ++ w')) = .geom g ∧ ∀ n, nest g < n → Get.api.read n (some g) = some (Geojson.reread v) := by
  obtain ⟨g, h, h2, -⟩ := C55_geojson_accepted sd rnd hs v hv hz t w w' ht hw hw' hd hn
  exact ⟨g, h, fun n hn => C83_read (tgParseGeojson_straight h) h2 n hn⟩

/-- C83. Type number, type name, Z, M and the number of coordinates of a position. -/
theorem C83_type {g : Geom} {v : GV} (hv : view g = some v) :
    Get.typeof (some g) = (typeOf v).1 ∧ Get.typeString (Get.typeof (some g)) = (typeOf v).2 ∧ (Get.hasZ (some g), Get.hasM (some g)) = zmOf v ∧
    Get.dims (some g) = Spec.dims (zmOf v).1 (zmOf v).2 := by
  have hd : Get.dims (some g) = Spec.dims (Get.hasZ (some g)) (Get.hasM (some g)) := by
    simp only [Get.dims, Get.hasZ, Get.hasM, Spec.dims]
    cases g.flags.hasZ <;> cases g.flags.hasM <;> rfl
  have h : Get.typeof (some g) = (typeOf v).1 ∧ Get.typeString (Get.typeof (some g)) = (typeOf v).2 ∧ (Get.hasZ (some g), Get.hasM (some g)) = zmOf v := by
    cases g
    case err => cases hv
    case point | line | poly =>
      rw [view] at hv
      split_ifs at hv with h0
      cases hv
      have := no_zm h0
      exact ⟨rfl, rfl, by simp [Get.hasZ, Get.hasM, Geom.flags, zmOf, this]⟩
    case gpoint =>
      rw [view] at hv
      split_ifs at hv with h0 h1
      · cases hv
        have := no_zm h1
        exact ⟨rfl, rfl, by simp [Get.hasZ, Get.hasM, Geom.flags, zmOf, this]⟩
      all_goals
        cases hv
        exact ⟨rfl, rfl, by simp_all [Get.hasZ, Get.hasM, Geom.flags, zmOf]⟩
    case gline fl l c x =>
      rw [view.eq_def] at hv
      dsimp only at hv
      split_ifs at hv with h0
      · cases hv; exact ⟨rfl, rfl, rfl⟩
      · cases l <;> cases hv; exact ⟨rfl, rfl, rfl⟩
    case gpoly fl l c x =>
      rw [view.eq_def] at hv
      dsimp only at hv
      split_ifs at hv with h0
      · cases hv; exact ⟨rfl, rfl, rfl⟩
      · cases l <;> cases hv; exact ⟨rfl, rfl, rfl⟩
    case mpoint => rw [view] at hv; cases hv; exact ⟨rfl, rfl, rfl⟩
    case mline | mpoly =>
      rw [view] at hv
      split_ifs at hv with h0
      · cases hv; exact ⟨rfl, rfl, rfl⟩
      · split at hv
        · cases hv
        · cases hv; exact ⟨rfl, rfl, rfl⟩
    case coll =>
      rw [view] at hv
      split_ifs at hv with h0 h1
      · cases hv
        have := no_zm h0
        exact ⟨rfl, rfl, by simp [Get.hasZ, Get.hasM, Geom.flags, zmOf, this]⟩
      · split at hv
        · cases hv
        · cases hv
          have := no_zm h0
          exact ⟨rfl, rfl, by simp [Get.hasZ, Get.hasM, Geom.flags, zmOf, this]⟩
  refine ⟨h.1, h.2.1, h.2.2, ?_⟩
  rw [hd, ← h.2.2]

/-- C83. `tg_geom_is_empty` tells whether the geometry is empty: nothing at all, a line of less than two positions, a polygon whose exterior has less than three, or a
collection, however nested, of such. -/
theorem C83_empty {g : Geom} {v : GV} (hs : Straight g) (hv : view g = some v) : Get.isEmpty (some g) = true ↔ Vacant v := empty_view g v hs hv

/-- C83. `tg_geom_de9im_dims` is the largest dimension of a type in the geometry, nested collections included, and -1 if there is none. -/
theorem C83_dims {g : Geom} {v : GV} (hs : Straight g) (hv : view g = some v) :
    (∀ w ∈ flat v, dimOf w ≤ Get.de9imDims (some g)) ∧ (if flat v = [] then Get.de9imDims (some g) = -1 else ∃ w ∈ flat v, dimOf w = Get.de9imDims (some g)) := by
  obtain ⟨h1, h2⟩ := de9im_view g v hs hv
  refine ⟨h1, ?_⟩
  split_ifs with h0
  · rw [h0] at h2
    rcases h2 with h2 | ⟨w, hw, -⟩
    · exact h2
    · cases hw
  · rcases h2 with h2 | h2
    · obtain ⟨w, hw⟩ := List.exists_mem_of_ne_nil _ h0
      refine ⟨w, hw, ?_⟩
      have h3 := h1 w hw
      have h4 : (-1 : Int) ≤ dimOf w := by cases w <;> simp [dimOf]
      show dimOf w = de9im g
      omega
    · exact h2

/-- A polygon with a hole and Z, a measured multipoint, an empty line, and a nested collection. -/
theorem wkbSample_straight : Straight wkbSample := by
  simp [wkbSample, Straight, Straights]

set_option maxRecDepth 100000 in
/-- What the accessors say of the sample. -/
example : ∃ v, view wkbSample = some v ∧ Get.api.read 3 (some wkbSample) = some v ∧ Get.typeString (Get.typeof (some wkbSample)) = "GeometryCollection" ∧
    Get.de9imDims (some wkbSample) = 2 ∧ Get.isEmpty (some wkbSample) = false ∧ Get.numGeoms (some wkbSample) = 4 := by
  refine ⟨_, rfl, ?_, by decide, by decide, by decide, by decide⟩
  exact C83_read wkbSample_straight rfl 3 (by decide)

/-- A collection of an empty collection and an empty polygon is empty; its type has a dimension all the same. -/
example : Get.isEmpty (some (.coll {} true [.coll emptyFlags false [] [] none, .gpoly emptyFlags none [] none] [] none)) = true ∧
    Get.de9imDims (some (.coll {} true [.coll emptyFlags false [] [] none, .gpoly emptyFlags none [] none] [] none)) = 2 := by decide

/-- The hypothesis `Straight` is needed: of an object that is flagged as empty and has points the accessors say something else than the writers. -/
theorem C83_needed : ∃ g v, view g = some v ∧ Get.api.read 9 (some g) ≠ some v :=
  ⟨.mpoint { isEmpty := true } (some [⟨1, 2⟩]) [] none, _, rfl, by
    rw [show Get.api.read 9 (some (.mpoint { isEmpty := true } (some [⟨1, 2⟩]) [] none)) = some (.mpoint false false [[1, 2]]) from rfl]
    simp⟩

/-! ### C84: `tg_geom_foreach` -/

/-- A callback that notes its argument and goes on as long as `go` says so. -/
def noting (go : Option Geom → Bool) (c : Option Geom) (s : List (Option Geom)) : Bool × List (Option Geom) := (go c, s ++ [c])

/-- The geometries that `tg_geom_foreach` hands to a callback that never stops. -/
def visited (g : Geom) : List (Option Geom) := (Get.foreach (noting fun _ => true) (some g) []).2

theorem loop_noting (go : Option Geom → Bool) : ∀ (cs s : List (Option Geom)),
    (Get.loop (noting go) cs s).2 = s ++ (cs.take ((cs.takeWhile go).length + 1)) ∧ (Get.loop (noting go) cs s).1 = cs.all go
  | [], s => by simp [Get.loop]
  | c :: cs, s => by
    rw [Get.loop, noting]
    cases hg : go c with
    | false => simp [hg]
    | true =>
      dsimp only
      obtain ⟨h1, h2⟩ := loop_noting go cs (s ++ [c])
      rw [h1, h2]
      simp [hg]

/-- The direct members, or the geometry itself. -/
def ownMembers (g : Geom) : List (Option Geom) := (Get.slots g).getD [some g]

theorem visited_own (g : Geom) : visited g = ownMembers g := by
  unfold visited ownMembers Get.foreach
  dsimp only
  cases Get.slots g with
  | none => rfl
  | some cs =>
    rw [(loop_noting (fun _ => true) cs []).1, List.nil_append, List.take_of_length_le, Option.getD_some]
    have : ∀ l : List (Option Geom), l.takeWhile (fun _ => true) = l := fun l => by
      induction l with
      | nil => rfl
      | cons a l ih => rw [List.takeWhile_cons, if_pos rfl, ih]
    rw [this]
    omega

/-- C84. The order and the stop: the callback gets the members in order, up to and including the first one for which it says stop; the result
is whether it never did. -/
theorem C84_stops (go : Option Geom → Bool) (g : Geom) :
    (Get.foreach (noting go) (some g) []).2 = (visited g).take (((visited g).takeWhile go).length + 1) ∧
    (Get.foreach (noting go) (some g) []).1 = (visited g).all go := by
  rw [visited_own]
  unfold ownMembers Get.foreach
  dsimp only
  cases Get.slots g with
  | none =>
    cases hg : go (some g) <;> simp [noting, hg]
  | some cs => simpa using loop_noting go cs []

/-- No collection in a collection, no empty part, no Z or M in a homogeneous collection. -/
def Level : GV → Prop
  | .mpoint z m _ => z = false ∧ m = false
  | .mline z m ls => z = false ∧ m = false ∧ ∀ l ∈ ls, 2 ≤ l.length
  | .mpoly z m ps => z = false ∧ m = false ∧ ∀ rs ∈ ps, ∃ r ∈ rs.head?, 3 ≤ r.length
  | .coll gs => ∀ g ∈ gs, leaves g = [g]
  | v => leaves v = [v]

theorem leavess_own : ∀ {gs : List GV}, (∀ g ∈ gs, leaves g = [g]) → leavess gs = gs
  | [], _ => rfl
  | g :: gs, h => by
    rw [leavess, h g (by simp), leavess_own fun g' hg => h g' (by simp [hg])]; rfl

theorem posns0 (ps : List Pt) (cs : List F64) : posns 0 ps cs = ps.map fun p => [p.x, p.y] := by
  induction ps generalizing cs with
  | nil => rfl
  | cons p ps ih => rw [posns, ih]; simp [takePad]

theorem posnss0 (rs : List (List Pt)) (cs : List F64) : posnss 0 rs cs = rs.map fun r => posns 0 r [] := by
  induction rs generalizing cs with
  | nil => rfl
  | cons p ps ih => rw [posnss, ih]; simp [posns0]

theorem posnsss0 (rs : List (List (List Pt))) (cs : List F64) : posnsss 0 rs cs = rs.map fun r => posnss 0 r [] := by
  induction rs generalizing cs with
  | nil => rfl
  | cons p ps ih => rw [posnsss, ih]; simp [posnss0]

/-- C84, what holds of the documented behaviour. `tg_geom_foreach` "flattens a Multi* or GeometryCollection, iterating over every child (or child of child in case of
nested geometry collection). ... Empty geometries are not returned." For geometries without nested collections, without empty members and without Z and M in
homogeneous collections this is so: the callback sees exactly the simple geometries. Missing: the other geometries, for which it is false
(`C84_not_flat`). -/
theorem C84_foreach_partial {g : Geom} {v : GV} (hs : Straight g) (hv : view g = some v) (hl : Level v) :
    (visited g).map (·.bind view) = (leaves v).map some := by
  rw [visited_own]
  have simple : Get.slots g = none → leaves v = [v] → (ownMembers g).map (·.bind view) = (leaves v).map some := by
    intro h1 h2
    rw [ownMembers, h1, h2]
    simp [hv]
  cases g with
  | err => cases hv
  | point fl p =>
    rw [view] at hv
    split_ifs at hv
    cases hv
    exact simple rfl hl
  | line fl l =>
    rw [view] at hv
    split_ifs at hv
    cases hv
    exact simple rfl hl
  | poly fl l =>
    rw [view] at hv
    split_ifs at hv
    cases hv
    exact simple rfl hl
  | gpoint fl p z m x =>
    refine simple rfl ?_
    rw [view] at hv
    split_ifs at hv <;> cases hv <;> exact hl
  | gline fl l c x =>
    refine simple rfl ?_
    rw [view.eq_def] at hv
    dsimp only at hv
    split_ifs at hv with h0
    · cases hv; exact hl
    · cases l <;> cases hv; exact hl
  | gpoly fl l c x =>
    refine simple rfl ?_
    rw [view.eq_def] at hv
    dsimp only at hv
    split_ifs at hv with h0
    · cases hv; exact hl
    · cases l <;> cases hv; exact hl
  | mpoint fl ps c x =>
    have e : view (.mpoint fl ps c x) = some (.mpoint fl.hasZ fl.hasM (posns (Spec.dims fl.hasZ fl.hasM - 2) (ps.getD []) c)) := by
      rw [view]
      split_ifs with h0
      · rw [hs h0]; rfl
      · rfl
    rw [e] at hv
    cases hv
    rw [Level] at hl
    rw [hl.1, hl.2, show Spec.dims false false - 2 = 0 from rfl, posns0, leaves, ownMembers, Get.slots]
    simp only [Option.getD_some, List.map_map]
    refine List.map_congr_left fun p _ => ?_
    simp [view]
  | mline fl ls c x =>
    have hv : ∃ r, ls.getD [] = r.map some ∧ v = .mline fl.hasZ fl.hasM (posnss (Spec.dims fl.hasZ fl.hasM - 2) r c) := by
      rw [view] at hv
      split_ifs at hv with h0
      · cases hv; exact ⟨[], hs h0, rfl⟩
      · split at hv
        · cases hv
        · rename_i r hr
          cases hv
          exact ⟨r, mapM_id hr, rfl⟩
    obtain ⟨r, h1, rfl⟩ := hv
    rw [Level] at hl
    obtain ⟨hz, hm, hl⟩ := hl
    rw [hz, hm, show Spec.dims false false - 2 = 0 from rfl] at hl ⊢
    rw [leaves, List.filter_eq_self.2 (by simpa using hl), posnss0, ownMembers, Get.slots, h1]
    simp only [Option.getD_some, List.map_map]
    refine List.map_congr_left fun p _ => ?_
    simp [view]
  | mpoly fl ls c x =>
    have hv : ∃ r : List Poly, ls.getD [] = r.map some ∧ v = .mpoly fl.hasZ fl.hasM (posnsss (Spec.dims fl.hasZ fl.hasM - 2) (r.map Spec.rings) c) := by
      rw [view] at hv
      split_ifs at hv with h0
      · cases hv; exact ⟨[], hs h0, rfl⟩
      · split at hv
        · cases hv
        · rename_i r hr
          cases hv
          exact ⟨r, mapM_id hr, rfl⟩
    obtain ⟨r, h1, rfl⟩ := hv
    rw [Level] at hl
    obtain ⟨hz, hm, hl⟩ := hl
    rw [hz, hm, show Spec.dims false false - 2 = 0 from rfl] at hl ⊢
    rw [leaves, List.filter_eq_self.2 (fun rs hrs => by
      obtain ⟨r, h2, h3⟩ := hl rs hrs
      rw [Option.any_eq_true]
      exact ⟨r, h2, by simpa using h3⟩), posnsss0, ownMembers, Get.slots, h1]
    simp only [Option.getD_some, List.map_map]
    refine List.map_congr_left fun p _ => ?_
    simp [view]
  | coll fl h gs c x =>
    rw [view] at hv
    split_ifs at hv with h0 h1
    · cases hv
      rw [ownMembers, Get.slots]
      cases h with
      | false => rfl
      | true =>
        have : fl.isEmpty = true := by simpa using h1
        rw [hs.1 rfl this]; rfl
    · have : h = true := by cases h <;> simp_all
      subst this
      split at hv
      · cases hv
      · rename_i vs hvs
        cases hv
        rw [leaves, leavess_own hl, ownMembers, Get.slots, if_pos rfl]
        simp only [Option.getD_some, List.map_map]
        have hf := views_forall hvs
        clear hvs hl simple hs h0 h1
        induction hf with
        | nil => rfl
        | cons h _ ih => rw [List.map_cons, List.map_cons, ih]; simp [h]

/-- The hypotheses hold of a collection of a measured point, a line and a polygon, and of a MultiPolygon. -/
example : Level (.coll [.point false true (some [1, 2, 3]), .line false false [[1, 2], [3, 4]], .poly false false [[[0, 0], [9, 0], [9, 9], [0, 0]]]]) ∧
    Level (.mpoly false false [[[[0, 0], [9, 0], [9, 9], [0, 0]]]]) := by
  simp [Level, leaves]

/-- C84 is false of the code for nested collections (the callback gets the inner collection, not its members), for empty members (the callback gets them), and for
homogeneous collections with Z (the callback gets points without Z). -/
theorem C84_not_flat :
    (∃ g v, Straight g ∧ view g = some v ∧ visited g = [some (.coll {} true [.point {} ⟨1, 2⟩] [] none)] ∧ leaves v = [.point false false (some [1, 2])]) ∧
    (∃ g v, Straight g ∧ view g = some v ∧ visited g = [some (.gline emptyFlags none [] none)] ∧ leaves v = []) ∧
    (∃ g v, Straight g ∧ view g = some v ∧ visited g = [some (.point {} ⟨1, 2⟩)] ∧ leaves v = [.point true false (some [1, 2, 3])]) :=
  ⟨⟨.coll {} true [.coll {} true [.point {} ⟨1, 2⟩] [] none] [] none, _, by simp [Straight, Straights], rfl, rfl, rfl⟩,
   ⟨.coll {} true [.gline emptyFlags none [] none] [] none, _, by simp [Straight, Straights], rfl, rfl, by simp [leaves, leavess]⟩,
   ⟨.mpoint { hasZ := true } (some [⟨1, 2⟩]) [3] none, _, by simp [Straight], rfl, rfl, rfl⟩⟩

end Tg
