import Verif.Spec.Accessors
import Mathlib.Data.List.Forall2
import Verif.Model.GeomGet
/-! The accessors show what the geometry is. -/
set_option linter.unusedSectionVars false
namespace Tg
open Spec

/-- The accessors of the model. -/
def Get.api : Api (Option Geom) (Option (List Pt)) (Option Poly) where
  typeof := Get.typeof
  isEmpty := Get.isEmpty
  hasZ := Get.hasZ
  hasM := Get.hasM
  z := Get.z
  m := Get.m
  point := Get.point
  line := Get.line
  poly := Get.poly
  null := Option.isNone
  extra := Get.extra
  numPts := Get.numPts
  ptAt := Get.ptAt
  exterior := Get.exterior
  numHoles := Get.numHoles
  holeAt := Get.holeAt
  numPoints := Get.numPoints
  pointAt := Get.pointAt
  numLines := Get.numLines
  lineAt := Get.lineAt
  numPolys := Get.numPolys
  polyAt := Get.polyAt
  numGeoms := Get.numGeoms
  geomAt := Get.geomAt

mutual
/-- Objects as the constructors and parsers make them: what is flagged as empty has no parts, and points, lines and polygons that are not wrapped are not
flagged. -/
def Straight : Geom → Prop
  | .point fl _ | .line fl _ | .poly fl _ => fl.isEmpty = false
  | .gpoint .. => True
  | .gline fl l _ _ => fl.isEmpty = true → l = none
  | .gpoly fl p _ _ => fl.isEmpty = true → p = none
  | .mpoint fl ps _ _ => fl.isEmpty = true → ps.getD [] = []
  | .mline fl ls _ _ => fl.isEmpty = true → ls.getD [] = []
  | .mpoly fl ps _ _ => fl.isEmpty = true → ps.getD [] = []
  | .coll fl h gs _ _ => (h = true → fl.isEmpty = true → gs = []) ∧ Straights gs
  | .err _ => True
/-- All of them. -/
def Straights : List Geom → Prop
  | [] => True
  | g :: gs => Straight g ∧ Straights gs
end

namespace Get

theorem range_getD (l : List Pt) : (List.range l.length).map (fun i => l.getD i ⟨0#64, 0#64⟩) = l := by
  apply List.ext_getElem (by simp)
  intro i h1 h2
  simp [h2]

theorem pts_some (l : List Pt) : api.pts (some l) = l := by
  conv_rhs => rw [← range_getD l]
  refine List.map_congr_left fun i hi => ?_
  have hi : i < l.length := by simpa [api, numPts] using hi
  simp only [api, ptAt]
  rw [if_neg (by omega)]
  simp

theorem pts_none : api.pts none = [] := rfl

theorem range_map {X Y : Type} (l : List X) (f : Nat → Y) (g : X → Y) (h : ∀ (i : Nat) (hi : i < l.length), f i = g l[i]) :
    (List.range l.length).map f = l.map g := by
  apply List.ext_getElem (by simp)
  intro i h1 h2
  have : i < l.length := by simpa using h1
  simpa using h i this

theorem rings_some (p : Poly) : api.rings (some p) = Spec.rings p := by
  unfold Api.rings
  rw [if_neg (by simp [api])]
  have h2 : (List.range (api.numHoles (some p))).map (fun i => api.pts (api.holeAt (some p) (i : Nat))) = p.holes.map id := by
    refine range_map p.holes _ _ fun i hi => ?_
    have : api.holeAt (some p) (i : Nat) = some p.holes[i] := by
      simp only [api, holeAt]
      rw [if_neg (by omega)]
      simp [hi]
    rw [this, pts_some]; rfl
  rw [h2, List.map_id, show api.exterior (some p) = some p.ext from rfl, pts_some]
  rfl

theorem rings_none : api.rings none = [] := rfl

theorem mapM_of {X Y : Type} {f : X → Option Y} : ∀ {xs : List X} {ys : List Y}, List.Forall₂ (fun x y => f x = some y) xs ys → xs.mapM f = some ys
  | _, _, .nil => by simp
  | x :: xs, y :: ys, .cons h hs => by
    rw [List.mapM_cons, h, mapM_of hs]; rfl

theorem each_list {X : Type} (l : List X) (f : Int → Option X) (h : ∀ (i : Nat) (hi : i < l.length), f (i : Nat) = some l[i]) :
    Api.each l.length f = some l := by
  unfold Api.each
  refine mapM_of ?_
  rw [List.forall₂_iff_get]
  refine ⟨by simp, fun i h1 h2 => ?_⟩
  have : i < l.length := by simpa using h1
  simpa using h i this

theorem mapM_id {X : Type} : ∀ {l : List (Option X)} {r : List X}, l.mapM id = some r → l = r.map some
  | [], r, h => by
    simp only [List.mapM_nil] at h
    cases h; rfl
  | x :: l, r, h => by
    rw [List.mapM_cons] at h
    cases x with
    | none => cases h
    | some x =>
      cases h2 : l.mapM id with
      | none => rw [h2] at h; cases h
      | some r' =>
        rw [h2] at h
        cases h
        rw [mapM_id h2]; rfl

theorem dims_sub (z m : Bool) : Spec.dims z m - 2 = z.toNat + m.toNat := by unfold Spec.dims; omega

theorem nests_le {g : Geom} : ∀ {gs : List Geom}, g ∈ gs → nest g < nests gs
  | [], h => by cases h
  | a :: gs, h => by
    rw [nests]
    rcases List.mem_cons.1 h with rfl | h
    · omega
    · have := nests_le h; omega

theorem views_forall : ∀ {gs : List Geom} {vs : List GV}, views gs = some vs → List.Forall₂ (fun g v => view g = some v) gs vs
  | [], vs, h => by cases h; exact .nil
  | g :: gs, vs, h => by
    rw [views] at h
    split at h
    · rename_i v vs' h1 h2
      cases h
      exact .cons h1 (views_forall h2)
    · cases h

theorem straights_mem {g : Geom} : ∀ {gs : List Geom}, Straights gs → g ∈ gs → Straight g
  | [], _, h => by cases h
  | a :: gs, hs, h => by
    rcases List.mem_cons.1 h with rfl | h
    · exact hs.1
    · exact straights_mem hs.2 h

theorem no_zm {a b : Bool} (h : ¬ (a || b) = true) : a = false ∧ b = false := by
  cases a <;> cases b <;> simp_all

theorem geoms_each (fl : Flags) (gs : List Geom) (c : List F64) (x : Option (List Byte)) :
    Api.each (api.numGeoms (some (.coll fl true gs c x))) (api.geomAt (some (.coll fl true gs c x))) = some (gs.map some) := by
  have := each_list (gs.map some) (api.geomAt (some (.coll fl true gs c x))) fun i hi => by
    have hi : i < gs.length := by simpa using hi
    simp only [api, geomAt]
    rw [if_pos (by omega)]
    simp [hi]
  rw [List.length_map] at this
  exact this

theorem read_view : ∀ (n : Nat) (g : Geom) (v : GV), nest g < n → Straight g → view g = some v → api.read n (some g) = some v := by
  intro n
  induction n with
  | zero => intro g v h; omega
  | succ n ih =>
    intro g v hn hs hv
    cases g with
    | point fl p =>
      rw [view] at hv
      split_ifs at hv with h0
      cases hv
      have hz := no_zm h0
      simp [Api.read, api, typeof, Geom.type, GType.num, hasZ, hasM, Geom.flags, hz, isEmpty, emptyGeom, show fl.isEmpty = false from hs, point]
    | line fl l =>
      rw [view] at hv
      split_ifs at hv with h0
      cases hv
      have hz := no_zm h0
      have : api.pts (api.line (some (.line fl l))) = l := pts_some l
      rw [Api.read]
      simp only [this]
      simp [api, typeof, Geom.type, GType.num, hasZ, hasM, Geom.flags, hz, extra]
    | poly fl pl =>
      rw [view] at hv
      split_ifs at hv with h0
      cases hv
      have hz := no_zm h0
      have : api.rings (api.poly (some (.poly fl pl))) = Spec.rings pl := rings_some pl
      rw [Api.read]
      simp only [this]
      simp [api, typeof, Geom.type, GType.num, hasZ, hasM, Geom.flags, hz, extra]
    | gpoint fl p z m x =>
      rw [view] at hv
      split_ifs at hv with h0 h1
      · cases hv
        have hz := no_zm h1
        simp [Api.read, api, typeof, Geom.type, GType.num, hasZ, hasM, Geom.flags, hz, isEmpty, emptyGeom, h0]
      all_goals
        cases hv
        simp_all [Api.read, api, typeof, Geom.type, GType.num, hasZ, hasM, Geom.flags, isEmpty, emptyGeom, point, Get.z, Get.m]
    | gline fl l c x =>
      rw [view.eq_def] at hv
      dsimp only at hv
      have e : api.read (n + 1) (some (.gline fl l c x)) = some (.line fl.hasZ fl.hasM (posns (fl.hasZ.toNat + fl.hasM.toNat) (api.pts l) c)) := rfl
      rw [e]
      split_ifs at hv with h0
      · cases hv
        rw [hs h0, pts_none]; rfl
      · cases l with
        | none => cases hv
        | some l =>
          cases hv
          rw [pts_some, dims_sub]
    | gpoly fl p c x =>
      rw [view.eq_def] at hv
      dsimp only at hv
      have e : api.read (n + 1) (some (.gpoly fl p c x)) = some (.poly fl.hasZ fl.hasM (posnss (fl.hasZ.toNat + fl.hasM.toNat) (api.rings p) c)) := rfl
      rw [e]
      split_ifs at hv with h0
      · cases hv
        rw [hs h0, rings_none]; rfl
      · cases p with
        | none => cases hv
        | some p =>
          cases hv
          rw [rings_some, dims_sub]
    | mpoint fl ps c x =>
      rw [view] at hv
      have e : api.read (n + 1) (some (.mpoint fl ps c x)) =
        (Api.each (api.numPoints (some (.mpoint fl ps c x))) (api.pointAt (some (.mpoint fl ps c x)))).map fun ps =>
          .mpoint fl.hasZ fl.hasM (posns (fl.hasZ.toNat + fl.hasM.toNat) ps c) := rfl
      have e2 : Api.each (api.numPoints (some (.mpoint fl ps c x))) (api.pointAt (some (.mpoint fl ps c x))) = some (ps.getD []) := by
        cases ps with
        | none => rfl
        | some ps =>
          refine each_list ps _ fun i hi => ?_
          simp only [api, pointAt]
          rw [if_pos (by omega)]
          simp [hi]
      rw [e, e2, ← hv, dims_sub]
      split_ifs with h0
      · rw [hs h0]; rfl
      · rfl
    | mline fl ls c x =>
      rw [view] at hv
      have e : api.read (n + 1) (some (.mline fl ls c x)) =
        (Api.each (api.numLines (some (.mline fl ls c x))) (api.lineAt (some (.mline fl ls c x)))).map fun ls =>
          .mline fl.hasZ fl.hasM (posnss (fl.hasZ.toNat + fl.hasM.toNat) (ls.map api.pts) c) := rfl
      have e2 : Api.each (api.numLines (some (.mline fl ls c x))) (api.lineAt (some (.mline fl ls c x))) = some (ls.getD []) := by
        cases ls with
        | none => rfl
        | some ls =>
          refine each_list ls _ fun i hi => ?_
          simp only [api, lineAt]
          rw [if_pos (by omega)]
          simp [hi]
      rw [e, e2]
      split_ifs at hv with h0
      · cases hv
        rw [hs h0]; rfl
      · split at hv
        · cases hv
        · rename_i r hr
          cases hv
          rw [mapM_id hr, dims_sub, Option.map_some, List.map_map, show api.pts ∘ some = id from funext pts_some, List.map_id]
    | mpoly fl ps c x =>
      rw [view] at hv
      have e : api.read (n + 1) (some (.mpoly fl ps c x)) =
        (Api.each (api.numPolys (some (.mpoly fl ps c x))) (api.polyAt (some (.mpoly fl ps c x)))).map fun ps =>
          .mpoly fl.hasZ fl.hasM (posnsss (fl.hasZ.toNat + fl.hasM.toNat) (ps.map api.rings) c) := rfl
      have e2 : Api.each (api.numPolys (some (.mpoly fl ps c x))) (api.polyAt (some (.mpoly fl ps c x))) = some (ps.getD []) := by
        cases ps with
        | none => rfl
        | some ls =>
          refine each_list ls _ fun i hi => ?_
          simp only [api, polyAt]
          rw [if_pos (by omega)]
          simp [hi]
      rw [e, e2]
      split_ifs at hv with h0
      · cases hv
        rw [hs h0]; rfl
      · split at hv
        · cases hv
        · rename_i r hr
          cases hv
          rw [mapM_id hr, dims_sub, Option.map_some, List.map_map, show api.rings ∘ some = Spec.rings from funext rings_some]
    | coll fl h gs c x =>
      rw [view] at hv
      have e : api.read (n + 1) (some (.coll fl h gs c x)) =
        (Api.each (api.numGeoms (some (.coll fl h gs c x))) (api.geomAt (some (.coll fl h gs c x)))).bind fun gs => (gs.mapM (api.read n)).map .coll := rfl
      rw [e]
      split_ifs at hv with h0 h1
      · cases hv
        cases h with
        | false => rfl
        | true =>
          have : fl.isEmpty = true := by simpa using h1
          rw [geoms_each, hs.1 rfl this]
          rfl
      · have : h = true := by cases h <;> simp_all
        subst this
        split at hv
        · cases hv
        · rename_i vs hvs
          cases hv
          rw [geoms_each]
          have hf := views_forall hvs
          have : (gs.map some).mapM (api.read n) = some vs := by
            refine mapM_of ?_
            rw [List.forall₂_map_left_iff]
            rw [List.forall₂_iff_get] at hf ⊢
            refine ⟨hf.1, fun i h1 h2 => ih _ _ ?_ (straights_mem hs.2 (List.get_mem ..)) (hf.2 i h1 h2)⟩
            have := nests_le (List.get_mem gs ⟨i, h1⟩)
            rw [nest] at hn; omega
          rw [Option.bind_some, this]; rfl
    | err msg => cases hv

/-! ### Empty -/

theorem posns_length (k : Nat) : ∀ (ps : List Pt) (cs : List F64), (posns k ps cs).length = ps.length
  | [], _ => rfl
  | _ :: ps, cs => by rw [posns, List.length_cons, posns_length k ps, List.length_cons]

theorem posnss_lengths (k : Nat) : ∀ (rs : List (List Pt)) (cs : List F64), (posnss k rs cs).map List.length = rs.map List.length
  | [], _ => rfl
  | r :: rs, cs => by rw [posnss, List.map_cons, posns_length, posnss_lengths k rs, List.map_cons]

/-- How many points the first ring of each has. -/
def headLen {X : Type} (rs : List (List X)) : Option Nat := rs.head?.map List.length

theorem posnss_head (k : Nat) (rs : List (List Pt)) (cs : List F64) : headLen (posnss k rs cs) = headLen rs := by
  cases rs with
  | nil => rfl
  | cons r rs => simp [headLen, posnss, posns_length]

theorem posnsss_heads (k : Nat) : ∀ (ps : List (List (List Pt))) (cs : List F64), (posnsss k ps cs).map headLen = ps.map headLen
  | [], _ => rfl
  | r :: rs, cs => by rw [posnsss, List.map_cons, posnss_head, posnsss_heads k rs, List.map_cons]

theorem head_short {rs : List (List (List F64))} : (∀ r ∈ rs.head?, shortRing r) ↔ ∀ n ∈ headLen rs, n < 3 := by
  cases rs with
  | nil => simp [headLen]
  | cons r rs => simp [headLen, shortRing]

theorem ring_short (l : List Pt) : ringEmpty true (some l) = true ↔ l.length < 3 := by
  simp only [ringEmpty, Bool.true_and, Bool.or_eq_true, decide_eq_true_eq]; omega

theorem line_short (l : List Pt) : ringEmpty false (some l) = true ↔ l.length < 2 := by
  simp only [ringEmpty, Bool.false_and, Bool.false_or, decide_eq_true_eq]

theorem all_map_iff {X Y : Type} {xs : List X} {ys : List Y} {f : X → Y} {p : X → Prop} {q : Y → Prop} (h : xs.map f = ys) (e : ∀ x, p x ↔ q (f x)) :
    (∀ x ∈ xs, p x) ↔ ∀ y ∈ ys, q y := by
  subst h
  simp [e]

mutual
theorem empty_view : ∀ (g : Geom) (v : GV), Straight g → view g = some v → (emptyGeom g = true ↔ Vacant v)
  | .point fl p, v, hs, hv => by
    rw [view] at hv
    split_ifs at hv
    cases hv
    simp [emptyGeom, Vacant, show fl.isEmpty = false from hs]
  | .line fl l, v, hs, hv => by
    rw [view] at hv
    split_ifs at hv
    cases hv
    rw [emptyGeom, show fl.isEmpty = false from hs, Bool.false_or, line_short, Vacant, posns_length]
  | .poly fl pl, v, hs, hv => by
    rw [view] at hv
    split_ifs at hv
    cases hv
    rw [emptyGeom, show fl.isEmpty = false from hs, Bool.false_or, polyEmpty, exterior, Option.map_some, ring_short, Vacant, head_short, posnss_head]
    simp [headLen, Spec.rings]
  | .gpoint fl p z m x, v, hs, hv => by
    rw [view] at hv
    split_ifs at hv <;> cases hv <;> simp_all [emptyGeom, Vacant]
  | .gline fl l c x, v, hs, hv => by
    rw [view.eq_def] at hv
    dsimp only at hv
    split_ifs at hv with h0
    · cases hv; simp [emptyGeom, Vacant, h0]
    · cases l with
      | none => cases hv
      | some l =>
        cases hv
        rw [emptyGeom, Bool.or_eq_true, line_short, Vacant, posns_length]
        simp [h0]
  | .gpoly fl p c x, v, hs, hv => by
    rw [view.eq_def] at hv
    dsimp only at hv
    split_ifs at hv with h0
    · cases hv; simp [emptyGeom, Vacant, h0]
    · cases p with
      | none => cases hv
      | some p =>
        cases hv
        rw [emptyGeom, Bool.or_eq_true, polyEmpty, exterior, Option.map_some, ring_short, Vacant, head_short, posnss_head]
        simp [headLen, Spec.rings, h0]
  | .mpoint fl ps c x, v, hs, hv => by
    rw [view] at hv
    cases hv
    rw [emptyGeom, Bool.or_eq_true, Vacant]
    split_ifs with h0
    · simp [h0]
    · simp only [h0]
      rw [← List.length_eq_zero_iff, posns_length]
      cases ps.getD [] <;> simp
  | .mline fl ls c x, v, hs, hv => by
    rw [view] at hv
    rw [emptyGeom, Bool.or_eq_true]
    split_ifs at hv with h0
    · cases hv; simp [Vacant, h0]
    · split at hv
      · cases hv
      · rename_i r hr
        cases hv
        rw [mapM_id hr, Vacant]
        simp only [h0]
        rw [all_map_iff (p := fun l : List (List F64) => l.length < 2) (q := fun n => n < 2) (f := List.length) (posnss_lengths _ r c) (fun _ => Iff.rfl)]
        simp [line_short]
  | .mpoly fl ps c x, v, hs, hv => by
    rw [view] at hv
    rw [emptyGeom, Bool.or_eq_true]
    split_ifs at hv with h0
    · cases hv; simp [Vacant, h0]
    · split at hv
      · cases hv
      · rename_i r hr
        cases hv
        rw [mapM_id hr, Vacant]
        simp only [h0]
        rw [all_map_iff (p := fun rs : List (List (List F64)) => ∀ r ∈ rs.head?, shortRing r) (q := fun n => ∀ k ∈ n, k < 3) (f := headLen)
          (posnsss_heads _ (r.map Spec.rings) c) (fun _ => head_short)]
        simp [polyEmpty, exterior, ring_short, headLen, Spec.rings]
  | .coll fl h gs c x, v, hs, hv => by
    rw [view] at hv
    rw [emptyGeom, Bool.or_eq_true]
    split_ifs at hv with h0 h1
    · cases hv
      cases h with
      | false => simp [Vacant, Vacants]
      | true =>
        have : fl.isEmpty = true := by simpa using h1
        simp [Vacant, Vacants, this]
    · have h2 : h = true ∧ fl.isEmpty = false := by cases h <;> simp_all
      split at hv
      · cases hv
      · rename_i vs hvs
        cases hv
        rw [Vacant, ← emptys_view gs vs hs.2 hvs]
        simp [h2]
  | .err _, v, hs, hv => by cases hv
theorem emptys_view : ∀ (gs : List Geom) (vs : List GV), Straights gs → views gs = some vs → (emptyGeoms gs = true ↔ Vacants vs)
  | [], vs, hs, hv => by cases hv; simp [emptyGeoms, Vacants]
  | g :: gs, vs, hs, hv => by
    rw [views] at hv
    split at hv
    · rename_i v vs' h1 h2
      cases hv
      rw [emptyGeoms, Bool.and_eq_true, empty_view g v hs.1 h1, emptys_view gs vs' hs.2 h2, Vacants]
    · cases hv
end

/-! ### Dimensions -/

/-- `d` is the largest of the numbers, or -1 if there are none. -/
def Top (d : Int) (l : List GV) : Prop := (∀ v ∈ l, dimOf v ≤ d) ∧ (d = -1 ∨ ∃ v ∈ l, dimOf v = d)

mutual
theorem de9im_view : ∀ (g : Geom) (v : GV), Straight g → view g = some v → Top (de9im g) (flat v)
  | .point fl p, v, hs, hv => by
    rw [view] at hv
    split_ifs at hv
    cases hv
    simp [de9im, Top, flat, dimOf]
  | .line fl l, v, hs, hv => by
    rw [view] at hv
    split_ifs at hv
    cases hv
    simp [de9im, Top, flat, dimOf]
  | .poly fl pl, v, hs, hv => by
    rw [view] at hv
    split_ifs at hv
    cases hv
    simp [de9im, Top, flat, dimOf]
  | .gpoint fl p z m x, v, hs, hv => by
    rw [view] at hv
    split_ifs at hv <;> cases hv <;> simp [de9im, Top, flat, dimOf]
  | .gline fl l c x, v, hs, hv => by
    rw [view.eq_def] at hv
    dsimp only at hv
    split_ifs at hv with h0
    · cases hv; simp [de9im, Top, flat, dimOf]
    · cases l with
      | none => cases hv
      | some l => cases hv; simp [de9im, Top, flat, dimOf]
  | .gpoly fl p c x, v, hs, hv => by
    rw [view.eq_def] at hv
    dsimp only at hv
    split_ifs at hv with h0
    · cases hv; simp [de9im, Top, flat, dimOf]
    · cases p with
      | none => cases hv
      | some p => cases hv; simp [de9im, Top, flat, dimOf]
  | .mpoint fl ps c x, v, hs, hv => by
    rw [view] at hv
    cases hv; simp [de9im, Top, flat, dimOf]
  | .mline fl ls c x, v, hs, hv => by
    rw [view] at hv
    split_ifs at hv with h0
    · cases hv; simp [de9im, Top, flat, dimOf]
    · split at hv
      · cases hv
      · cases hv; simp [de9im, Top, flat, dimOf]
  | .mpoly fl ps c x, v, hs, hv => by
    rw [view] at hv
    split_ifs at hv with h0
    · cases hv; simp [de9im, Top, flat, dimOf]
    · split at hv
      · cases hv
      · cases hv; simp [de9im, Top, flat, dimOf]
  | .coll fl h gs c x, v, hs, hv => by
    rw [view] at hv
    rw [de9im]
    split_ifs at hv with h0 h1
    · cases hv
      cases h with
      | false => simp [Top, flat, flats]
      | true =>
        have : fl.isEmpty = true := by simpa using h1
        rw [hs.1 rfl this]
        simp [Top, flat, flats, de9ims]
    · have h2 : h = true ∧ fl.isEmpty = false := by cases h <;> simp_all
      split at hv
      · cases hv
      · rename_i vs hvs
        cases hv
        rw [if_pos h2.1, flat]
        simpa using de9ims_view gs vs [] (-1) hs.2 hvs ⟨by simp, Or.inl rfl⟩
  | .err _, v, hs, hv => by cases hv
theorem de9ims_view : ∀ (gs : List Geom) (vs l : List GV) (d : Int), Straights gs → views gs = some vs → Top d l → Top (de9ims gs d) (l ++ flats vs)
  | [], vs, l, d, hs, hv, ht => by cases hv; simpa [de9ims, flats] using ht
  | g :: gs, vs, l, d, hs, hv, ht => by
    rw [views] at hv
    split at hv
    · rename_i v vs' h1 h2
      cases hv
      have hg := de9im_view g v hs.1 h1
      rw [de9ims, flats, ← List.append_assoc]
      refine de9ims_view gs vs' _ _ hs.2 h2 ⟨fun w hw => ?_, ?_⟩
      · rcases List.mem_append.1 hw with hw | hw
        · have := ht.1 w hw
          split_ifs <;> omega
        · have := hg.1 w hw
          split_ifs <;> omega
      · split_ifs with hc
        · rcases hg.2 with h | ⟨w, hw, e⟩
          · exact Or.inl h
          · exact Or.inr ⟨w, List.mem_append_right _ hw, e⟩
        · rcases ht.2 with h | ⟨w, hw, e⟩
          · exact Or.inl h
          · exact Or.inr ⟨w, List.mem_append_left _ hw, e⟩
    · cases hv
end

end Get
end Tg
