import Verif.Model.Heap
import Verif.Model.Series
/-! Accessors by index: tg.c:2346-2391, 3335-3376, 3828-3863, 5338-5471. -/
namespace Tg.Heap

/-- `geom->multi->ngeoms` of a geometry of type `ty`, or 0: `tg_geom_num_points`, `tg_geom_num_lines`,
`tg_geom_num_polys`, `tg_geom_num_geometries`, tg.c:5339-5399. -/
def geomNum (ty : GType) : Ptr → M Int
  | none => pure 0
  | some a => do
    match ← load a with
    | .geom _ ty' _ (some m) _ _ _ _ _ =>
      if ty' = ty then do
        match ← load m with
        | .multi _ n _ _ => pure (n : Int)
        | _ => fault
      else pure 0
    | .geom .. | .bpoint .. | .series .. | .poly .. => pure 0
    | _ => fault

/-- `geom->multi->geoms[index]`; NULL has no elements. -/
def arrayAt (g : Ptr) (i : Nat) : M Ptr :=
  match g with
  | none => fault
  | some g => do
    match ← load g with
    | .geoms l =>
      match l[i]? with
      | none => fault
      | some p => pure p
    | _ => fault

/-- `tg_geom_line_at`, `tg_geom_poly_at` and `tg_geom_geometry_at`, tg.c:5425-5471, and the pointer that
`tg_geom_point_at` follows, tg.c:5408-5416. -/
def geomAt (ty : GType) (p : Ptr) (index : Int) : M Ptr :=
  match p with
  | none => pure none
  | some a => do
    match ← load a with
    | .geom _ ty' _ (some m) _ _ _ _ _ =>
      if ty' = ty then do
        match ← load m with
        | .multi g n _ _ =>
          if 0 ≤ index ∧ index ≤ (n : Int) then arrayAt g index.toNat else pure none
        | _ => fault
      else pure none
    | .geom .. | .bpoint .. | .series .. | .poly .. => pure none
    | _ => fault

/-- `(struct tg_point) { 0 }` -/
def ptZero : Pt := ⟨0#64, 0#64⟩

/-- `((struct boxed_point*)p)->point` -/
def boxedPoint : Ptr → M Pt
  | none => fault
  | some b => do
    match ← load b with
    | .bpoint _ p => pure p
    | _ => fault

/-- `tg_geom_point_at`, tg.c:5407-5415. The test and the read are those of `geomAt`. -/
def geomPointAt (p : Ptr) (index : Int) : M Pt :=
  match p with
  | none => pure ptZero
  | some a => do
    match ← load a with
    | .geom _ .multipoint _ (some m) _ _ _ _ _ => do
      match ← load m with
      | .multi g n _ _ =>
        if 0 ≤ index ∧ index ≤ (n : Int) then do
          let q ← arrayAt g index.toNat
          boxedPoint q
        else pure ptZero
      | _ => fault
    | .geom .. | .bpoint .. | .series .. | .poly .. => pure ptZero
    | _ => fault

/-- `tg_poly_exterior`, tg.c:3833-3839. -/
def polyExterior : Ptr → M Ptr
  | none => pure none
  | some a => do
    match ← load a with
    | .series _ true _ _ _ => pure (some a)
    | .poly _ e _ _ => pure e
    | _ => fault

/-- `tg_poly_num_holes`, tg.c:3846-3849. -/
def polyNumHoles : Ptr → M Int
  | none => pure 0
  | some a => do
    match ← load a with
    | .series _ true _ _ _ => pure 0
    | .poly _ _ n _ => pure (n : Int)
    | _ => fault

/-- `poly->holes[index]` -/
def holeAt (hs : Ptr) (i : Nat) : M Ptr :=
  match hs with
  | none => fault
  | some g => do
    match ← load g with
    | .rings l =>
      match l[i]? with
      | none => fault
      | some p => pure p
    | _ => fault

/-- `tg_poly_hole_at`, tg.c:3857-3861. -/
def polyHoleAt (p : Ptr) (index : Int) : M Ptr :=
  match p with
  | none => pure none
  | some a => do
    match ← load a with
    | .series _ true _ _ _ => pure none
    | .poly _ _ n hs => if index < 0 ∨ index ≥ (n : Int) then pure none else holeAt hs index.toNat
    | _ => fault

end Tg.Heap

namespace Tg.S
variable {α β : Type*}

/-- `tg_ring_point_at` tg.c:2352-2357, and `tg_line_point_at` tg.c:3351-3353. -/
def ringPointAt [Zero α] (ring : Option (Ring α β)) (index : Int) : Option (Pt α) :=
  match ring with
  | none => some ⟨0, 0⟩
  | some r => if index < 0 ∨ index ≥ (r.npoints : Int) then some ⟨0, 0⟩ else r.points[index.toNat]?

/-- `tg_ring_segment_at` tg.c:2386-2391, and `tg_line_segment_at` tg.c:3372-3374. -/
def ringSegmentAt [Zero α] (ring : Option (Ring α β)) (index : Int) : Option (Seg α) :=
  match ring with
  | none => some ⟨⟨0, 0⟩, ⟨0, 0⟩⟩
  | some r =>
    if index < 0 ∨ index ≥ (r.nsegs : Int) then some ⟨⟨0, 0⟩, ⟨0, 0⟩⟩ else segAt r.points index.toNat

end Tg.S
