import Verif.Model.Geom
/-!
The functions that tell a user what a geometry holds (tg.c "GeometryAccessors"), on the values of `Model/Geom`.

`Option Geom` is a `const struct tg_geom *`, `none` is NULL; likewise a line, a ring and a polygon. Reading the slot behind the last one of an array is
`none` of an outer `Option`, as in `Model/Access`, where the same functions `tg_geom_..._at` run on the heap.
Simplified: counts are unbounded (they are `int`s and the arrays have that many slots); the pointer and the count of the extra coordinates are one
list; `tg_geom_point` is modelled on points only, elsewhere it is the middle of the box and needs arithmetic of doubles (here: zero).
-/
namespace Tg.Get

/-- `tg_geom_typeof`, tg.c:5155-5158. -/
def typeof (g : Option Geom) : Nat := match g with
  | none => 0
  | some g => g.type.num

/-- `tg_geom_is_feature`, tg.c:5164-5166. -/
def isFeature (g : Option Geom) : Bool := match g with
  | none => false
  | some g => g.flags.isFeature

/-- `tg_geom_is_featurecollection`, tg.c:5172-5174. -/
def isFeatureCollection (g : Option Geom) : Bool := match g with
  | none => false
  | some g => g.flags.isFeatureCol

/-- `tg_geom_has_z`, tg.c:6595-6597. -/
def hasZ (g : Option Geom) : Bool := match g with
  | none => false
  | some g => g.flags.hasZ

/-- `tg_geom_has_m`, tg.c:6602-6604. -/
def hasM (g : Option Geom) : Bool := match g with
  | none => false
  | some g => g.flags.hasM

/-- `tg_geom_dims`, tg.c:6584-6590. -/
def dims (g : Option Geom) : Nat := match g with
  | none => 0
  | some g =>
    let d := 2
    let d := if g.flags.hasZ then d + 1 else d
    if g.flags.hasM then d + 1 else d

/-- `tg_geom_z`, tg.c:6610-6615. -/
def z (g : Option Geom) : F64 := match g with
  | some (.gpoint _ _ z _ _) => z
  | _ => 0#64

/-- `tg_geom_m`, tg.c:6621-6626. -/
def m (g : Option Geom) : F64 := match g with
  | some (.gpoint _ _ _ m _) => m
  | _ => 0#64

/-- `tg_geom_point` on a TG_POINT, tg.c:5226-5233. -/
def point (g : Option Geom) : Pt := match g with
  | some (.point _ p) => p
  | some (.gpoint _ p _ _ _) => p
  | _ => ⟨0#64, 0#64⟩

/-- `tg_geom_line`, tg.c:5308-5315. -/
def line (g : Option Geom) : Option (List Pt) := match g with
  | some (.line _ l) => some l
  | some (.gline _ l _ _) => l
  | _ => none

/-- `tg_geom_poly`, tg.c:5323-5331. -/
def poly (g : Option Geom) : Option Poly := match g with
  | some (.poly _ p) => some p
  | some (.gpoly _ p _ _) => p
  | _ => none

/-- `tg_geom_extra_coords` and `tg_geom_num_extra_coords`, tg.c:6560-6576. -/
def extra (g : Option Geom) : List F64 := match g with
  | some (.gline _ _ c _) | some (.gpoly _ _ c _) | some (.mpoint _ _ c _) | some (.mline _ _ c _) | some (.mpoly _ _ c _)
  | some (.coll _ _ _ c _) => c
  | _ => []

/-- `tg_line_num_points`, `tg_ring_num_points`, tg.c:2330-2333, 3338-3341. -/
def numPts (l : Option (List Pt)) : Nat := match l with
  | none => 0
  | some l => l.length

/-- `tg_line_point_at`, `tg_ring_point_at`, tg.c:2352-2357, 3351-3354. -/
def ptAt (l : Option (List Pt)) (i : Int) : Pt := match l with
  | none => ⟨0#64, 0#64⟩
  | some l => if i < 0 ∨ i ≥ l.length then ⟨0#64, 0#64⟩ else l.getD i.toNat ⟨0#64, 0#64⟩

/-- `tg_poly_exterior`, tg.c:3833-3839. -/
def exterior (p : Option Poly) : Option (List Pt) := p.map (·.ext)

/-- `tg_poly_num_holes`, tg.c:3846-3849. -/
def numHoles (p : Option Poly) : Nat := match p with
  | none => 0
  | some p => p.holes.length

/-- `tg_poly_hole_at`, tg.c:3857-3861. -/
def holeAt (p : Option Poly) (i : Int) : Option (List Pt) := match p with
  | none => none
  | some p => if i < 0 ∨ i ≥ p.holes.length then none else p.holes[i.toNat]?

/-- `tg_geom_num_points`, tg.c:5339-5347. -/
def numPoints (g : Option Geom) : Nat := match g with
  | some (.mpoint _ (some ps) _ _) => ps.length
  | _ => 0

/-- `tg_geom_num_lines`, tg.c:5355-5363. -/
def numLines (g : Option Geom) : Nat := match g with
  | some (.mline _ (some ls) _ _) => ls.length
  | _ => 0

/-- `tg_geom_num_polys`, tg.c:5371-5379. -/
def numPolys (g : Option Geom) : Nat := match g with
  | some (.mpoly _ (some ps) _ _) => ps.length
  | _ => 0

/-- `tg_geom_num_geometries`, tg.c:5390-5398. -/
def numGeoms (g : Option Geom) : Nat := match g with
  | some (.coll _ true gs _ _) => gs.length
  | _ => 0

/-- `tg_geom_point_at`, tg.c:5407-5415: the test is `index <= ngeoms`. -/
def pointAt (g : Option Geom) (i : Int) : Option Pt := match g with
  | some (.mpoint _ (some ps) _ _) => if i ≥ 0 ∧ i ≤ ps.length then ps[i.toNat]? else some ⟨0#64, 0#64⟩
  | _ => some ⟨0#64, 0#64⟩

/-- `tg_geom_line_at`, tg.c:5424-5432. -/
def lineAt (g : Option Geom) (i : Int) : Option (Option (List Pt)) := match g with
  | some (.mline _ (some ls) _ _) => if i ≥ 0 ∧ i ≤ ls.length then ls[i.toNat]? else some none
  | _ => some none

/-- `tg_geom_poly_at`, tg.c:5441-5449. -/
def polyAt (g : Option Geom) (i : Int) : Option (Option Poly) := match g with
  | some (.mpoly _ (some ps) _ _) => if i ≥ 0 ∧ i ≤ ps.length then ps[i.toNat]? else some none
  | _ => some none

/-- `tg_geom_geometry_at`, tg.c:5461-5471. -/
def geomAt (g : Option Geom) (i : Int) : Option (Option Geom) := match g with
  | some (.coll _ true gs _ _) => if i ≥ 0 ∧ i ≤ gs.length then gs[i.toNat]?.map some else some none
  | _ => some none

/-- `tg_ring_empty`, tg.c:3090-3093, of a ring or a line; also `tg_line_empty`, tg.c:3379-3382. -/
def ringEmpty (closed : Bool) (l : Option (List Pt)) : Bool := match l with
  | none => true
  | some l => (closed && decide (l.length < 3)) || decide (l.length < 2)

/-- `tg_poly_empty`, tg.c:3874-3876. -/
def polyEmpty (p : Option Poly) : Bool := ringEmpty true (exterior p)

mutual
/-- `tg_geom_is_empty` with `base_geom_deep_empty`, tg.c:5910-5954, of an object that is not NULL. -/
def emptyGeom : Geom → Bool
  | .point fl _ => fl.isEmpty
  | .line fl l => fl.isEmpty || ringEmpty false (some l)
  | .poly fl p => fl.isEmpty || polyEmpty (some p)
  | .gpoint fl _ _ _ _ => fl.isEmpty
  | .gline fl l _ _ => fl.isEmpty || ringEmpty false l
  | .gpoly fl p _ _ => fl.isEmpty || polyEmpty p
  | .mpoint fl ps _ _ => fl.isEmpty || (ps.getD []).all fun _ => false
  | .mline fl ls _ _ => fl.isEmpty || (ls.getD []).all (ringEmpty false)
  | .mpoly fl ps _ _ => fl.isEmpty || (ps.getD []).all polyEmpty
  | .coll fl h gs _ _ => fl.isEmpty || if h then emptyGeoms gs else true
  | .err _ => false
/-- The loop over the children, tg.c:5923-5927. -/
def emptyGeoms : List Geom → Bool
  | [] => true
  | g :: gs => emptyGeom g && emptyGeoms gs
end

/-- `tg_geom_is_empty`, tg.c:5937-5954. -/
def isEmpty (g : Option Geom) : Bool := match g with
  | none => true
  | some g => emptyGeom g

/-- The slots of `geom->multi->geoms` as `geom_foreach` sees them: pointers to points, lines and polygons are pointers to geometries.
`none` for an object that has no such array. -/
def slots : Geom → Option (List (Option Geom))
  | .mpoint _ ps _ _ => some ((ps.getD []).map fun p => some (.point {} p))
  | .mline _ ls _ _ => some ((ls.getD []).map fun l => l.map (.line {}))
  | .mpoly _ ps _ _ => some ((ps.getD []).map fun p => p.map (.poly {}))
  | .coll _ h gs _ _ => some (if h then gs.map some else [])
  | _ => none

/-- The loop of `geom_foreach`, tg.c:5487-5489: `iter` returns whether to go on, and changes `udata`. -/
def loop {σ : Type} (iter : Option Geom → σ → Bool × σ) : List (Option Geom) → σ → Bool × σ
  | [], s => (true, s)
  | c :: cs, s => match iter c s with
    | (false, s) => (false, s)
    | (true, s) => loop iter cs s

/-- `geom_foreach`, tg.c:5473-5497, and `tg_geom_foreach`, tg.c:5504-5509. -/
def foreach {σ : Type} (iter : Option Geom → σ → Bool × σ) (g : Option Geom) (s : σ) : Bool × σ := match g with
  | none => (true, s)
  | some g => match slots g with
    | some cs => loop iter cs s
    | none => iter (some g) s

mutual
/-- `tg_geom_de9im_dims`, tg.c:15019-15048, of an object that is not NULL. -/
def de9im : Geom → Int
  | .point .. | .gpoint .. | .mpoint .. | .err _ => 0
  | .line .. | .gline .. | .mline .. => 1
  | .poly .. | .gpoly .. | .mpoly .. => 2
  | .coll _ h gs _ _ => if h then de9ims gs (-1) else -1
/-- The loop over the children, tg.c:15037-15043; `tg_geom_geometry_at` is asked for indices below the count only. -/
def de9ims : List Geom → Int → Int
  | [], d => d
  | g :: gs, d => let c := de9im g; de9ims gs (if c > d then c else d)
end

/-- `tg_geom_de9im_dims`, tg.c:15019-15048. -/
def de9imDims (g : Option Geom) : Int := match g with
  | none => -1
  | some g => de9im g

/-- `tg_geom_type_string`, tg.c:6699-6710. -/
def typeString (t : Nat) : String := match t with
  | 1 => "Point"
  | 2 => "LineString"
  | 3 => "Polygon"
  | 4 => "MultiPoint"
  | 5 => "MultiLineString"
  | 6 => "MultiPolygon"
  | 7 => "GeometryCollection"
  | _ => "Unknown"

end Tg.Get
