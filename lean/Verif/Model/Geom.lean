import Verif.Model.Bytes
/-!
The value of a `struct tg_geom *` as far as the codecs can see it.

Modelled: `struct head` (type, flags), `struct boxed_point`, `struct tg_ring`
used as line or ring, `struct tg_poly`, `struct tg_geom` with its unions and
`struct multi` (tg.c:525-542, 585-750).
Not modelled here: reference counts and sharing (see `Model/Heap`), the index and
the derived fields of a ring (see `Model/Series`); allocation is assumed to succeed.
-/
namespace Tg

/-- `struct tg_point`, tg.h. -/
structure Pt where
  x : F64
  y : F64
deriving DecidableEq, Repr

/-- `enum flags`, tg.c:533-542 (IS_ERROR is the constructor `Geom.err`). -/
structure Flags where
  hasZ : Bool := false        -- HAS_Z
  hasM : Bool := false        -- HAS_M
  isEmpty : Bool := false     -- IS_EMPTY
  isFeature : Bool := false   -- IS_FEATURE
  isFeatureCol : Bool := false -- IS_FEATURE_COL
  nullProps : Bool := false   -- HAS_NULL_PROPS
  unlocated : Bool := false   -- IS_UNLOCATED
deriving DecidableEq, Repr

/-- `struct tg_poly` (tg.c:672-677) or a `struct tg_ring` upcast to it: `tg_poly_new`
returns the ring itself when there are no holes (tg.c:3760-3764), so BASE_RING is
`holes = []` and BASE_POLY is `holes ≠ []`. A ring is its list of points. -/
structure Poly where
  ext : List Pt
  holes : List (List Pt)
deriving DecidableEq, Repr

/-- `enum tg_geom_type`, tg.h: numeric values used on the wire. -/
inductive GType where
  | point | linestring | polygon | multipoint | multilinestring | multipolygon | collection
deriving DecidableEq, Repr

/-- TG_POINT = 1 ... TG_GEOMETRYCOLLECTION = 7, tg.h. -/
def GType.num : GType → Nat
  | .point => 1 | .linestring => 2 | .polygon => 3 | .multipoint => 4
  | .multilinestring => 5 | .multipolygon => 6 | .collection => 7

/-- A geometry value. The first three are the "base" objects that are upcast to
`tg_geom`; the `g*`/`m*`/`coll` ones are `struct tg_geom` with `head.base == BASE_GEOM`.
* `coords` is `geom->coords[0..ncoords)`,
* `xjson` is the C string `geom->xjson` without its terminator,
* `none` for a line, polygon or `multi` is the NULL pointer of an empty geometry,
* the children of a MultiPoint are boxed points (tg.c:4668-4674), those of a
  MultiLineString / MultiPolygon are lines / polygons or NULL (tg.c:4699-4701, 4726-4728). -/
inductive Geom where
  | point (fl : Flags) (p : Pt)                                                 -- BASE_POINT
  | line (fl : Flags) (pts : List Pt)                                           -- BASE_LINE
  | poly (fl : Flags) (pl : Poly)                                               -- BASE_RING / BASE_POLY
  | gpoint (fl : Flags) (p : Pt) (z m : F64) (xjson : Option (List Byte))
  | gline (fl : Flags) (l : Option (List Pt)) (coords : List F64) (xjson : Option (List Byte))
  | gpoly (fl : Flags) (pl : Option Poly) (coords : List F64) (xjson : Option (List Byte))
  | mpoint (fl : Flags) (ps : Option (List Pt)) (coords : List F64) (xjson : Option (List Byte))
  | mline (fl : Flags) (ls : Option (List (Option (List Pt)))) (coords : List F64)
      (xjson : Option (List Byte))
  | mpoly (fl : Flags) (ps : Option (List (Option Poly))) (coords : List F64)
      (xjson : Option (List Byte))
  | coll (fl : Flags) (hasMulti : Bool) (gs : List Geom) (coords : List F64)
      (xjson : Option (List Byte))
  | err (msg : String)                                                          -- IS_ERROR
deriving Repr

/-- `geom->head.flags`. -/
def Geom.flags : Geom → Flags
  | .point fl _ | .line fl _ | .poly fl _ | .gpoint fl _ _ _ _ | .gline fl _ _ _
  | .gpoly fl _ _ _ | .mpoint fl _ _ _ | .mline fl _ _ _ | .mpoly fl _ _ _
  | .coll fl _ _ _ _ => fl
  | .err _ => {}

/-- `geom->head.type` (`make_parse_error` makes a TG_POINT, tg.c:7769-7792). -/
def Geom.type : Geom → GType
  | .point .. | .gpoint .. | .err _ => .point
  | .line .. | .gline .. => .linestring
  | .poly .. | .gpoly .. => .polygon
  | .mpoint .. => .multipoint
  | .mline .. => .multilinestring
  | .mpoly .. => .multipolygon
  | .coll .. => .collection

/-- `tg_geom_error(geom) != NULL`, tg.c:7836-7839. -/
def Geom.isErr : Geom → Bool
  | .err _ => true
  | _ => false

/-- `tg_geom_dims`, tg.c:6584-6590 -/
def Flags.dims (fl : Flags) : Nat :=
  2 + (if fl.hasZ then 1 else 0) + (if fl.hasM then 1 else 0)

/-- `tg_geom_point` on a TG_POINT, tg.c:5226-5239 (only used on points by the codecs). -/
def Geom.pt : Geom → Pt
  | .point _ p => p
  | .gpoint _ p _ _ _ => p
  | _ => ⟨0#64, 0#64⟩

/-- `tg_geom_z`, tg.c:6610-6615 -/
def Geom.z : Geom → F64
  | .gpoint _ _ z _ _ => z
  | _ => 0#64

/-- `tg_geom_m`, tg.c:6621-6626 -/
def Geom.m : Geom → F64
  | .gpoint _ _ _ m _ => m
  | _ => 0#64

/-- `tg_geom_line`, tg.c:5308-5315 -/
def Geom.lineOf : Geom → Option (List Pt)
  | .line _ l => some l
  | .gline _ l _ _ => l
  | _ => none

/-- `tg_geom_poly`, tg.c:5323-5331 -/
def Geom.polyOf : Geom → Option Poly
  | .poly _ p => some p
  | .gpoly _ p _ _ => p
  | _ => none

/-- `tg_geom_extra_coords` / `tg_geom_num_extra_coords`, tg.c:6560-6576 -/
def Geom.extraCoords : Geom → List F64
  | .gline _ _ c _ | .gpoly _ _ c _ | .mpoint _ _ c _ | .mline _ _ c _ | .mpoly _ _ c _
  | .coll _ _ _ c _ => c
  | _ => []

end Tg
