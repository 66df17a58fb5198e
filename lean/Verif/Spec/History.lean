import Verif.Spec.Heap
import Mathlib.Data.Multiset.AddSub
/-! Histories of calls that create, clone, copy and free objects, made by a caller that keeps the
rules of the documentation: an argument is NULL or an object of the right type that can be reached
from a reference the caller owns, and only owned references are freed. -/
namespace Tg.Heap

/-- A call. The names of tg.h are in the comments. -/
inductive Op where
  /-- `tg_ring_new_ix` (`closed`), `tg_line_new_ix` -/
  | series (pts : List Pt) (closed indexed stripes : Bool)
  /-- `tg_geom_new_point` -/
  | point (p : Pt)
  /-- `tg_geom_new_point_z`, `_m`, `_zm` -/
  | pointZm (fl : Flags) (p : Pt) (z m : F64)
  /-- `tg_geom_new_*_empty` -/
  | empty (ty : GType)
  /-- `tg_poly_new` -/
  | poly (exterior : Ptr) (holes : List Ptr) (nholes : Int)
  /-- `tg_geom_new_linestring_z`, ..., `tg_geom_new_polygon_zm` -/
  | single (ty : GType) (child : Ptr) (coords : List Byte) (fl : Flags)
  /-- `tg_geom_new_multipoint` -/
  | multipoint (pts : List Pt)
  /-- `tg_geom_new_multilinestring`, `_multipolygon`, `_geometrycollection` -/
  | multi (ty : GType) (children : List Ptr)
  /-- `tg_geom_new_multipoint_z`, `_m`, `_zm` -/
  | multipointZm (pts : List Pt) (coords : List Byte) (fl : Flags)
  /-- `tg_geom_new_multilinestring_z`, ..., `tg_geom_new_geometrycollection_zm` -/
  | multiZm (ty : GType) (children : List Ptr) (coords : List Byte) (fl : Flags)
  /-- `tg_*_clone`, `tg_geom_new_linestring`, `tg_geom_new_polygon` -/
  | clone (p : Ptr)
  /-- `tg_geom_copy` -/
  | copy (p : Ptr)
  /-- `tg_ring_copy`, `tg_line_copy` -/
  | copyRing (p : Ptr)
  /-- `tg_poly_copy` -/
  | copyPoly (p : Ptr)
  /-- `tg_geom_free` -/
  | free (p : Ptr)
  /-- `tg_ring_free`, `tg_line_free` -/
  | freeRing (p : Ptr)
  /-- `tg_poly_free` -/
  | freePoly (p : Ptr)

/-- The code of a call; the frees give NULL. -/
def Op.run : Op → M Ptr
  | .series pts cl ix st => seriesNew pts cl ix st
  | .point p => pointNew p
  | .pointZm fl p z m => pointNewZm fl p z m
  | .empty ty => geomNew ty { isEmpty := true }
  | .poly e hs n => polyNew e hs n
  | .single ty c co fl => singleNew ty c co fl
  | .multipoint pts => multipointNew pts
  | .multi ty cs => multiNew ty cs
  | .multipointZm pts co fl => withExtra (multipointNew pts) co fl
  | .multiZm ty cs co fl => withExtra (multiNew ty cs) co fl
  | .clone p => Tg.Heap.clone p
  | .copy p => tgGeomCopy p
  | .copyRing p => ringCopy p
  | .copyPoly p => polyCopy p
  | .free p => do tgGeomFree p; pure none
  | .freeRing p => do ringFree p; pure none
  | .freePoly p => do polyFree p; pure none

/-- The reference that a call gives back. -/
def Op.freed : Op → Ptr
  | .free p | .freeRing p | .freePoly p => p
  | _ => none

/-- A call that makes no copy. -/
def Op.noCopy : Op → Prop
  | .copy _ | .copyRing _ | .copyPoly _ => False
  | _ => True

def Cell.isRing : Cell → Prop
  | .series _ cl _ _ _ => cl = true
  | _ => False

def Cell.isLine : Cell → Prop
  | .series _ cl _ _ _ => cl = false
  | _ => False

/-- `struct tg_poly *`: a polygon or a ring in place of one -/
def Cell.isPolygon : Cell → Prop
  | .series _ cl _ _ _ => cl = true
  | .poly .. => True
  | _ => False

/-- `struct tg_geom *`: anything that starts with a `struct head` -/
def Cell.isGeometry (c : Cell) : Prop := c.rc ≠ none

/-- An argument: NULL, or an object of the right type reached from a reference of the caller. -/
def Arg (h : Heap) (own : Multiset Nat) (K : Cell → Prop) (p : Ptr) : Prop :=
  ∀ a ∈ p, (∃ b ∈ own, Reach h (some b) a) ∧ ∃ c, h.cells a = some c ∧ K c

/-- A reference to free: NULL, or an object of the right type that the caller owns. -/
def Mine (h : Heap) (own : Multiset Nat) (K : Cell → Prop) (p : Ptr) : Prop :=
  ∀ a ∈ p, a ∈ own ∧ ∃ c, h.cells a = some c ∧ K c

/-- The rules of the caller. -/
def Allowed (h : Heap) (own : Multiset Nat) : Op → Prop
  | .series .. | .point _ | .pointZm .. | .empty _ | .multipoint _ | .multipointZm .. => True
  | .poly e hs n => Arg h own Cell.isRing e ∧ (∀ p ∈ hs, Arg h own Cell.isRing p) ∧
      hs.length = n.toNat
  | .single ty c _ _ => (ty = .linestring ∧ Arg h own Cell.isLine c) ∨
      (ty = .polygon ∧ Arg h own Cell.isPolygon c)
  | .multi ty cs | .multiZm ty cs _ _ =>
      (ty = .multilinestring ∧ ∀ p ∈ cs, Arg h own Cell.isLine p) ∨
      (ty = .multipolygon ∧ ∀ p ∈ cs, Arg h own Cell.isPolygon p) ∨
      (ty = .collection ∧ ∀ p ∈ cs, Arg h own Cell.isGeometry p)
  | .clone p | .copy p => Arg h own Cell.isGeometry p
  | .copyRing p => Arg h own (fun c => c.isRing ∨ c.isLine) p
  | .copyPoly p => Arg h own Cell.isPolygon p
  | .free p => Mine h own Cell.isGeometry p
  | .freeRing p => Mine h own (fun c => c.isRing ∨ c.isLine) p
  | .freePoly p => Mine h own Cell.isPolygon p

/-- The references of the caller, given by a pointer. -/
def refsOf : Ptr → Multiset Nat
  | none => 0
  | some a => {a}

/-- What the caller owns after a call that returned `q`. -/
def after (own : Multiset Nat) (op : Op) (q : Ptr) : Multiset Nat :=
  refsOf q + (own - refsOf op.freed)

/-- The states that a caller can bring about, starting with nothing allocated, with the references
it then owns. `ok` restricts the calls. -/
inductive Runs (fails : Nat → Bool) (ok : Heap → Op → Prop) : Heap → Multiset Nat → Prop where
  | init : Runs fails ok (Heap.init fails) 0
  | call {h h' : Heap} {own : Multiset Nat} {op : Op} {q : Ptr} : Runs fails ok h own →
      Allowed h own op → ok h op → op.run h = some (q, h') → Runs fails ok h' (after own op q)

/-- No restriction. -/
def anyOp : Heap → Op → Prop := fun _ _ => True

/-- Copies only of objects without an index. -/
def plainCopies (h : Heap) : Op → Prop
  | .copy p | .copyRing p | .copyPoly p => Plain h p
  | _ => True

/-- The inner pointers of the block at `a` stay within the block. -/
def Cell.ownIndex (a : Nat) : Cell → Prop
  | .series _ _ ix _ _ => ix = none ∨ ix = some a
  | .block inner _ => inner = none ∨ inner = some a
  | _ => True

end Tg.Heap
