import Verif.Spec.Geometry
/-!
Specification of Well-Known Binary (OGC 06-103r4 section 8.2.9, with the ISO type
codes +1000/+2000/+3000 and the EWKB SRID flag), written without reference to the model of
the C code: `Enc v bs` says that `bs` is an encoding of `v`. Every object may choose its
own byte order and carry its own SRID.
-/
namespace Tg.Spec

/-- 32-bit word in the chosen byte order: least significant byte first, reversed if big endian. -/
def u32 (be : Bool) (x : BitVec 32) : List Byte :=
  let l := [x.extractLsb' 0 8, x.extractLsb' 8 8, x.extractLsb' 16 8, x.extractLsb' 24 8]
  if be then l.reverse else l

/-- Double in the chosen byte order. -/
def f64 (be : Bool) (x : F64) : List Byte :=
  let l := [x.extractLsb' 0 8, x.extractLsb' 8 8, x.extractLsb' 16 8, x.extractLsb' 24 8,
            x.extractLsb' 32 8, x.extractLsb' 40 8, x.extractLsb' 48 8, x.extractLsb' 56 8]
  if be then l.reverse else l

/-- ISO WKB geometry type code. -/
def typeCode (t : GType) (z m : Bool) : Nat :=
  (match t with
    | .point => 1 | .linestring => 2 | .polygon => 3 | .multipoint => 4
    | .multilinestring => 5 | .multipolygon => 6 | .collection => 7)
  + 1000 * z.toNat + 2000 * m.toNat

/-- Byte order mark, type code, optional SRID. -/
def header (be : Bool) (srid : Option (BitVec 32)) (t : GType) (z m : Bool) : List Byte :=
  (if be then 0#8 else 1#8) ::
  (match srid with
   | none => u32 be (BitVec.ofNat 32 (typeCode t z m))
   | some s => u32 be (BitVec.ofNat 32 (typeCode t z m + 0x20000000)) ++ u32 be s)

/-- A position: its coordinates in order. -/
def posn (be : Bool) (p : List F64) : List Byte := p.flatMap (f64 be)

/-- A count followed by that many positions. -/
def series (be : Bool) (ps : List (List F64)) : List Byte :=
  u32 be (BitVec.ofNat 32 ps.length) ++ ps.flatMap (posn be)

mutual
/-- `Enc v bs`: the byte string `bs` is a WKB encoding of `v`. -/
inductive Enc : GV → List Byte → Prop
  | point (be srid z m p) :
    Enc (.point z m (some p)) (header be srid .point z m ++ posn be p)
  | pointEmpty (be srid z m p) : p.length = dims z m → (∀ x ∈ p, F64.isNaN x = true) →
    Enc (.point false false none) (header be srid .point z m ++ posn be p)
  | line (be srid z m ps) :
    Enc (.line z m ps) (header be srid .linestring z m ++ series be ps)
  | poly (be srid z m rs) :
    Enc (.poly z m rs) (header be srid .polygon z m ++
      (u32 be (BitVec.ofNat 32 rs.length) ++ rs.flatMap (series be)))
  | mpoint (be srid z m ps bs) : EncAll (ps.map fun p => .point z m (some p)) bs →
    Enc (.mpoint z m ps) (header be srid .multipoint z m ++
      (u32 be (BitVec.ofNat 32 ps.length) ++ bs))
  | mline (be srid z m ls bs) : EncAll (ls.map fun l => .line z m l) bs →
    Enc (.mline z m ls) (header be srid .multilinestring z m ++
      (u32 be (BitVec.ofNat 32 ls.length) ++ bs))
  | mpoly (be srid z m ps bs) : EncAll (ps.map fun p => .poly z m p) bs →
    Enc (.mpoly z m ps) (header be srid .multipolygon z m ++
      (u32 be (BitVec.ofNat 32 ps.length) ++ bs))
  | coll (be srid z m gs bs) : EncAll gs bs →
    Enc (.coll gs) (header be srid .collection z m ++
      (u32 be (BitVec.ofNat 32 gs.length) ++ bs))
/-- Encodings of the members, one after the other. -/
inductive EncAll : List GV → List Byte → Prop
  | nil : EncAll [] []
  | cons (v vs b bs) : Enc v b → EncAll vs bs → EncAll (v :: vs) (b ++ bs)
end

mutual
/-- The encoding with every object little endian and no SRID. -/
def encode : GV → List Byte
  | .point z m (some p) => header false none .point z m ++ posn false p
  | .point z m none => header false none .point z m ++ posn false [F64.nan, F64.nan]
  | .line z m ps => header false none .linestring z m ++ series false ps
  | .poly z m rs => header false none .polygon z m ++
      (u32 false (BitVec.ofNat 32 rs.length) ++ rs.flatMap (series false))
  | .mpoint z m ps => header false none .multipoint z m ++
      (u32 false (BitVec.ofNat 32 ps.length) ++
        ps.flatMap fun p => header false none .point z m ++ posn false p)
  | .mline z m ls => header false none .multilinestring z m ++
      (u32 false (BitVec.ofNat 32 ls.length) ++
        ls.flatMap fun l => header false none .linestring z m ++ series false l)
  | .mpoly z m ps => header false none .multipolygon z m ++
      (u32 false (BitVec.ofNat 32 ps.length) ++
        ps.flatMap fun rs => header false none .polygon z m ++
          (u32 false (BitVec.ofNat 32 rs.length) ++ rs.flatMap (series false)))
  | .coll gs => header false none .collection false false ++
      (u32 false (BitVec.ofNat 32 gs.length) ++ encodes gs)
/-- Concatenated encodings. -/
def encodes : List GV → List Byte
  | [] => []
  | v :: vs => encode v ++ encodes vs
end

/-- A position of a geometry with the given Z/M has the right number of coordinates. -/
def posOk (z m : Bool) (p : List F64) : Prop := p.length = dims z m

/-- A line: at least two positions; sizes small enough for 32-bit byte counts. -/
def lineOk (z m : Bool) (ps : List (List F64)) : Prop :=
  2 ≤ ps.length ∧ ps.length * (8 * dims z m) < 2^31 ∧ ∀ p ∈ ps, posOk z m p

/-- A ring: at least three positions, first and last have equal x and y (`==` of doubles). -/
def ringOk (z m : Bool) (ps : List (List F64)) : Prop :=
  3 ≤ ps.length ∧ ps.length * (8 * dims z m) < 2^31 ∧ (∀ p ∈ ps, posOk z m p) ∧
  ∀ p0 p1, ps.head? = some p0 → ps.getLast? = some p1 →
    F64.feq (p0.getD 0 0) (p1.getD 0 0) = true ∧ F64.feq (p0.getD 1 0) (p1.getD 1 0) = true

/-- A polygon: an exterior and any number of holes. -/
def polyOk (z m : Bool) (rs : List (List (List F64))) : Prop :=
  rs ≠ [] ∧ rs.length < 2^31 ∧ ∀ r ∈ rs, ringOk z m r

/-- A non-empty point: right number of coordinates, not all of them NaN (that is the
encoding of POINT EMPTY). -/
def pointOk (z m : Bool) (p : List F64) : Prop :=
  posOk z m p ∧ ∃ x ∈ p, F64.isNaN x = false

mutual
/-- Geometries that tg can represent and read back: the OGC/GeoJSON validity rules on the
number of positions, empty objects carry no Z/M, no empty members in multi geometries,
sizes within the 32-bit counts. -/
def Valid : GV → Prop
  | .point z m (some p) => pointOk z m p
  | .point z m none => z = false ∧ m = false
  | .line z m ps => (ps = [] ∧ z = false ∧ m = false) ∨ lineOk z m ps
  | .poly z m rs => (rs = [] ∧ z = false ∧ m = false) ∨ polyOk z m rs
  | .mpoint z m ps => ps.length < 2^31 ∧ ∀ p ∈ ps, pointOk z m p
  | .mline z m ls => ls.length < 2^31 ∧ ∀ l ∈ ls, lineOk z m l
  | .mpoly z m ps => ps.length < 2^31 ∧ ∀ p ∈ ps, polyOk z m p
  | .coll gs => gs.length < 2^31 ∧ Valids gs
/-- Every member is valid. -/
def Valids : List GV → Prop
  | [] => True
  | v :: vs => Valid v ∧ Valids vs
end

mutual
/-- Sizes for which the writers' `int` byte counts do not overflow: every series takes
less than 2 GB. -/
def Fits : GV → Prop
  | .point _ _ _ => True
  | .line z m ps => ps.length * (8 * dims z m) < 2^31
  | .poly z m rs => ∀ r ∈ rs, r.length * (8 * dims z m) < 2^31
  | .mpoint _ _ _ => True
  | .mline z m ls => ∀ l ∈ ls, l.length * (8 * dims z m) < 2^31
  | .mpoly z m ps => ∀ rs ∈ ps, ∀ r ∈ rs, r.length * (8 * dims z m) < 2^31
  | .coll gs => Fitss gs
/-- Every member fits. -/
def Fitss : List GV → Prop
  | [] => True
  | v :: vs => Fits v ∧ Fitss vs
end

/-- The input contains a little-endian object header of type LineString or Polygon (2D), and
somewhere after it a little-endian word that is at least 2^28. (The only inputs on which the parser can
misbehave: the word is then taken as a number of positions.) -/
def HugeCount (data : List Byte) : Prop :=
  ∃ j tw k n, 
    (∃ rest, data.drop j = 1#8 :: u32 false tw ++ rest) ∧
    ((tw &&& 0xFFFF#32) = 2#32 ∨ (tw &&& 0xFFFF#32) = 3#32) ∧
    j + 5 ≤ k ∧ (∃ rest, data.drop k = u32 false n ++ rest) ∧ 2^28 ≤ n.toNat

end Tg.Spec
