import Verif.Spec.Geometry
/-!
Specification side of the accessors: a program of a user who wants to know what a geometry is. It gets a handle and can do nothing with it but call
the accessor functions, which are a parameter.
-/
namespace Tg.Spec

/-- The accessor functions of the API. `G`, `L` and `P` are the pointers to geometries, to lines and rings, and to polygons. `none` of a `...At` function
of a geometry: the call reads outside of the array. `null` compares a pointer to a polygon with NULL. -/
structure Api (G L P : Type) where
  typeof : G → Nat
  isEmpty : G → Bool
  hasZ : G → Bool
  hasM : G → Bool
  z : G → F64
  m : G → F64
  point : G → Pt
  line : G → L
  poly : G → P
  null : P → Bool
  extra : G → List F64
  numPts : L → Nat
  ptAt : L → Int → Pt
  exterior : P → L
  numHoles : P → Nat
  holeAt : P → Int → L
  numPoints : G → Nat
  pointAt : G → Int → Option Pt
  numLines : G → Nat
  lineAt : G → Int → Option L
  numPolys : G → Nat
  polyAt : G → Int → Option P
  numGeoms : G → Nat
  geomAt : G → Int → Option G

namespace Api
variable {G L P : Type} (A : Api G L P)

/-- The calls for the indices from 0 to n-1. -/
def each {X : Type} (n : Nat) (f : Int → Option X) : Option (List X) := (List.range n).mapM fun i => f (i : Nat)

/-- The points of a line or ring. -/
def pts (l : L) : List Pt := (List.range (A.numPts l)).map fun i => A.ptAt l (i : Nat)

/-- The rings of a polygon; none for NULL. -/
def rings (p : P) : List (List Pt) :=
  if A.null p then []
  else A.pts (A.exterior p) :: (List.range (A.numHoles p)).map fun i => A.pts (A.holeAt p (i : Nat))

/-- The program. The number bounds how deep it descends into collections. -/
def read : Nat → G → Option GV
  | 0, _ => none
  | n + 1, g =>
    let z := A.hasZ g
    let m := A.hasM g
    let k := z.toNat + m.toNat
    match A.typeof g with
    | 1 => some (.point z m (if A.isEmpty g then none
        else some ([(A.point g).x, (A.point g).y] ++ (if z then [A.z g] else []) ++ (if m then [A.m g] else []))))
    | 2 => some (.line z m (posns k (A.pts (A.line g)) (A.extra g)))
    | 3 => some (.poly z m (posnss k (A.rings (A.poly g)) (A.extra g)))
    | 4 => (each (A.numPoints g) (A.pointAt g)).map fun ps => .mpoint z m (posns k ps (A.extra g))
    | 5 => (each (A.numLines g) (A.lineAt g)).map fun ls => .mline z m (posnss k (ls.map A.pts) (A.extra g))
    | 6 => (each (A.numPolys g) (A.polyAt g)).map fun ps => .mpoly z m (posnsss k (ps.map A.rings) (A.extra g))
    | 7 => (each (A.numGeoms g) (A.geomAt g)).bind fun gs => (gs.mapM (read n)).map .coll
    | _ => none

end Api

/-- What the documentation calls empty: without an interior. A line of one position and a ring of two count as empty. -/
def shortRing (r : List (List F64)) : Prop := r.length < 3

mutual
/-- Empty: nothing at all, or members that are empty only. -/
def Vacant : GV → Prop
  | .point _ _ p => p = none
  | .line _ _ ps => ps.length < 2
  | .poly _ _ rs => ∀ r ∈ rs.head?, shortRing r
  | .mpoint _ _ ps => ps = []
  | .mline _ _ ls => ∀ l ∈ ls, l.length < 2
  | .mpoly _ _ ps => ∀ rs ∈ ps, ∀ r ∈ rs.head?, shortRing r
  | .coll gs => Vacants gs
/-- All of them. -/
def Vacants : List GV → Prop
  | [] => True
  | g :: gs => Vacant g ∧ Vacants gs
end

mutual
/-- The simple geometries and the homogeneous collections in a geometry, nested ones included. -/
def flat : GV → List GV
  | .coll gs => flats gs
  | g => [g]
/-- Of all of them. -/
def flats : List GV → List GV
  | [] => []
  | g :: gs => flat g ++ flats gs
end

/-- The dimension of the point sets of a type; collections do not count. -/
def dimOf : GV → Int
  | .point .. | .mpoint .. => 0
  | .line .. | .mline .. => 1
  | .poly .. | .mpoly .. => 2
  | .coll _ => -1

/-- The number of the type, as in WKB, and its name in GeoJSON. -/
def typeOf : GV → Nat × String
  | .point .. => (1, "Point")
  | .line .. => (2, "LineString")
  | .poly .. => (3, "Polygon")
  | .mpoint .. => (4, "MultiPoint")
  | .mline .. => (5, "MultiLineString")
  | .mpoly .. => (6, "MultiPolygon")
  | .coll _ => (7, "GeometryCollection")

/-- Whether it has Z, whether it has M. -/
def zmOf : GV → Bool × Bool
  | .point z m _ | .line z m _ | .poly z m _ | .mpoint z m _ | .mline z m _ | .mpoly z m _ => (z, m)
  | .coll _ => (false, false)

mutual
/-- What the documentation of `tg_geom_foreach` promises: every simple geometry in it that is not empty. -/
def leaves : GV → List GV
  | .point z m p => match p with
    | none => []
    | some p => [.point z m (some p)]
  | .line z m ps => if ps.length < 2 then [] else [.line z m ps]
  | .poly z m rs => match rs with
    | [] => []
    | r :: rs => if r.length < 3 then [] else [.poly z m (r :: rs)]
  | .mpoint z m ps => ps.map fun p => .point z m (some p)
  | .mline z m ls => (ls.filter (2 ≤ ·.length)).map (.line z m)
  | .mpoly z m ps => (ps.filter fun rs => rs.head?.any (3 ≤ ·.length)).map (.poly z m)
  | .coll gs => leavess gs
/-- Of all of them. -/
def leavess : List GV → List GV
  | [] => []
  | g :: gs => leaves g ++ leavess gs
end

end Tg.Spec
