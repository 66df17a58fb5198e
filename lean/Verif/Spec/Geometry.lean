import Verif.Model.Geom
/-!
Specification side: what a geometry *is* for a user of the API, independent of how
tg stores it. A position is the list of its coordinates (2, 3 or 4 doubles: x y [z] [m]).
-/
namespace Tg

/-- The OGC view of a geometry: its type, whether it carries Z and M, and all positions. -/
inductive GV where
  | point (z m : Bool) (p : Option (List F64))            -- `none` = POINT EMPTY
  | line (z m : Bool) (ps : List (List F64))
  | poly (z m : Bool) (rings : List (List (List F64)))
  | mpoint (z m : Bool) (ps : List (List F64))
  | mline (z m : Bool) (ls : List (List (List F64)))
  | mpoly (z m : Bool) (ps : List (List (List (List F64))))
  | coll (gs : List GV)
deriving Repr

namespace Spec

/-- Number of coordinates of a position. -/
def dims (z m : Bool) : Nat := 2 + z.toNat + m.toNat

/-- The first `k` of the extra coordinates, missing ones read as zero (`+0.0`), as
documented for the `_z`/`_m`/`_zm` constructors that get too few of them. -/
def takePad (k : Nat) (cs : List F64) : List F64 :=
  cs.take k ++ List.replicate (k - cs.length) 0#64

/-- Positions of a series whose extra coordinates, `k` per point, are stored aside. -/
def posns (k : Nat) : List Pt → List F64 → List (List F64)
  | [], _ => []
  | p :: ps, cs => ([p.x, p.y] ++ takePad k cs) :: posns k ps (cs.drop k)

/-- Positions of several series sharing one list of extra coordinates. -/
def posnss (k : Nat) : List (List Pt) → List F64 → List (List (List F64))
  | [], _ => []
  | r :: rs, cs => posns k r cs :: posnss k rs (cs.drop (k * r.length))

/-- Positions of several polygons sharing one list of extra coordinates. -/
def posnsss (k : Nat) : List (List (List Pt)) → List F64 → List (List (List (List F64)))
  | [], _ => []
  | p :: ps, cs => posnss k p cs :: posnsss k ps (cs.drop (k * (p.map List.length).sum))

/-- The rings of a polygon, exterior first. -/
def rings (p : Poly) : List (List Pt) := p.ext :: p.holes

mutual
/-- What a user sees of a geometry: type, Z/M, coordinates. `none` for an object
that holds no readable geometry: an error, a NULL line/polygon that is not flagged empty,
or Z/M flags on an object that has nowhere to keep the values. -/
def view : Geom → Option GV
  | .point fl p => if fl.hasZ || fl.hasM then none else some (.point false false (some [p.x, p.y]))
  | .line fl pts => if fl.hasZ || fl.hasM then none else some (.line false false (posns 0 pts []))
  | .poly fl pl =>
    if fl.hasZ || fl.hasM then none else some (.poly false false (posnss 0 (rings pl) []))
  | .gpoint fl p z m _ =>
    if fl.isEmpty then
      if fl.hasZ || fl.hasM then none else some (.point false false none)
    else some (.point fl.hasZ fl.hasM (some ([p.x, p.y] ++ (if fl.hasZ then [z] else []) ++
      (if fl.hasM then [m] else []))))
  | .gline fl l cs _ =>
    if fl.isEmpty then some (.line fl.hasZ fl.hasM [])
    else match l with
      | none => none
      | some pts => some (.line fl.hasZ fl.hasM (posns (dims fl.hasZ fl.hasM - 2) pts cs))
  | .gpoly fl p cs _ =>
    if fl.isEmpty then some (.poly fl.hasZ fl.hasM [])
    else match p with
      | none => none
      | some pl => some (.poly fl.hasZ fl.hasM (posnss (dims fl.hasZ fl.hasM - 2) (rings pl) cs))
  | .mpoint fl ps cs _ =>
    some (.mpoint fl.hasZ fl.hasM
      (if fl.isEmpty then [] else posns (dims fl.hasZ fl.hasM - 2) (ps.getD []) cs))
  | .mline fl ls cs _ =>
    if fl.isEmpty then some (.mline fl.hasZ fl.hasM [])
    else match (ls.getD []).mapM id with
      | none => none
      | some ls => some (.mline fl.hasZ fl.hasM (posnss (dims fl.hasZ fl.hasM - 2) ls cs))
  | .mpoly fl ps cs _ =>
    if fl.isEmpty then some (.mpoly fl.hasZ fl.hasM [])
    else match (ps.getD []).mapM id with
      | none => none
      | some ps =>
        some (.mpoly fl.hasZ fl.hasM (posnsss (dims fl.hasZ fl.hasM - 2) (ps.map rings) cs))
  | .coll fl hasMulti gs _ _ =>
    if fl.hasZ || fl.hasM then none
    else if !hasMulti || fl.isEmpty then some (.coll [])
    else match views gs with
      | none => none
      | some vs => some (.coll vs)
  | .err _ => none
/-- `view` of every child. -/
def views : List Geom → Option (List GV)
  | [] => some []
  | g :: gs =>
    match view g, views gs with
    | some v, some vs => some (v :: vs)
    | _, _ => none
end

mutual
/-- Nesting height: 0 for a point, line or polygon, one more than the highest member otherwise. -/
def height : GV → Nat
  | .point .. | .line .. | .poly .. => 0
  | .mpoint _ _ ps => if ps.isEmpty then 0 else 1
  | .mline _ _ ls => if ls.isEmpty then 0 else 1
  | .mpoly _ _ ps => if ps.isEmpty then 0 else 1
  | .coll gs => heights gs
/-- One more than the highest of a list of members, 0 if there are none. -/
def heights : List GV → Nat
  | [] => 0
  | g :: gs => max (height g + 1) (heights gs)
end

mutual
/-- How many collections deep a stored object goes. -/
def nest : Geom → Nat
  | .coll _ _ gs _ _ => nests gs
  | _ => 0
/-- One more than the deepest child, 0 without children. -/
def nests : List Geom → Nat
  | [] => 0
  | g :: gs => max (nest g + 1) (nests gs)
end

end Spec
end Tg
