import Verif.Spec.Text
import Verif.Spec.Wkb
import Verif.Spec.Json
import Verif.Spec.Number
/-!
Specification of the texts that are Well-Known Text of a geometry (OGC 06-103r4 section 7.2): letters in any case, white space between tokens, `Z`, `M` and `ZM` with or without a
space before them, and both forms of a MultiPoint. `N t x` says that `t` is a number text read as `x`.
-/
namespace Tg.Spec.Wkt
open Json (Ws)

/-- A character that ends a number. -/
def Delim (c : Byte) : Prop := Ws [c] ∨ c = 0x2C#8 ∨ c = 0x29#8

/-- The double a number text with the value `q` stands for, if `rnd` rounds: a zero keeps its sign. -/
def double (rnd : ℚ → F64) (t : List Byte) (q : ℚ) : F64 := if q = 0 ∧ t.head? = some 0x2D#8 then 0x8000000000000000#64 else rnd q

/-- What is assumed of `strtod`: it reads the number in front of a character that ends one, whatever comes later. -/
def Strtod (sd : List Byte → F64) (rnd : ℚ → F64) : Prop := ∀ t q c r, IsDecimal t q → Delim c → sd (t ++ c :: r) = double rnd t q

/-- A number text and the double it stands for. -/
def NumOf (rnd : ℚ → F64) (t : List Byte) (x : F64) : Prop := ∃ q, IsDecimal t q ∧ x = double rnd t q

/-- Numbers with white space in between. -/
inductive IsPosn (N : List Byte → F64 → Prop) : List Byte → List F64 → Prop
  | one (t x) : N t x → IsPosn N t [x]
  | cons (t x w l p) : N t x → Ws w → w ≠ [] → IsPosn N l p → IsPosn N (t ++ (w ++ l)) (x :: p)

/-- One or more items separated by commas, with white space around each. -/
inductive IsItems {α : Type} (I : List Byte → α → Prop) : List Byte → List α → Prop
  | one (w t w' a) : Ws w → I t a → Ws w' → IsItems I (w ++ (t ++ w')) [a]
  | cons (w t w' a l as) : Ws w → I t a → Ws w' → IsItems I l as → IsItems I (w ++ (t ++ (w' ++ 0x2C#8 :: l))) (a :: as)

/-- Something in parentheses. -/
def Paren {β : Type} (L : List Byte → β → Prop) (t : List Byte) (b : β) : Prop := ∃ l, L l b ∧ t = 0x28#8 :: (l ++ [0x29#8])

/-- `1 2, 3 4` -/
def IsSeries (N : List Byte → F64 → Prop) : List Byte → List (List F64) → Prop := IsItems (IsPosn N)
/-- `(1 2, 3 4), (5 6, 7 8)` -/
def IsRings (N : List Byte → F64 → Prop) : List Byte → List (List (List F64)) → Prop := IsItems (Paren (IsSeries N))
/-- A list of polygons. -/
def IsPolys (N : List Byte → F64 → Prop) : List Byte → List (List (List (List F64))) → Prop := IsItems (Paren (IsRings N))
/-- `1 2, 3 4` or `(1 2), (3 4)` -/
def IsPoints (N : List Byte → F64 → Prop) (t : List Byte) (ps : List (List F64)) : Prop :=
  IsSeries N t ps ∨ IsItems (Paren fun l p => IsSeries N l [p]) t ps

/-- A letter as a capital. -/
def capital (b : Byte) : Byte := if 0x61 ≤ b.toNat ∧ b.toNat ≤ 0x7A then b - 32#8 else b

/-- A word in any case. -/
def Kw (s : String) (t : List Byte) : Prop := t.map capital = txt s

/-- What stands for the coordinates after x and y. -/
def dimName (z m : Bool) : String := if z then (if m then "ZM" else "Z") else "M"

/-- The name of the type. Without `Z`, `M` or `ZM` after it, three numbers are x y z and four are x y z m. -/
def IsTag (name : String) (z m : Bool) (t : List Byte) : Prop :=
  (Kw name t ∧ (m = true → z = true)) ∨ ((z || m) = true ∧ ∃ n w d, Kw name n ∧ Ws w ∧ Kw (dimName z m) d ∧ t = n ++ (w ++ d))

/-- A name and a list in parentheses. -/
def Tagged (name : String) (z m : Bool) (L : List Byte → Prop) (t : List Byte) : Prop :=
  ∃ tag w l, IsTag name z m tag ∧ Ws w ∧ L l ∧ t = tag ++ (w ++ 0x28#8 :: (l ++ [0x29#8]))

/-- A name and the word `EMPTY`. -/
def TaggedEmpty (name : String) (t : List Byte) : Prop :=
  ∃ z m tag w e, IsTag name z m tag ∧ Ws w ∧ w ≠ [] ∧ Kw "EMPTY" e ∧ t = tag ++ (w ++ e)

mutual
/-- `t` is a text of the geometry. -/
def IsWkt (N : List Byte → F64 → Prop) : GV → List Byte → Prop
  | .point z m (some p), t => Tagged "POINT" z m (fun l => IsSeries N l [p]) t
  | .point _ _ none, t => TaggedEmpty "POINT" t
  | .line z m ps, t => if ps = [] then TaggedEmpty "LINESTRING" t else Tagged "LINESTRING" z m (IsSeries N · ps) t
  | .poly z m rs, t => if rs = [] then TaggedEmpty "POLYGON" t else Tagged "POLYGON" z m (IsRings N · rs) t
  | .mpoint z m ps, t => if ps = [] then TaggedEmpty "MULTIPOINT" t else Tagged "MULTIPOINT" z m (IsPoints N · ps) t
  | .mline z m ls, t => if ls = [] then TaggedEmpty "MULTILINESTRING" t else Tagged "MULTILINESTRING" z m (IsRings N · ls) t
  | .mpoly z m ps, t => if ps = [] then TaggedEmpty "MULTIPOLYGON" t else Tagged "MULTIPOLYGON" z m (IsPolys N · ps) t
  | .coll gs, t =>
    (gs = [] ∧ TaggedEmpty "GEOMETRYCOLLECTION" t) ∨ (gs ≠ [] ∧ ∃ z m, Tagged "GEOMETRYCOLLECTION" z m (AreWkt N gs) t)
/-- The texts of one or more geometries, separated by commas. -/
def AreWkt (N : List Byte → F64 → Prop) : List GV → List Byte → Prop
  | [], _ => False
  | v :: vs, l => ∃ w t w', Ws w ∧ IsWkt N v t ∧ Ws w' ∧
      ((vs = [] ∧ l = w ++ (t ++ w')) ∨ ∃ l', AreWkt N vs l' ∧ l = w ++ (t ++ (w' ++ 0x2C#8 :: l')))
end

/-- A whole text of the geometry. -/
def IsText (N : List Byte → F64 → Prop) (v : GV) (d : List Byte) : Prop := ∃ w t w', Ws w ∧ IsWkt N v t ∧ Ws w' ∧ d = w ++ (t ++ w')

/-! ### Geometries -/

/-- A line of two or more positions. -/
def LineWf (z m : Bool) (ps : List (List F64)) : Prop := 2 ≤ ps.length ∧ ∀ p ∈ ps, posOk z m p
/-- A ring of three or more positions, the last as the first. -/
def RingWf (z m : Bool) (ps : List (List F64)) : Prop :=
  3 ≤ ps.length ∧ (∀ p ∈ ps, posOk z m p) ∧
  ∀ p0 p1, ps.head? = some p0 → ps.getLast? = some p1 → F64.feq (p0.getD 0 0) (p1.getD 0 0) = true ∧ F64.feq (p0.getD 1 0) (p1.getD 1 0) = true

mutual
/-- Every position has as many coordinates as Z and M say, lines have two positions, rings have three and are closed, polygons in a MultiPolygon have a ring. -/
def Wf : GV → Prop
  | .point z m (some p) => posOk z m p
  | .point _ _ none => True
  | .line z m ps => ps = [] ∨ LineWf z m ps
  | .poly z m rs => ∀ r ∈ rs, RingWf z m r
  | .mpoint z m ps => ∀ p ∈ ps, posOk z m p
  | .mline z m ls => ∀ l ∈ ls, LineWf z m l
  | .mpoly z m ps => ∀ rs ∈ ps, rs ≠ [] ∧ ∀ r ∈ rs, RingWf z m r
  | .coll gs => Wfs gs
/-- Every member. -/
def Wfs : List GV → Prop
  | [] => True
  | v :: vs => Wf v ∧ Wfs vs
end

mutual
/-- The geometry without the Z and M of what is empty. -/
def bare : GV → GV
  | .point z m (some p) => .point z m (some p)
  | .point _ _ none => .point false false none
  | .line z m ps => if ps = [] then .line false false [] else .line z m ps
  | .poly z m rs => if rs = [] then .poly false false [] else .poly z m rs
  | .mpoint z m ps => if ps = [] then .mpoint false false [] else .mpoint z m ps
  | .mline z m ls => if ls = [] then .mline false false [] else .mline z m ls
  | .mpoly z m ps => if ps = [] then .mpoly false false [] else .mpoly z m ps
  | .coll gs => .coll (bares gs)
/-- Every member. -/
def bares : List GV → List GV
  | [] => []
  | v :: vs => bare v :: bares vs
end

mutual
/-- How many lists in parentheses the text of a geometry has. -/
def groups : GV → Nat
  | .point _ _ (some _) => 1
  | .point _ _ none => 0
  | .line _ _ ps => if ps = [] then 0 else 1
  | .poly _ _ rs => if rs = [] then 0 else 1 + rs.length
  | .mpoint _ _ ps => if ps = [] then 0 else 1
  | .mline _ _ ls => if ls = [] then 0 else 1 + ls.length
  | .mpoly _ _ ps => if ps = [] then 0 else 1 + (ps.map fun rs => 1 + rs.length).sum
  | .coll gs => if gs.isEmpty then 0 else 1 + groupss gs
/-- All members together. -/
def groupss : List GV → Nat
  | [] => 0
  | v :: vs => groups v + groupss vs
end

mutual
/-- Every coordinate of the geometry satisfies `Q`. -/
def AllCoords (Q : F64 → Prop) : GV → Prop
  | .point _ _ (some p) => ∀ x ∈ p, Q x
  | .point _ _ none => True
  | .line _ _ ps => ∀ p ∈ ps, ∀ x ∈ p, Q x
  | .poly _ _ rs => ∀ r ∈ rs, ∀ p ∈ r, ∀ x ∈ p, Q x
  | .mpoint _ _ ps => ∀ p ∈ ps, ∀ x ∈ p, Q x
  | .mline _ _ ls => ∀ r ∈ ls, ∀ p ∈ r, ∀ x ∈ p, Q x
  | .mpoly _ _ ps => ∀ rs ∈ ps, ∀ r ∈ rs, ∀ p ∈ r, ∀ x ∈ p, Q x
  | .coll gs => AllCoordss Q gs
/-- Every member. -/
def AllCoordss (Q : F64 → Prop) : List GV → Prop
  | [] => True
  | v :: vs => AllCoords Q v ∧ AllCoordss Q vs
end

end Tg.Spec.Wkt
