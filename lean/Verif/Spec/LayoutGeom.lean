import Verif.Model.LayoutGeom
/-! Holes and unused bytes of a geometry, for C89. -/
namespace Tg.S

variable {α β : Type*}

/-- The number of holes. -/
def PolyObj.nholes : PolyObj α β → Nat
  | .ring _ => 0
  | .poly _ hs => hs.length

/-- The bytes of the block of a text behind its final zero. -/
def Text.unused : Text → Nat
  | none => 0
  | some (len, n) => n - (len + 1)

/-- The block of a text has room for it and its final zero. -/
def Text.Fits : Text → Prop
  | none => True
  | some (len, n) => len + 1 ≤ n

mutual
/-- The number of holes of all polygons. -/
def Obj.nholes : Obj α β → Nat
  | .poly p => p.nholes
  | .gpoly (some p) _ _ => p.nholes
  | .gmulti (some gs) _ _ => Obj.allHoles gs
  | _ => 0
def Obj.allHoles : List (Obj α β) → Nat
  | [] => 0
  | g :: gs => g.nholes + Obj.allHoles gs
end

mutual
/-- The unused bytes of all texts. -/
def Obj.unused : Obj α β → Nat
  | .gpoint t | .gline _ _ t | .gpoly _ _ t | .gmulti none _ t => t.unused
  | .gmulti (some gs) _ t => Obj.allUnused gs + t.unused
  | _ => 0
def Obj.allUnused : List (Obj α β) → Nat
  | [] => 0
  | g :: gs => g.unused + Obj.allUnused gs
end

mutual
/-- The blocks of all texts have room for them. -/
def Obj.Fits : Obj α β → Prop
  | .gpoint t | .gline _ _ t | .gpoly _ _ t | .gmulti none _ t => t.Fits
  | .gmulti (some gs) _ t => Obj.AllFit gs ∧ t.Fits
  | _ => True
def Obj.AllFit : List (Obj α β) → Prop
  | [] => True
  | g :: gs => g.Fits ∧ Obj.AllFit gs
end

end Tg.S
