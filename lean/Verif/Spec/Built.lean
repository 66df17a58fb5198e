import Verif.Spec.History
/-! What a constructor has to build (C45). -/
set_option linter.dupNamespace false
namespace Tg.Heap

/-- The object at `a` is a line or ring with the given points. Its index, if any, is inside its own
block, and its stripes are a block of their own. -/
def Heap.isSeries (h : Heap) (a : Nat) (pts : List Pt) (closed indexed stripes : Bool) : Prop :=
  ∃ st, h.cells a = some (.series 1 closed (if indexed then some a else none) st pts) ∧
    st.isSome = stripes

/-- The object at `a` is a geometry with the given type, flags and child, without extra JSON, and
with the given extra coordinates. -/
def Heap.isGeomOf (h : Heap) (a : Nat) (ty : GType) (fl : Flags) (child : Ptr)
    (coords : List Byte) : Prop :=
  ∃ co p z m, h.cells a = some (.geom 1 ty fl child co none p z m) ∧
    ((coords = [] ∧ co = none) ∨
      (coords ≠ [] ∧ ∃ b, co = some b ∧ h.cells b = some (.block none coords)))

/-- The object at `a` is a collection with the given type, flags and extra coordinates, and the
array of its children is `children`. It has an index exactly when it has at least 64 children. -/
def Heap.isMultiOf (h : Heap) (a : Nat) (ty : GType) (fl : Flags) (children : List Ptr)
    (coords : List Byte) : Prop :=
  ∃ m g ix ixg, h.isGeomOf a ty fl (some m) coords ∧
    h.cells m = some (.multi (some g) children.length ix ixg) ∧
    h.cells g = some (.geoms children) ∧
    (ix.isSome = decide (64 ≤ children.length)) ∧ (ixg.isSome = decide (64 ≤ children.length))

/-- The pointers lead to new points with the given coordinates. -/
def Heap.arePoints (h : Heap) (l : List Ptr) (pts : List Pt) : Prop :=
  l.length = pts.length ∧ ∀ (i : Nat) (p : Pt), pts[i]? = some p → ∃ b, l[i]? = some (some b) ∧
    h.cells b = some (.bpoint 1 p)

/-- The object at `a` is what the call asked for. Children are the very objects that were given
(`C31_values`: with the value they had). -/
def Heap.built (h : Heap) (a : Nat) : Op → Prop
  | .series pts cl ix st => h.isSeries a pts cl ix st
  | .point p => h.cells a = some (.bpoint 1 p)
  | .pointZm fl p z m => h.cells a = some (.geom 1 .point fl none none none p z m)
  | .empty ty => ∃ p z m, h.cells a = some (.geom 1 ty { isEmpty := true } none none none p z m)
  | .poly e hs n =>
      if n = 0 then e = some a
      else if 0 < n then ∃ b, h.cells a = some (.poly 1 e hs.length (some b)) ∧
        h.cells b = some (.rings hs)
      else h.cells a = some (.poly 1 e 0 none)
  | .single ty c co fl => h.isGeomOf a ty fl c co
  | .multipoint pts => ∃ l, h.isMultiOf a .multipoint {} l [] ∧ h.arePoints l pts
  | .multi ty cs => h.isMultiOf a ty {} cs []
  | .multipointZm pts co fl => ∃ l, h.isMultiOf a .multipoint fl l co ∧ h.arePoints l pts
  | .multiZm ty cs co fl => h.isMultiOf a ty fl cs co
  | .clone p => p = some a
  | _ => True

end Tg.Heap
