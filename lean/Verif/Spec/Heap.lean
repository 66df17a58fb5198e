import Verif.Model.Heap
/-! What the theorems about memory say: which blocks a pointer leads to, and what it is worth as a
value, independent of addresses and of reference counts. -/
namespace Tg.Heap

/-- The owning pointers of a block, in the order of its fields. -/
def Cell.kids : Cell → List Ptr
  | .series _ _ _ st _ => [st]
  | .bpoint .. => []
  | .poly _ e _ hs => [e, hs]
  | .geom _ _ _ c co er _ _ _ => [c, co, er]
  | .multi g _ ix ixg => [g, ix, ixg]
  | .rings l => l
  | .geoms l => l
  | .block .. => []

/-- The blocks that can be reached from a pointer through owning pointers. -/
inductive Reach (h : Heap) (p : Ptr) : Nat → Prop where
  | root {a : Nat} : p = some a → Reach h p a
  | step {j i : Nat} {c : Cell} : Reach h p j → h.cells j = some c → some i ∈ c.kids → Reach h p i

/-- An inner pointer of a block at `a`: none, into the block itself (`true`), elsewhere. -/
def own (a : Nat) : Ptr → Option Bool
  | none => none
  | some x => some (x = a)

/-- The value of a pointer. -/
inductive Tree where
  | null
  | cut
  | series (closed : Bool) (index : Option Bool) (stripes : Tree) (pts : List Pt)
  | bpoint (p : Pt)
  | poly (exterior : Tree) (nholes : Nat) (holes : Tree)
  | geom (ty : GType) (fl : Flags) (child coords error : Tree) (p : Pt) (z m : F64)
  | multi (geoms : Tree) (n : Nat) (index ixgeoms : Tree)
  | array (l : List Tree)
  | block (inner : Option Bool) (data : List Byte)

/-- A block as a value, when the value of its pointers is given by `f`. -/
def Cell.view (f : Ptr → Tree) (a : Nat) : Cell → Tree
  | .series _ cl ix st pts => .series cl (own a ix) (f st) pts
  | .bpoint _ p => .bpoint p
  | .poly _ e n hs => .poly (f e) n (f hs)
  | .geom _ ty fl c co er p z m => .geom ty fl (f c) (f co) (f er) p z m
  | .multi g n ix ixg => .multi (f g) n (f ix) (f ixg)
  | .rings l => .array (l.map f)
  | .geoms l => .array (l.map f)
  | .block inner d => .block (own a inner) d

/-- The value of a pointer, down to the given depth. -/
def tree (h : Heap) : Nat → Ptr → Tree
  | _, none => .null
  | 0, some _ => .cut
  | n + 1, some a => (h.cells a).elim .cut (Cell.view (tree h n) a)

/-- A block without an index, stripes or a pointer into itself. -/
def Cell.noIndex : Cell → Prop
  | .series _ _ ix _ _ => ix = none
  | .block inner _ => inner = none
  | _ => True

/-- Nothing reached from the pointer is indexed. -/
def Plain (h : Heap) (p : Ptr) : Prop := ∀ i, Reach h p i → ∀ c, h.cells i = some c → c.noIndex

/-- A block whose line, polygon, exterior, holes or children are not NULL. -/
def Cell.solid : Cell → Prop
  | .poly _ e _ _ => e ≠ none
  | .geom _ ty _ c _ _ _ _ _ => ty = .linestring ∨ ty = .polygon → c ≠ none
  | .rings l => none ∉ l
  | .geoms l => none ∉ l
  | _ => True

/-- Nothing reached from the pointer has a NULL line, polygon, exterior, hole or child. -/
def Solid (h : Heap) (p : Ptr) : Prop := ∀ i, Reach h p i → ∀ c, h.cells i = some c → c.solid

end Tg.Heap
