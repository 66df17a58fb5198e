import Verif.Model.Layout
import Verif.Model.Multi
/-!
The bytes of the blocks of a geometry, and `tg_geom_memsize` (tg.c:5241-5300). The rings and lines are those of `Model/Series`; of the rest of a geometry only
what has a size is kept. Sizes are natural numbers, without overflow of `size_t`.
-/
namespace Tg.S

/-- The sizes of the other types. -/
structure GAbi extends Abi where
  geom : Nat
  multi : Nat
  bpoint : Nat
  double : Nat

/-- With 64-bit pointers, of the structures at tg.c:585-592, 622-660, 668-677. -/
def GAbi.lp64 : GAbi := ⟨Abi.lp64, 48, 64, 24, 8⟩

/-- A `struct tg_poly *` that is not NULL: a ring, or a polygon with its rings. -/
inductive PolyObj (α β : Type*) where
  | ring (r : Ring α β)
  | poly (exterior : Ring α β) (holes : List (Ring α β))

/-- The text of a `struct tg_geom` (`xjson` or `error`): its length and the bytes of its block. `none` is NULL. -/
abbrev Text := Option (Nat × Nat)

/-- A `struct tg_geom *`, by its `head.base`; the last four have BASE_GEOM, by their `head.type`. `ncoords` is the number of extra coordinates. -/
inductive Obj (α β : Type*) where
  | null
  | point
  | series (r : Ring α β)
  | poly (p : PolyObj α β)
  | gpoint (text : Text)
  | gline (line : Option (Ring α β)) (ncoords : Nat) (text : Text)
  | gpoly (poly : Option (PolyObj α β)) (ncoords : Nat) (text : Text)
  | gmulti (multi : Option (List (Obj α β))) (ncoords : Nat) (text : Text)

variable {α β : Type*} [LinearOrder α] [LinearOrder β] (b : GAbi)

/-! ### What is allocated -/

/-- The allocations of a polygon and of its rings: `tg_poly_new`, tg.c:3754-3793. -/
def PolyObj.allocs : PolyObj α β → List Nat
  | .ring r => (ringBlocks b.toAbi r).1
  | .poly e hs => polyBlocks b.toAbi hs.length ++ (ringBlocks b.toAbi e).1 ++ hs.flatMap fun r => (ringBlocks b.toAbi r).1

/-- The block of the extra coordinates, `fill_extra_coords`, tg.c:4768-4786. -/
def coordsBlocks (ncoords : Nat) : List Nat := if ncoords = 0 then [] else [ncoords * b.double]

/-- The block of the text. -/
def textBlocks : Text → List Nat
  | none => []
  | some (_, n) => [n]

/-- The blocks of `geom_new_multi` except the geometry itself, tg.c:4424-4454, for `n` children. -/
def multiBlocks (n : Nat) : List Nat :=
  [b.multi, n * b.ptr] ++ if n ≥ multiSpread * 2 then [calcIndexSize b.toAbi multiSpread n, n * b.int] else []

mutual
/-- All blocks that are reached from a geometry, a block as often as it is reached: `tg_geom_new_point` tg.c:4310, `geom_new` tg.c:4286, and the above. -/
def Obj.allocs : Obj α β → List Nat
  | .null => []
  | .point => [b.bpoint]
  | .series r => (ringBlocks b.toAbi r).1
  | .poly p => p.allocs b
  | .gpoint t => [b.geom] ++ textBlocks t
  | .gline l n t => [b.geom] ++ (match l with | none => [] | some r => (ringBlocks b.toAbi r).1) ++ coordsBlocks b n ++ textBlocks t
  | .gpoly p n t => [b.geom] ++ (match p with | none => [] | some p => p.allocs b) ++ coordsBlocks b n ++ textBlocks t
  | .gmulti none n t => [b.geom] ++ coordsBlocks b n ++ textBlocks t
  | .gmulti (some gs) n t => [b.geom] ++ multiBlocks b gs.length ++ Obj.allAllocs gs ++ coordsBlocks b n ++ textBlocks t
def Obj.allAllocs : List (Obj α β) → List Nat
  | [] => []
  | g :: gs => g.allocs ++ Obj.allAllocs gs
end

/-! ### What is reported -/

/-- `tg_ring_memsize`, `tg_line_memsize`. -/
def ringObjMemsize (r : Ring α β) : Nat := ringMemsize b.toAbi (ringBlocks b.toAbi r).2

/-- `tg_poly_memsize`, tg.c:4265-4279. -/
def PolyObj.memsize : PolyObj α β → Nat
  | .ring r => ringObjMemsize b r
  | .poly e hs => polyMemsize b.toAbi (ringBlocks b.toAbi e).2 (hs.map fun r => (ringBlocks b.toAbi r).2)

/-- The end of `geom_memsize` that all types but TG_POINT have, tg.c:5271-5273; `coords` is NULL without extra coordinates. -/
def addCoords (ncoords size : Nat) : Nat := if ncoords = 0 then size else size + ncoords * b.double

/-- The end of `geom_memsize`, tg.c:5274-5277. -/
def addText (t : Text) (size : Nat) : Nat := match t with
  | none => size
  | some (len, _) => size + (len + 1)

mutual
/-- `tg_geom_memsize` and `geom_memsize`, tg.c:5241-5300. -/
def Obj.memsize : Obj α β → Nat
  | .null => 0
  | .point => b.bpoint
  | .series r => ringObjMemsize b r
  | .poly p => p.memsize b
  | .gpoint t => addText t b.geom
  | .gline l n t => addText t (addCoords b n (b.geom + match l with | none => 0 | some r => ringObjMemsize b r))
  | .gpoly p n t => addText t (addCoords b n (b.geom + match p with | none => 0 | some p => p.memsize b))
  | .gmulti none n t => addText t (addCoords b n b.geom)
  | .gmulti (some gs) n t =>
    let size := b.geom + b.multi + gs.length * b.ptr
    let size := Obj.memsizeLoop gs size
    -- `index->memsz` is set by `fill_index_struct`
    let size := if gs.length ≥ multiSpread * 2 then size + calcIndexSize b.toAbi multiSpread gs.length else size
    let size := if gs.length ≥ multiSpread * 2 then size + gs.length * b.int else size
    addText t (addCoords b n size)
/-- The loop over the children, tg.c:5259-5261. -/
def Obj.memsizeLoop : List (Obj α β) → Nat → Nat
  | [], size => size
  | g :: gs, size => Obj.memsizeLoop gs (size + g.memsize)
end

end Tg.S
