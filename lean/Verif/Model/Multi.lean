import Verif.Model.Series
import Verif.Model.Hilbert
/-!
Collections (`struct multi`): their rectangle, the index over the children and the search
(tg.c:4420-4616, 15285-15358). The children are elements of any type with a rectangle (`tg_geom_rect`). Coordinates as in `Model/Series`;
allocations succeed (failures are in `Model/Heap`).
-/
namespace Tg.S

variable {α β γ : Type*} [LinearOrder α] [LinearOrder β]

/-- The arithmetic of the Hilbert key, opaque. -/
structure HArith (α : Type*) where
  /-- `tg_rect_center`, tg.c:1770-1775 -/
  center : Rect α → Pt α
  /-- `((v - lo) / (hi - lo)) * 0xFFFF` converted to `uint32_t`, given `lo`, `hi` and `v`, tg.c:4510-4511; `none` if the value is not in the range
  of `uint32_t`, in particular if it is a NaN -/
  cell : α → α → α → Option (BitVec 32)

/-- `tg_point_hilbert`, tg.c:4509-4513. -/
def pointHilbert (H : HArith α) (p : Pt α) (r : Rect α) : Option (BitVec 32) :=
  match H.cell r.lo.x r.hi.x p.x, H.cell r.lo.y r.hi.y p.y with
  | some x, some y => some (Hilbert.hilbertXyToIndex x y)
  | _, _ => none

/-- `struct hildex`, tg.c:4515-4518. -/
structure Hildex where
  hilbert : BitVec 32
  index : Nat

/-- `hilsort`, tg.c:4520-4524. -/
def hilsort (a b : Hildex) : Int :=
  if a.hilbert < b.hilbert then -1 else if a.hilbert > b.hilbert then 1 else 0

/-- The C library's `qsort` with a comparison function. -/
abbrev Qsort := (Hildex → Hildex → Int) → List Hildex → List Hildex

/-- `struct multi` -/
structure Multi (α β γ : Type*) where
  geoms : List γ
  rect : Rect α
  index : Option (Index β)
  ixgeoms : List Nat

/-- The loop that collects the rectangles of `spread` entries at a time, tg.c:4550-4566 and 4571-4582 (the two copies differ in where the
rectangles come from). `cur` is `ixrect`, `out` the level above, of which `k` are filled; a store past `nrects` is `none`. -/
def chunkLoop (spread nrects : Nat) : List (Rect β) → Rect β → Nat → List (Rect β) → Option (List (Rect β))
  | [], cur, _, out => if out.length < nrects then some (out ++ [cur]) else some out
  | r :: rs, cur, j, out =>
    if j = spread then
      if out.length < nrects then chunkLoop spread nrects rs r 1 (out ++ [cur]) else none
    else chunkLoop spread nrects rs (cur.inflate r) (j + 1) out

/-- One level from the one below; `none` if there is no first entry, or if a rectangle of the level is left uninitialised. -/
def chunkLevel (spread nrects : Nat) : List (Rect β) → Option (List (Rect β))
  | [] => none
  | r :: rs =>
    match chunkLoop spread nrects rs r 1 [] with
    | none => none
    | some l => if l.length = nrects then some l else none

/-- The levels above the bottom one, tg.c:4567-4587; the sizes of the levels above are given, the result starts with the root. -/
def chunkUpper (spread : Nat) : List Nat → List (Rect β) → Option (List (List (Rect β)))
  | [], below => some [below]
  | n :: ns, below =>
    match chunkLevel spread n below with
    | none => none
    | some level =>
      match chunkUpper spread ns level with
      | none => none
      | some ls => some (ls ++ [below])

/-- The Hilbert keys of the children, tg.c:4537-4541. -/
def hildexes (H : HArith α) (rectOf : γ → Rect α) (rect : Rect α) (geoms : List γ) : Option (List Hildex) :=
  geoms.zipIdx.mapM fun (g, i) =>
    match pointHilbert H (H.center (rectOf g)) rect with
    | none => none
    | some k => some ⟨k, i⟩

/-- `multi_geom_inflate_index`, tg.c:4526-4594; `n` is `ngeoms`. The rectangle is expanded by the children in the new order, from the second on. -/
def inflateIndex (f : Ix α β) (H : HArith α) (Q : Qsort) (rectOf : γ → Rect α) (spread : Nat) (m : Multi α β γ) : Option (Multi α β γ) :=
  match hildexes H rectOf m.rect m.geoms with
  | none => none
  | some hs =>
    let ixgeoms := (Q hilsort hs).map (·.index)
    match ixgeoms.mapM fun i => (m.geoms[i]?).map rectOf with
    | none => none
    | some rects =>
      let rect := (rects.drop 1).foldl Rect.inflate m.rect
      let nlevels := numLevels spread m.geoms.length - 1
      match chunkLevel spread (numKeys spread 1 m.geoms.length) (rects.map f.rect) with
      | none => none
      | some leaves =>
        match chunkUpper spread (upperSizes spread m.geoms.length nlevels) leaves with
        | none => none
        | some levels => some { m with rect := rect, ixgeoms := ixgeoms, index := some ⟨spread, levels⟩ }

/-- The loop of `multi_geom_inflate_rect`, tg.c:4592-4600. -/
def inflateRect [Zero α] (rects : List (Rect α)) : Rect α :=
  match rects with
  | [] => ⟨⟨0, 0⟩, ⟨0, 0⟩⟩
  | r :: rs => rs.foldl Rect.inflate r

/-- The spread of the index over the children, tg.c:4438. -/
def multiSpread : Nat := 32

/-- A collection of the given children: `geom_new_multi` (tg.c:4420-4458), which decides whether there is an index, and `multi_geom_inflate_rect`
(tg.c:4591-4608). -/
def multiNew [Zero α] (f : Ix α β) (H : HArith α) (Q : Qsort) (rectOf : γ → Rect α) (geoms : List γ) : Option (Multi α β γ) :=
  let m : Multi α β γ := ⟨geoms, inflateRect (geoms.map rectOf), none, []⟩
  if geoms.length ≥ multiSpread * 2 then inflateIndex f H Q rectOf multiSpread m else some m

/-- Child `i`, tested and reported: tg.c:15345-15351. -/
def seqLeaf {σ : Type*} (rectOf : γ → Rect α) (geoms : List γ) (q : Rect α) (iter : γ → Nat → σ → σ × Bool) (i : Nat) (st : σ) :
    Option (σ × Bool) :=
  match geoms[i]? with
  | none => none
  | some g => if (rectOf g).intersects q then some (iter g i st) else some (st, true)

/-- Entry `i` of the index, tg.c:15296-15304. -/
def ixLeaf {σ : Type*} (rectOf : γ → Rect α) (m : Multi α β γ) (q : Rect α) (iter : γ → Nat → σ → σ × Bool) (i : Nat) (st : σ) :
    Option (σ × Bool) :=
  match m.ixgeoms[i]? with
  | none => none
  | some index => seqLeaf rectOf m.geoms q iter index st

/-- `tg_geom_search`, tg.c:15334-15357, with `multi_index_search`, tg.c:15283-15326 (which is the walk of `Model/Series` with other tests). The second
component of the result says whether the loop ran to its end. -/
def geomSearch {σ : Type*} (f : Ix α β) (rectOf : γ → Rect α) (m : Multi α β γ) (q : Rect α) (iter : γ → Nat → σ → σ × Bool) (st : σ) :
    Option (σ × Bool) :=
  if !m.rect.intersects q then some (st, true)
  else match m.index with
    | none => forRange (seqLeaf rectOf m.geoms q iter) 0 m.geoms.length st
    | some ix =>
      walk (fun r => (f.wideRect r).intersects q) (ixLeaf rectOf m q iter) ix.spread m.geoms.length ix.levels 0 st

end Tg.S
