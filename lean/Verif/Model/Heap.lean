import Verif.Model.Geom
/-!
The heap of reference-counted objects: `struct head`, the constructors, `*_clone`, `*_copy`
and `*_free` (tg.c:547-592, 2143-2310, 3299-3324, 3653-3656, 3754-3828, 4285-4458, 4596-4616,
4660-5118, 5124-5147, 15050-15275).

A heap maps addresses to allocated blocks. Reading, writing or releasing a block that is not
allocated, reading a block as another C type and indexing past the end of an array are `none`.
`fails` says which calls of `tg_malloc` return NULL; the k-th call is identified with the address
it would return, so addresses are never reused.

Simplified:
* the payload of a ring (points, rectangle, area, flags) is its list of points; the payload of a
  block of numbers or text is a list of bytes;
* `tg_malloc` followed by the stores that initialise the block is one step;
* `head.noheap` is false: objects on the stack or given to `tg_geom_setnoheap` are not modelled;
* a counter is an unbounded integer (`int` in C);
* `fill_index_struct`, `process_points` and the Hilbert sort only write inside blocks that are
  modelled by their ownership and their inner pointers (see `Model/Series` for their values).
-/
namespace Tg.Heap

/-- Address of a block. -/
scoped notation "Addr" => Nat
/-- A C pointer: NULL or the start of a block. -/
abbrev Ptr := Option Addr

/-- An allocated block, by C type (tg.c:585-592, 622-634, 672-684, 719-750). -/
inductive Cell where
  /-- `struct tg_ring`, `closed` tells BASE_RING from BASE_LINE. `index` is the block that
  `ring->index` points into; the index itself is at the end of the block of the ring
  (tg.c:2188-2199). -/
  | series (rc : Int) (closed : Bool) (index : Ptr) (stripes : Ptr) (pts : List Pt)
  /-- `struct boxed_point` -/
  | bpoint (rc : Int) (p : Pt)
  /-- `struct tg_poly` -/
  | poly (rc : Int) (exterior : Ptr) (nholes : Nat) (holes : Ptr)
  /-- `struct tg_geom`. `child` is the union of `line`, `poly` and `multi`; `p`, `z` and `m` are
  the other side of the unions, for TG_POINT; `error` is `xjson` or `error`. -/
  | geom (rc : Int) (type : GType) (fl : Flags) (child : Ptr) (coords : Ptr) (error : Ptr)
      (p : Pt) (z m : F64)
  /-- `struct multi` without its rectangle -/
  | multi (geoms : Ptr) (ngeoms : Nat) (index : Ptr) (ixgeoms : Ptr)
  /-- `struct tg_ring *holes[]` -/
  | rings (l : List Ptr)
  /-- `struct tg_geom *geoms[]` -/
  | geoms (l : List Ptr)
  /-- a block without owning pointers: ystripes, the index of a collection, ixgeoms, coords,
  xjson. `inner` is the block that the pointers inside it (`levels[i].rects`,
  `stripes[i].indexes`, tg.c:1431-1434, 1567-1578) point into. -/
  | block (inner : Ptr) (data : List Byte)
deriving DecidableEq

structure Heap where
  cells : Addr → Option Cell
  next : Nat
  fails : Nat → Bool

/-- A heap in which nothing is allocated. -/
def Heap.init (fails : Nat → Bool) : Heap := ⟨fun _ => none, 0, fails⟩

def Heap.set (h : Heap) (a : Addr) (c : Option Cell) : Heap :=
  { h with cells := fun b => if b = a then c else h.cells b }

/-- A computation on the heap; `none` is undefined behaviour. -/
def M (α : Type) := Heap → Option (α × Heap)

instance : Monad M where
  pure a := fun h => some (a, h)
  bind m f := fun h => match m h with
    | none => none
    | some (a, h') => f a h'

def fault {α : Type} : M α := fun _ => none

/-- `tg_malloc` and the initialisation of the block; NULL when the call fails. -/
def malloc (c : Cell) : M Ptr := fun h =>
  if h.fails h.next then some (none, { h with next := h.next + 1 })
  else some (some h.next, { h.set h.next (some c) with next := h.next + 1 })

/-- A read through a pointer. -/
def load (a : Addr) : M Cell := fun h => (h.cells a).map (·, h)

/-- A write through a pointer. -/
def store (a : Addr) (c : Cell) : M Unit := fun h =>
  match h.cells a with
  | none => none
  | some _ => some ((), h.set a (some c))

/-- `tg_free` of an allocated block. -/
def release (a : Addr) : M Unit := fun h =>
  match h.cells a with
  | none => none
  | some _ => some ((), h.set a none)

/-- `if (p) tg_free(p)` -/
def releaseOpt : Ptr → M Unit
  | none => pure ()
  | some a => release a

/-- `head.rc` of the types that start with a `struct head`. -/
def Cell.rc : Cell → Option Int
  | .series rc .. | .bpoint rc _ | .poly rc .. | .geom rc .. => some rc
  | _ => none

/-- The block with another `head.rc`. -/
def Cell.withRc (k : Int) : Cell → Cell
  | .series _ cl ix st pts => .series k cl ix st pts
  | .bpoint _ p => .bpoint k p
  | .poly _ e n hs => .poly k e n hs
  | .geom _ t fl c co er p z m => .geom k t fl c co er p z m
  | c => c

/-- `rc_retain`, tg.c:572-574. -/
def rcRetain (a : Addr) : M Unit := do
  let c ← load a
  match c.rc with
  | none => fault
  | some k => store a (c.withRc (k + 1))

/-- `rc_release`, tg.c:575-581: `fetch_sub` returns the old value; true when it was 1. -/
def rcRelease (a : Addr) : M Bool := do
  let c ← load a
  match c.rc with
  | none => fault
  | some k => do
    store a (c.withRc (k - 1))
    pure (k == 1)

/-- `tg_ring_clone`, `tg_line_clone`, `tg_poly_clone` and `tg_geom_clone` (tg.c:2303-2310,
3653-3656, 3820-3828, 5071-5078) on objects of the heap: the same code for each type. -/
def clone : Ptr → M Ptr
  | none => pure none
  | some a => do
    rcRetain a
    pure (some a)

/-- The rest of `tg_ring_free` once the last reference is gone, tg.c:2282-2283. -/
def ringDrop (a : Addr) : M Unit := do
  match ← load a with
  | .series _ _ _ st _ => do
    releaseOpt st
    release a
  | _ => fault

/-- `tg_ring_free` tg.c:2280-2284, and `tg_line_free` tg.c:3321-3324. -/
def ringFree : Ptr → M Unit
  | none => pure ()
  | some a => do
    if ← rcRelease a then ringDrop a else pure ()

/-- The loop over the holes in `tg_poly_free`, tg.c:3804-3806. -/
def freeHoles (h : Addr) : Nat → Nat → M Unit
  | _, 0 => pure ()
  | i, n + 1 => do
    match ← load h with
    | .rings l =>
      match l[i]? with
      | none => fault
      | some p => do
        ringFree p
        freeHoles h (i + 1) n
    | _ => fault

/-- `if (poly->holes) { ... }` in `tg_poly_free`, tg.c:3803-3808. -/
def dropHoles : Ptr → Nat → M Unit
  | none, _ => pure ()
  | some h, n => do
    freeHoles h 0 n
    release h

/-- The rest of `tg_poly_free` once the last reference is gone, tg.c:3802-3809. -/
def polyDrop (a : Addr) : M Unit := do
  match ← load a with
  | .poly _ ext n holes => do
    ringFree ext
    dropHoles holes n
    release a
  | _ => fault

/-- `tg_poly_free`, tg.c:3795-3810. -/
def polyFree : Ptr → M Unit
  | none => pure ()
  | some a => do
    match ← load a with
    | .series _ true _ _ _ => ringFree (some a)
    | .poly .. => do
      if ← rcRelease a then polyDrop a else pure ()
    | _ => fault

/-- `boxed_point_free`, tg.c:4321-4324. -/
def bpointFree (a : Addr) : M Unit := do
  if ← rcRelease a then release a else pure ()

/-- `TG_MULTIPOINT`, `TG_MULTILINESTRING`, `TG_MULTIPOLYGON` or `TG_GEOMETRYCOLLECTION` -/
def isMulti : GType → Bool
  | .point | .linestring | .polygon => false
  | _ => true

/-- The loop over the children in `geom_free`, tg.c:5097-5099; `free` is `tg_geom_free`. -/
def freeGeoms (free : Ptr → M Unit) (g : Addr) : Nat → Nat → M Unit
  | _, 0 => pure ()
  | i, n + 1 => do
    match ← load g with
    | .geoms l =>
      match l[i]? with
      | none => fault
      | some p => do
        free p
        freeGeoms free g (i + 1) n
    | _ => fault

/-- `if (geom->multi->geoms) { ... }` in `geom_free`, tg.c:5096-5101. -/
def dropGeoms (free : Ptr → M Unit) : Ptr → Nat → M Unit
  | none, _ => pure ()
  | some g, n => do
    freeGeoms free g 0 n
    release g

/-- The four last cases of the switch in `geom_free`, tg.c:5094-5110. -/
def multiDrop (free : Ptr → M Unit) : Ptr → M Unit
  | none => pure ()
  | some m => do
    match ← load m with
    | .multi geoms n ix ixg => do
      dropGeoms free geoms n
      releaseOpt ix
      releaseOpt ixg
      release m
    | _ => fault

/-- The switch in `geom_free`, tg.c:5082-5110. -/
def childDrop (free : Ptr → M Unit) (ty : GType) (child : Ptr) : M Unit :=
  match ty with
  | .point => pure ()
  | .linestring => ringFree child
  | .polygon => polyFree child
  | _ => multiDrop free child

/-- `if (geom->head.type != TG_POINT && geom->coords) tg_free(geom->coords)`, tg.c:5111-5113. -/
def dropCoords (ty : GType) (coords : Ptr) : M Unit :=
  if ty = .point then pure () else releaseOpt coords

/-- The rest of `geom_free` (tg.c:5080-5118) once the last reference is gone. -/
def geomDrop (free : Ptr → M Unit) (a : Addr) : M Unit := do
  match ← load a with
  | .geom _ ty _ child coords error _ _ _ => do
    childDrop free ty child
    dropCoords ty coords
    releaseOpt error
    release a
  | _ => fault

/-- `tg_geom_free`, tg.c:5126-5147. `fuel` bounds the depth of the recursion. -/
def geomFree : Nat → Ptr → M Unit
  | _, none => pure ()
  | 0, some _ => fault
  | fuel + 1, some a => do
    match ← load a with
    | .geom .. => do
      if ← rcRelease a then geomDrop (geomFree fuel) a else pure ()
    | .bpoint .. => bpointFree a
    | .series .. => ringFree (some a)
    | .poly .. => polyFree (some a)
    | _ => fault

/-- `tg_geom_free`. A path through the heap is not longer than the number of allocations, so the
bound on the depth is never reached (`Lemmas/Heap`). -/
def tgGeomFree (p : Ptr) : M Unit := fun h => geomFree (h.next + 1) p h

/-- `process_ystripes` as far as memory goes (tg.c:1679-1741): a temporary `ycounts`, then the
stripes, whose `indexes` point into the same block. -/
def processYstripes (a : Addr) : M Bool := do
  match ← malloc (.block none []) with
  | none => pure false
  | some t => do
    match ← malloc (.block none []) with
    | none => do
      release t
      pure false
    | some s => do
      store s (.block (some s) [])
      release t
      match ← load a with
      | .series rc cl ix _ pts => do
        store a (.series rc cl ix (some s) pts)
        pure true
      | _ => fault

/-- `if (ixsize) { ring->index = ...; }`, tg.c:2193-2198: the index is in the block of the ring. -/
def setIndex (a : Addr) (closed indexed : Bool) (pts : List Pt) : M Unit :=
  if indexed then store a (.series 1 closed (some a) none pts) else pure ()

/-- `series_new`, tg.c:2143-2221: `indexed` and `stripes` are the decisions of tg.c:2155-2184
(see `Model/Series`). -/
def seriesNew (pts : List Pt) (closed indexed stripes : Bool) : M Ptr := do
  match ← malloc (.series 1 closed none none pts) with
  | none => pure none
  | some a => do
    setIndex a closed indexed pts
    if stripes then do
      if ← processYstripes a then pure (some a)
      else do
        ringFree (some a)
        pure none
    else pure (some a)

/-- `poly->holes[i] = p`, tg.c:3786. -/
def setRing (h : Addr) (i : Nat) (p : Ptr) : M Unit := do
  match ← load h with
  | .rings l => if i < l.length then store h (.rings (l.set i p)) else fault
  | _ => fault

/-- `geom->multi->geoms[i] = p`. -/
def setGeom (g : Addr) (i : Nat) (p : Ptr) : M Unit := do
  match ← load g with
  | .geoms l => if i < l.length then store g (.geoms (l.set i p)) else fault
  | _ => fault

/-- The loop of `tg_poly_new`, tg.c:3785-3787. -/
def cloneHoles (h : Addr) : Nat → List Ptr → M Unit
  | _, [] => pure ()
  | i, p :: ps => do
    let q ← clone p
    setRing h i q
    cloneHoles h (i + 1) ps

/-- `tg_poly_new`, tg.c:3754-3790. `holes` are the entries of the array, none for a negative
`nholes`. -/
def polyNew (exterior : Ptr) (holes : List Ptr) (nholes : Int) : M Ptr := do
  match exterior with
  | none => pure none
  | some e => do
    if nholes = 0 then clone (some e)
    else do
      match ← malloc (.poly 1 none 0 none) with
      | none => pure none
      | some a => do
        let q ← clone (some e)
        store a (.poly 1 q 0 none)
        if 0 < nholes then do
          match ← malloc (.rings (List.replicate nholes.toNat none)) with
          | none => do
            polyFree (some a)
            pure none
          | some hp => do
            store a (.poly 1 q nholes.toNat (some hp))
            cloneHoles hp 0 holes
            pure (some a)
        else pure (some a)

/-- A `struct tg_geom` as `geom_new` leaves it, tg.c:4284-4293. -/
def geomCell (ty : GType) (fl : Flags) (child coords : Ptr) : Cell :=
  .geom 1 ty fl child coords none ⟨default, default⟩ default default

/-- `geom_new`, tg.c:4285-4294, with the flags that the constructors set next; `geom_new_empty`
(tg.c:4295-4300) is the case of IS_EMPTY. -/
def geomNew (ty : GType) (fl : Flags) : M Ptr := malloc (geomCell ty fl none none)

/-- `tg_geom_new_point`, tg.c:4309-4319. -/
def pointNew (p : Pt) : M Ptr := malloc (.bpoint 1 p)

/-- `tg_geom_new_point_z`, `_m`, `_zm`, tg.c:4332-4372. -/
def pointNewZm (fl : Flags) (p : Pt) (z m : F64) : M Ptr :=
  malloc (.geom 1 .point fl none none none p z m)

/-- `fill_extra_coords`, tg.c:4768-4786. -/
def fillExtra (a : Addr) (coords : List Byte) (fl : Flags) : M Ptr := do
  match ← load a with
  | .geom rc ty _ child _ er p z m => do
    store a (.geom rc ty fl child none er p z m)
    if coords = [] then pure (some a)
    else do
      match ← malloc (.block none coords) with
      | none => do
        tgGeomFree (some a)
        pure none
      | some b => do
        store a (.geom rc ty fl child (some b) er p z m)
        pure (some a)
  | _ => fault

/-- `tg_geom_new_linestring_z`, `_m`, `_zm` and `tg_geom_new_polygon_z`, `_m`, `_zm`,
tg.c:4797-4896: `ty` is TG_LINESTRING or TG_POLYGON and `child` the line or polygon. -/
def singleNew (ty : GType) (child : Ptr) (coords : List Byte) (fl : Flags) : M Ptr := do
  match ← geomNew ty {} with
  | none => pure none
  | some a => do
    let q ← clone child
    store a (geomCell ty {} q none)
    fillExtra a coords fl

/-- `geom_new_multi`, tg.c:4420-4457; `geom_new_multi` is given `ngeoms < 0 ? 0 : ngeoms`. The
index of the collection has its `levels[i].rects` in its own block (tg.c:2134-2139). -/
def newMulti (ty : GType) (n : Nat) : M Ptr := do
  match ← geomNew ty {} with
  | none => pure none
  | some a => do
    match ← malloc (.multi none 0 none none) with
    | none => do
      release a
      pure none
    | some m => do
      store a (geomCell ty {} (some m) none)
      match ← malloc (.geoms (List.replicate n none)) with
      | none => do
        release m
        release a
        pure none
      | some g => do
        store m (.multi (some g) n none none)
        if 64 ≤ n then do
          let ix ← malloc (.block none [])
          let ixg ← malloc (.block none [])
          match ix, ixg with
          | some i, some j => do
            store m (.multi (some g) n (some i) (some j))
            store i (.block (some i) [])
            pure (some a)
          | _, _ => do
            releaseOpt ix
            releaseOpt ixg
            release g
            release m
            release a
            pure none
        else pure (some a)

/-- The reads of `tg_ring_rect`, tg.c:2339-2342. -/
def ringRect : Ptr → M Unit
  | none => pure ()
  | some a => do
    match ← load a with
    | .series .. => pure ()
    | _ => fault

/-- The reads of `tg_poly_rect`, tg.c:3835-3842, 3880-3882. -/
def polyRect : Ptr → M Unit
  | none => pure ()
  | some a => do
    match ← load a with
    | .series _ true _ _ _ => pure ()
    | .poly _ ext _ _ => ringRect ext
    | _ => fault

/-- The reads of `tg_geom_rect` and `geom_rect`, tg.c:5175-5217. -/
def geomRect : Ptr → M Unit
  | none => pure ()
  | some a => do
    match ← load a with
    | .bpoint .. => pure ()
    | .series .. => pure ()
    | .poly .. => polyRect (some a)
    | .geom _ ty _ child _ _ _ _ _ =>
      match ty with
      | .point => pure ()
      | .linestring => ringRect child
      | .polygon => polyRect child
      | _ =>
        match child with
        | none => pure ()
        | some m => do
          match ← load m with
          | .multi .. => pure ()
          | _ => fault
    | _ => fault

/-- The loop over the children that reads their rectangles, tg.c:4602-4605 (and 4538-4542,
4551-4566, in another order). -/
def readRects : List Ptr → M Unit
  | [] => pure ()
  | p :: ps => do
    geomRect p
    readRects ps

/-- `multi_geom_inflate_rect` with the temporary of `multi_geom_inflate_index`,
tg.c:4528-4550, 4596-4616. -/
def inflateRect (a : Addr) : M Ptr := do
  match ← load a with
  | .geom _ _ _ (some m) _ _ _ _ _ => do
    match ← load m with
    | .multi (some g) n ix _ => do
      if n = 0 then pure (some a)
      else do
        match ← load g with
        | .geoms l => do
          readRects l
          match ix with
          | none => pure (some a)
          | some _ => do
            match ← malloc (.block none []) with
            | none => do
              tgGeomFree (some a)
              pure none
            | some t => do
              readRects l
              release t
              pure (some a)
        | _ => fault
    | _ => fault
  | _ => fault

/-- The array `geom->multi->geoms` of a collection that was just made. -/
def geomsOf (a : Addr) : M Addr := do
  match ← load a with
  | .geom _ _ _ (some m) _ _ _ _ _ => do
    match ← load m with
    | .multi (some g) _ _ _ => pure g
    | _ => fault
  | _ => fault

/-- The loop of `tg_geom_new_multipoint`, tg.c:4668-4674: false when an allocation failed. -/
def fillPoints (g : Addr) : Nat → List Pt → M Bool
  | _, [] => pure true
  | i, p :: ps => do
    let q ← pointNew p
    setGeom g i q
    match q with
    | none => pure false
    | some _ => fillPoints g (i + 1) ps

/-- `tg_geom_new_multipoint`, tg.c:4663-4676. -/
def multipointNew (pts : List Pt) : M Ptr := do
  match ← newMulti .multipoint pts.length with
  | none => pure none
  | some a => do
    let g ← geomsOf a
    if ← fillPoints g 0 pts then inflateRect a
    else do
      tgGeomFree (some a)
      pure none

/-- The loops of `tg_geom_new_multilinestring`, `tg_geom_new_multipolygon` and
`tg_geom_new_geometrycollection`, tg.c:4699-4701, 4726-4728, 4753-4755. -/
def cloneGeoms (g : Addr) : Nat → List Ptr → M Unit
  | _, [] => pure ()
  | i, p :: ps => do
    let q ← clone p
    setGeom g i q
    cloneGeoms g (i + 1) ps

/-- `tg_geom_new_multilinestring`, `tg_geom_new_multipolygon`, `tg_geom_new_geometrycollection`,
tg.c:4693-4703, 4720-4730, 4747-4757. -/
def multiNew (ty : GType) (children : List Ptr) : M Ptr := do
  match ← newMulti ty children.length with
  | none => pure none
  | some a => do
    let g ← geomsOf a
    cloneGeoms g 0 children
    inflateRect a

/-- The `_z`, `_m` and `_zm` constructors of collections, tg.c:4900-5062: the plain constructor
and then `fill_extra_coords`. -/
def withExtra (m : M Ptr) (coords : List Byte) (fl : Flags) : M Ptr := do
  match ← m with
  | none => pure none
  | some a => fillExtra a coords fl

/-- `tg_ring_copy` tg.c:15057-15080, and `tg_line_copy` tg.c:15089-15091. The bytes are copied,
so `ring2->index` and the pointers inside the stripes are those of the original. -/
def ringCopy : Ptr → M Ptr
  | none => pure none
  | some a => do
    match ← load a with
    | .series _ cl ix st pts => do
      match ← malloc (.series 1 cl ix none pts) with
      | none => pure none
      | some b =>
        match st with
        | none => pure (some b)
        | some s => do
          match ← load s with
          | .block inner d => do
            match ← malloc (.block inner d) with
            | none => do
              release b
              pure none
            | some t => do
              store b (.series 1 cl ix (some t) pts)
              pure (some b)
          | _ => fault
    | _ => fault

/-- The loop over the holes in `tg_poly_copy`, tg.c:15126-15131: false when a copy is NULL. -/
def copyHoles (src dst : Addr) : Nat → Nat → M Bool
  | _, 0 => pure true
  | i, n + 1 => do
    match ← load src with
    | .rings l =>
      match l[i]? with
      | none => fault
      | some p => do
        let q ← ringCopy p
        setRing dst i q
        match q with
        | none => pure false
        | some _ => copyHoles src dst (i + 1) n
    | _ => fault

/-- `tg_poly_copy`, tg.c:15099-15137. -/
def polyCopy : Ptr → M Ptr
  | none => pure none
  | some a => do
    match ← load a with
    | .series _ true _ _ _ => ringCopy (some a)
    | .poly _ ext n holes => do
      match ← malloc (.poly 1 none 0 none) with
      | none => pure none
      | some b => do
        let q ← ringCopy ext
        store b (.poly 1 q 0 none)
        match q with
        | none => do
          polyFree (some b)
          pure none
        | some _ =>
          if 0 < n then do
            match ← malloc (.rings (List.replicate n none)) with
            | none => do
              polyFree (some b)
              pure none
            | some hp => do
              store b (.poly 1 q n (some hp))
              match holes with
              | none => fault
              | some src => do
                if ← copyHoles src hp 0 n then pure (some b)
                else do
                  polyFree (some b)
                  pure none
          else pure (some b)
    | _ => fault

/-- `boxed_point_copy`, tg.c:15238-15248. -/
def bpointCopy (a : Addr) : M Ptr := do
  match ← load a with
  | .bpoint _ p => malloc (.bpoint 1 p)
  | _ => fault

/-- Copy of a block of numbers or text, as tg.c:15190-15205, 15210-15231; the third
component is false when the allocation failed. -/
def blockCopy : Ptr → M (Ptr × Bool)
  | none => pure (none, true)
  | some s => do
    match ← load s with
    | .block inner d => do
      match ← malloc (.block inner d) with
      | none => pure (none, false)
      | some t => pure (some t, true)
    | _ => fault

/-- `fail: tg_geom_free(geom2); return NULL`, tg.c:15233-15235. -/
def copyFail (b : Addr) : M Ptr := do
  tgGeomFree (some b)
  pure none

/-- `if (geom->head.type != TG_POINT && geom->coords) { ... }` in `geom_copy`,
tg.c:15210-15219. -/
def coordsCopy (ty : GType) (coords : Ptr) : M (Ptr × Bool) :=
  if ty = .point then pure (none, true) else blockCopy coords

/-- The end of `geom_copy`, tg.c:15210-15232: coords and error, into the copy `b`. -/
def copyTail (ty : GType) (fl : Flags) (child coords error : Ptr) (p : Pt) (z m : F64)
    (b : Addr) : M Ptr := do
  let (co, ok) ← coordsCopy ty coords
  store b (.geom 1 ty fl child co none p z m)
  if !ok then copyFail b
  else do
    let (er, ok) ← blockCopy error
    store b (.geom 1 ty fl child co er p z m)
    if !ok then copyFail b else pure (some b)

/-- The loop over the children in `geom_copy`, tg.c:15181-15187; false when a copy is NULL. -/
def copyGeoms (copy : Ptr → M Ptr) (g g2 : Addr) : Nat → Nat → M Bool
  | _, 0 => pure true
  | i, n + 1 => do
    match ← load g with
    | .geoms l =>
      match l[i]? with
      | none => fault
      | some p => do
        let q ← copy p
        setGeom g2 i q
        match q with
        | none => pure false
        | some _ => copyGeoms copy g g2 (i + 1) n
    | _ => fault

/-- The part of `geom_copy` that copies `multi->geoms`, tg.c:15174-15188; gives the new array
and its length, and false on `goto fail`. -/
def copyArray (copy : Ptr → M Ptr) (geoms : Ptr) (n : Nat) (mu2 : Addr) : M (Ptr × Nat × Bool) :=
  match geoms with
  | none => pure (none, 0, true)
  | some g => do
    match ← malloc (.geoms (List.replicate n none)) with
    | none => pure (none, 0, false)
    | some g2 => do
      store mu2 (.multi (some g2) n none none)
      let ok ← copyGeoms copy g g2 0 n
      pure (some g2, n, ok)

/-- The part of `geom_copy` that fills `geom2->multi`, tg.c:15172-15205; false on `goto fail`. -/
def copyMulti (copy : Ptr → M Ptr) (geoms : Ptr) (n : Nat) (ix ixg : Ptr) (mu2 : Addr) :
    M Bool := do
  let (g2, n2, ok) ← copyArray copy geoms n mu2
  if !ok then pure false
  else do
    let (i2, ok) ← blockCopy ix
    store mu2 (.multi g2 n2 i2 none)
    if !ok then pure false
    else do
      let (j2, ok) ← blockCopy ixg
      store mu2 (.multi g2 n2 i2 j2)
      pure ok

/-- The four last cases of the switch in `geom_copy`, tg.c:15162-15207: the new `multi`, and
false on `goto fail`. -/
def copyChildMulti (copy : Ptr → M Ptr) (ty : GType) (fl : Flags) (p : Pt) (z m : F64)
    (child : Ptr) (b : Addr) : M (Ptr × Bool) :=
  match child with
  | none => pure (none, true)
  | some mu => do
    match ← load mu with
    | .multi geoms n ix ixg => do
      match ← malloc (.multi none 0 none none) with
      | none => pure (none, false)
      | some mu2 => do
        store b (.geom 1 ty fl (some mu2) none none p z m)
        let ok ← copyMulti copy geoms n ix ixg mu2
        pure (some mu2, ok)
    | _ => fault

/-- The switch in `geom_copy`, tg.c:15149-15209: the child of the copy, stored in `b`, and false
on `goto fail`. -/
def copyChild (copy : Ptr → M Ptr) (ty : GType) (fl : Flags) (p : Pt) (z m : F64)
    (child : Ptr) (b : Addr) : M (Ptr × Bool) :=
  match ty with
  | .point => pure (none, true)
  | .linestring => do
    let q ← ringCopy child
    store b (.geom 1 ty fl q none none p z m)
    pure (q, q.isSome)
  | .polygon => do
    let q ← polyCopy child
    store b (.geom 1 ty fl q none none p z m)
    pure (q, q.isSome)
  | _ => copyChildMulti copy ty fl p z m child b

/-- `geom_copy`, tg.c:15139-15236. -/
def geomCopyGeom (copy : Ptr → M Ptr) (a : Addr) : M Ptr := do
  match ← load a with
  | .geom _ ty fl child coords error p z m => do
    match ← malloc (.geom 1 ty fl none none none p z m) with
    | none => pure none
    | some b => do
      let (q, ok) ← copyChild copy ty fl p z m child b
      if !ok then copyFail b else copyTail ty fl q coords error p z m b
  | _ => fault

/-- `tg_geom_copy`, tg.c:15257-15273. `fuel` bounds the depth of the recursion. -/
def geomCopy : Nat → Ptr → M Ptr
  | _, none => pure none
  | 0, some _ => fault
  | fuel + 1, some a => do
    match ← load a with
    | .geom .. => geomCopyGeom (geomCopy fuel) a
    | .bpoint .. => bpointCopy a
    | .series .. => ringCopy (some a)
    | .poly .. => polyCopy (some a)
    | _ => fault

/-- `tg_geom_copy`, with the same bound on the depth as `tgGeomFree`. -/
def tgGeomCopy (p : Ptr) : M Ptr := fun h => geomCopy (h.next + 1) p h

end Tg.Heap
