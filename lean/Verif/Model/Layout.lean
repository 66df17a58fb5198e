import Verif.Model.Series
import Verif.Model.Ieee
/-!
The bytes of the blocks that `series_new` and `process_ystripes` allocate: where their parts start, how large they are, and what the memory size functions
report. Sizes are natural numbers; the sizes of the C types are parameters.
-/
namespace Tg.S

/-- The sizes of the types, `sizeof`, and `offsetof(struct tg_ring, points)`. -/
structure Abi where
  index : Nat
  level : Nat
  ixrect : Nat
  ringPoints : Nat
  point : Nat
  ystripes : Nat
  ystripe : Nat
  int : Nat
  ring : Nat
  poly : Nat
  ptr : Nat

/-- The sizes with 64-bit pointers, of the structures at tg.c:585-591, 616-628, 672-677, 1431-1434, 1489-1497, 1568-1578, 1668-1672. -/
def Abi.lp64 : Abi := ⟨16, 16, 16, 80, 16, 16, 16, 4, 80, 32, 8⟩

variable (b : Abi)

/-- `aligned_size`, tg.c:1645-1647. -/
def alignedSize (size : Nat) : Nat := if size % 8 ≠ 0 then size + 8 - size % 8 else size

/-- The loop of `calc_index_size`, tg.c:1659-1662, from `i`, `k` times. -/
def indexSizeLoop (ixspread nsegs inlevels : Nat) : Nat → Nat → Nat → Nat
  | 0, _, size => size
  | k + 1, i, size => indexSizeLoop ixspread nsegs inlevels k (i + 1) (size + numKeys ixspread (inlevels - i) nsegs * b.ixrect)

/-- `calc_index_size`, tg.c:1654-1666. -/
def calcIndexSize (ixspread nsegs : Nat) : Nat :=
  let inlevels := numLevels ixspread nsegs - 1
  alignedSize (indexSizeLoop b ixspread nsegs inlevels inlevels 0 (b.index + inlevels * b.level))

/-- `calc_series_size`, tg.c:2112-2121. -/
def calcSeriesSize (npoints : Nat) : Nat :=
  alignedSize (b.ringPoints + b.point * (if npoints + 1 < 5 then 5 else npoints + 1))

/-- The loop of `fill_index_struct`, tg.c:2135-2140: the number of rectangles and the place of the rectangles of each level, from the start of the index. -/
def fillIndexLoop (ixspread nsegs nlevels : Nat) : Nat → Nat → Nat → List (Nat × Nat)
  | 0, _, _ => []
  | k + 1, i, np =>
    let nkeys := numKeys ixspread (nlevels - i) nsegs
    (nkeys, np) :: fillIndexLoop ixspread nsegs nlevels k (i + 1) (np + nkeys * b.ixrect)

/-- `fill_index_struct`, tg.c:2123-2141, with the `nlevels` of `calc_index_size`. -/
def fillIndexStruct (ixspread nsegs : Nat) : List (Nat × Nat) :=
  let nlevels := numLevels ixspread nsegs - 1
  fillIndexLoop b ixspread nsegs nlevels nlevels 0 (b.index + nlevels * b.level)

section
variable {α β : Type*} [LinearOrder α] [LinearOrder β]

/-- The innermost loop of the first pass of `process_ystripes`, tg.c:1701-1704, from `j`, `k` times: `ycounts[j]++; nmap++`. `none` is an access outside
`ycounts`. -/
def countRange : Nat → Int → List Nat → Nat → Option (List Nat × Nat)
  | 0, _, ycounts, nmap => some (ycounts, nmap)
  | k + 1, j, ycounts, nmap =>
    if j < 0 then none
    else match ycounts[j.toNat]? with
      | none => none
      | some c => countRange k (j + 1) (ycounts.set j.toNat (c + 1)) (nmap + 1)

/-- The first pass of `process_ystripes`, tg.c:1694-1705. `nmap` is an `int` there; here it does not overflow. -/
def countStripes (A : Arith α) (r : Rect α) (n : Nat) : List (Seg α) → List Nat → Nat → Option (List Nat × Nat)
  | [], ycounts, nmap => some (ycounts, nmap)
  | s :: rest, ycounts, nmap =>
    match stripeRange A r n s with
    | none => none
    | some (lo, hi) =>
      match countRange (hi + 1 - lo).toNat lo ycounts nmap with
      | none => none
      | some (ycounts, nmap) => countStripes A r n rest ycounts nmap

/-- The size of the block of the stripes, tg.c:1707-1710. -/
def stripesSize (nstripes nmap : Nat) : Nat := b.ystripes + nstripes * b.ystripe + nmap * b.int

/-- The places of the stripes, tg.c:1719-1724. -/
def stripePlaces : List Nat → Nat → List Nat
  | [], _ => []
  | c :: ycounts, pos => pos :: stripePlaces ycounts (pos + c * b.int)

/-! ### The sizes that are reported -/

/-- What the size functions look at in a ring: where its index is, from its start, and the `memsz` of the index; the `memsz` of the stripes. -/
structure RingMem where
  npoints : Nat
  index : Option (Nat × Nat)
  stripes : Option Nat

/-- The allocations of `series_new` and `process_ystripes` that the ring keeps, tg.c:2148, 2180-2199, 1711-1717, and the fields they leave. -/
def ringBlocks (r : Ring α β) : List Nat × RingMem :=
  let size := calcSeriesSize b r.npoints
  let ixsize := match r.index with
    | none => 0
    | some ix => calcIndexSize b ix.spread r.nsegs
  let stripes := r.ystripes.map fun st => stripesSize b st.length (st.map List.length).sum
  ([size + ixsize] ++ stripes.toList, ⟨r.npoints, if ixsize ≠ 0 then some (size, ixsize) else none, stripes⟩)

end

/-- `ring_alloc_size`, tg.c:2286-2294. -/
def ringAllocSize (m : RingMem) : Nat :=
  match m.index with
  | some (off, memsz) => off + memsz
  | none => calcSeriesSize b m.npoints

/-- `tg_ring_memsize`, `tg_line_memsize`, tg.c:2316-2323, 3672-3675. -/
def ringMemsize (m : RingMem) : Nat := ringAllocSize b m + m.stripes.getD 0

/-- The loop of `tg_poly_memsize`, tg.c:4275-4277. -/
def holesMemsize : List RingMem → Nat → Nat
  | [], size => size
  | m :: ms, size => holesMemsize ms (size + ringMemsize b m)

/-- `tg_poly_memsize` of a polygon that is not just a ring, tg.c:4265-4279. -/
def polyMemsize (exterior : RingMem) (holes : List RingMem) : Nat :=
  holesMemsize b holes (b.poly + ringMemsize b exterior + holes.length * b.ring)

/-- The allocations of `tg_poly_new` itself, tg.c:3765, 3776; the rings are clones. -/
def polyBlocks (nholes : Nat) : List Nat := if nholes > 0 then [b.poly, b.ptr * nholes] else [b.poly]

/-- `calc_num_keys`, tg.c:1635-1637, with doubles: `pow` is the function of the C library, and the conversion to `int` is left out. -/
def Fp.numKeys (F : Fp) (pow : ℚ → ℚ → ℚ) (spread level count : Nat) : Int := ⌈F.div (F.fl count) (pow (F.fl spread) (F.fl level))⌉

end Tg.S
