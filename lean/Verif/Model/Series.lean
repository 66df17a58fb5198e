import Mathlib.Order.Lattice
import Mathlib.Order.Defs.LinearOrder
import Mathlib.Order.MinMax
import Verif.Model.Bytes
/-!
Rings and lines (`struct tg_ring`), their bounding rectangle, the natural index and the Y-stripes:
tg.c:1484-2221, and the searches tg.c:2380-2795.

Coordinates are elements of an arbitrary linear order `α`: the values of non-NaN doubles, with -0 and +0 identified. On these
`fmin0`/`fmax0` (tg.c:771-821) are `min`/`max`. All arithmetic is opaque (`Arith`): the results hold for any
floating point arithmetic. Index rectangles have elements of another linear order `β` (32-bit floats, or doubles with TG_IXFLOAT64); the
conversions are opaque too (`Ix`). Sizes are natural numbers: `int` overflow of point counts is not modelled here.
-/
namespace Tg.S

/-- `struct tg_point` -/
@[ext] structure Pt (α : Type*) where
  x : α
  y : α
deriving DecidableEq, Repr

/-- `struct tg_segment` -/
@[ext] structure Seg (α : Type*) where
  a : Pt α
  b : Pt α
deriving DecidableEq, Repr

/-- `struct tg_rect` and `struct ixrect`: `lo` is `min`, `hi` is `max`. -/
@[ext] structure Rect (α : Type*) where
  lo : Pt α
  hi : Pt α
deriving DecidableEq, Repr

variable {α β : Type*} [LinearOrder α] [LinearOrder β]

/-! ### Points, segments, rectangles -/

/-- `feq`, tg.c:828-830. -/
def feq (x y : α) : Bool := !(decide (x < y) || decide (x > y))

/-- `pteq`, tg.c:1051-1053. -/
def pteq (a b : Pt α) : Bool := feq a.x b.x && feq a.y b.y

/-- `segment_fill_rect`, tg.c:1285-1292. -/
def Seg.rect (s : Seg α) : Rect α :=
  ⟨⟨min s.a.x s.b.x, min s.a.y s.b.y⟩, ⟨max s.a.x s.b.x, max s.a.y s.b.y⟩⟩

/-- `rect_intersects_rect` / `tg_rect_intersects_rect`, tg.c:1302-1312. -/
def Rect.intersects (a b : Rect α) : Bool :=
  !(decide (b.lo.x > a.hi.x) || decide (b.hi.x < a.lo.x) || decide (b.lo.y > a.hi.y) || decide (b.hi.y < a.lo.y))

/-- `tg_rect_covers_rect`, tg.c:1314-1317. -/
def Rect.covers (a b : Rect α) : Bool :=
  !(decide (b.lo.x < a.lo.x) || decide (b.hi.x > a.hi.x) || decide (b.lo.y < a.lo.y) || decide (b.hi.y > a.hi.y))

/-- `tg_rect_covers_xy`, `tg_rect_covers_point`, `tg_rect_intersects_point`, tg.c:1751-1766. -/
def Rect.coversPt (r : Rect α) (p : Pt α) : Bool :=
  !(decide (p.x < r.lo.x) || decide (p.y < r.lo.y) || decide (p.x > r.hi.x) || decide (p.y > r.hi.y))

/-- `rect_inflate` / `tg_rect_expand` / `ixrect_expand`, tg.c:1777-1782, 1796-1799, 1499-1504, 1551-1556. -/
def Rect.inflate (r o : Rect α) : Rect α :=
  ⟨⟨min r.lo.x o.lo.x, min r.lo.y o.lo.y⟩, ⟨max r.hi.x o.hi.x, max r.hi.y o.hi.y⟩⟩

/-- `rect_inflate_point` / `tg_rect_expand_point`, tg.c:1784-1789, 1806-1810. -/
def Rect.inflatePt (r : Rect α) (p : Pt α) : Rect α :=
  ⟨⟨min r.lo.x p.x, min r.lo.y p.y⟩, ⟨max r.hi.x p.x, max r.hi.y p.y⟩⟩

/-- `tg_point_rect`, tg.c:1057-1059. -/
def Pt.rect (p : Pt α) : Rect α := ⟨p, p⟩

/-- `ixrect_intersects_ixrect`, tg.c:1597-1603. -/
def ixIntersects (a b : Rect β) : Bool :=
  if a.lo.y > b.hi.y || a.hi.y < b.lo.y then false
  else if a.lo.x > b.hi.x || a.hi.x < b.lo.x then false
  else true

/-! ### Conversion to index coordinates -/

/-- The conversions between coordinates and index coordinates: `fdown`, `fup` followed by the conversion to float
(tg.c:1506-1535; the identity with TG_IXFLOAT64, 1557-1564), the plain conversion (tg.c:1580-1585) and the conversion back (tg.c:1588-1595). -/
structure Ix (α β : Type*) where
  down : α → β
  up : α → β
  near : α → β
  wide : β → α

/-- `tg_rect_to_ixrect`, tg.c:1528-1535. -/
def Ix.rect (f : Ix α β) (r : Rect α) : Rect β :=
  ⟨⟨f.down r.lo.x, f.down r.lo.y⟩, ⟨f.up r.hi.x, f.up r.hi.y⟩⟩

/-- `tg_point_to_ixpoint`, tg.c:1580-1585. -/
def Ix.pt (f : Ix α β) (p : Pt α) : Pt β := ⟨f.near p.x, f.near p.y⟩

/-- `ixrect_to_tg_rect`, tg.c:1588-1595. -/
def Ix.wideRect (f : Ix α β) (r : Rect β) : Rect α :=
  ⟨⟨f.wide r.lo.x, f.wide r.lo.y⟩, ⟨f.wide r.hi.x, f.wide r.hi.y⟩⟩

/-! ### The natural index -/

/-- `calc_num_keys`, tg.c:1635-1637: `ceil(count / spread^level)`. The C code computes it in doubles, which is exact
for the sizes that an `int` can hold. -/
def numKeys (spread level count : Nat) : Nat := (count + (spread ^ level - 1)) / spread ^ level

/-- The loop of `calc_num_levels`, tg.c:1639-1643, with a bound on the number of iterations. -/
def numLevelsLoop (spread count : Nat) : Nat → Nat → Nat
  | 0, level => level
  | fuel + 1, level => if numKeys spread level count > 1 then numLevelsLoop spread count fuel (level + 1) else level

/-- `calc_num_levels`, tg.c:1639-1643. -/
def numLevels (spread count : Nat) : Nat := numLevelsLoop spread count count 1

/-- `struct index`, tg.c:1573-1578: the levels start with the root. -/
structure Index (β : Type*) where
  spread : Nat
  levels : List (List (Rect β))
deriving Repr

/-- State of the indexed loop of `process_points`: `rect`, `spreadrect`, `j`, and the bottom level so far (its length is
`r`). -/
structure PState (α β : Type*) where
  rect : Rect α
  spread : Rect α
  j : Nat
  leaves : List (Rect β)

/-- `inflate_mbr_and_copy_next_index_rect`, tg.c:1937-1943. `nrects` is the size of the bottom level: a store past it is
`none`. -/
def PState.flush (f : Ix α β) (nrects : Nat) (s : PState α β) : Option (PState α β) :=
  if s.leaves.length < nrects then
    some { s with rect := s.rect.inflate s.spread, leaves := s.leaves ++ [f.rect s.spread] }
  else none

/-- `step_inflate_rect_with_index`, tg.c:1946-1956. -/
def PState.step (f : Ix α β) (ixspread nrects : Nat) (a b : Pt α) (s : PState α β) : Option (PState α β) :=
  let s := { s with spread := s.spread.inflatePt a, j := s.j + 1 }
  if s.j = ixspread then
    match PState.flush f nrects { s with spread := s.spread.inflatePt b } with
    | none => none
    | some s => some { s with spread := b.rect, j := 0 }
  else some s

/-- The indexed loops of `process_points`, tg.c:2027-2044, 2065-2080. The next point `b` is `points[0]` after the last one. The four copies of the
loop differ in unrolling and in the convexity test only, see `Model/Orient`. -/
def PState.loop (f : Ix α β) (ixspread nrects : Nat) (p0 : Pt α) : List (Pt α) → PState α β → Option (PState α β)
  | [], s => some s
  | a :: rest, s =>
    match PState.step f ixspread nrects a (rest.headD p0) s with
    | none => none
    | some s => PState.loop f ixspread nrects p0 rest s

/-- The body of the loop over a level of `fill_in_upper_index_levels`, tg.c:1866-1875; `none` if it reads outside
the level below. -/
def parentRect (ixspread : Nat) (below : List (Rect β)) (i : Nat) : Option (Rect β) :=
  match (below.drop (i * ixspread)).take ixspread with
  | [] => none
  | r :: rs => some (rs.foldl Rect.inflate r)

/-- `fill_in_upper_index_levels`, tg.c:1861-1877: from the bottom level up; the sizes of the levels above are given. The
result starts with the root. -/
def fillUpper (ixspread : Nat) : List Nat → List (Rect β) → Option (List (List (Rect β)))
  | [], below => some [below]
  | n :: ns, below =>
    match (List.range n).mapM (parentRect ixspread below) with
    | none => none
    | some level =>
      match fillUpper ixspread ns level with
      | none => none
      | some ls => some (ls ++ [below])

/-- The sizes of the levels above the bottom one, `fill_index_struct`, tg.c:2123-2141: level `k` counted from the bottom has
`calc_num_keys(spread, k, nsegs)` rectangles. -/
def upperSizes (ixspread nsegs nlevels : Nat) : List Nat :=
  (List.range (nlevels - 1)).map fun k => numKeys ixspread (k + 2) nsegs

/-- `process_points` with an index, tg.c:1885-2099 (rectangle and index only). -/
def processIndexed (f : Ix α β) (ixspread nsegs : Nat) (p0 : Pt α) (pts : List (Pt α)) : Option (Rect α × Index β) :=
  let nlevels := numLevels ixspread nsegs - 1
  let nrects := numKeys ixspread 1 nsegs
  match PState.loop f ixspread nrects p0 pts ⟨p0.rect, p0.rect, 0, []⟩ with
  | none => none
  | some s =>
    match (if s.leaves.length ≠ nrects then PState.flush f nrects s else some s) with
    | none => none
    | some s =>
      if s.leaves.length ≠ nrects then none      -- a rectangle left uninitialised
      else
        match fillUpper ixspread (upperSizes ixspread nsegs nlevels) s.leaves with
        | none => none
        | some levels => some (s.rect, ⟨ixspread, levels⟩)

/-- `process_points` without index, tg.c:1885-2099 (rectangle only). -/
def processPlain (p0 : Pt α) (pts : List (Pt α)) : Rect α := pts.foldl Rect.inflatePt p0.rect

/-! ### Y-stripes -/

/-- Arithmetic on coordinates, opaque. -/
structure Arith (α : Type*) where
  /-- the end of `collinear`, tg.c:857-875: `eq_zero(s1 - s2)` -/
  cross0 : Pt α → Pt α → Pt α → Bool
  /-- `nexttoward(y, INFINITY)` -/
  next : α → α
  /-- `(p.y-a.y)/(p.x-a.x) >= (b.y-a.y)/(b.x-a.x)`, tg.c:1246 -/
  slopeGe : Pt α → Pt α → Pt α → Bool
  /-- the arithmetic of `tg_segment_intersects_segment`, tg.c:1381-1419 -/
  segX : Seg α → Seg α → Bool
  /-- `(int)(nsegs * score)` given the points, tg.c:1675-1676; 0 for negative values, which the next line raises to 32 like 0 -/
  nstripes : List (Pt α) → Nat
  /-- `(int)((y - rect.lo.y) / height * nstripes)` given `rect.lo.y`, `rect.hi.y`, `nstripes`, tg.c:1697-1698; `none` if
  the value is not in the range of `int` (in particular when `height` is zero) -/
  stripe : α → α → Nat → α → Option Int

/-- `nstripes` of `process_ystripes`, tg.c:1675-1677. -/
def stripesOf (A : Arith α) (pts : List (Pt α)) : Nat := max (A.nstripes pts) 32

/-- The range of stripes of a segment, tg.c:1695-1700. -/
def stripeRange (A : Arith α) (r : Rect α) (n : Nat) (s : Seg α) : Option (Int × Int) :=
  match A.stripe r.lo.y r.hi.y n (min s.a.y s.b.y), A.stripe r.lo.y r.hi.y n (max s.a.y s.b.y) with
  | some lo, some hi => some (max lo 0, min hi (n - 1 : Int))
  | _, _ => none

/-- The innermost loop of `process_ystripes`, tg.c:1734-1737: segment `i` is appended to the stripes `lo .. hi`; `j` is the number of the
first stripe of the list. -/
def addRange (lo hi : Int) (i : Nat) : Nat → List (List Nat) → List (List Nat)
  | _, [] => []
  | j, l :: ls => (if lo ≤ (j : Int) ∧ (j : Int) ≤ hi then l ++ [i] else l) :: addRange lo hi i (j + 1) ls

/-- The second loop of `process_ystripes`, tg.c:1727-1738: segment `i` is appended to the stripes of its range. (The first loop,
tg.c:1695-1706, computes the same ranges to size the stripes.) -/
def addStripes (A : Arith α) (r : Rect α) (n : Nat) : List (Nat × Seg α) → List (List Nat) → Option (List (List Nat))
  | [], st => some st
  | (i, s) :: rest, st =>
    match stripeRange A r n s with
    | none => none
    | some (lo, hi) =>
      addStripes A r n rest (addRange lo hi i 0 st)

/-- `process_ystripes`, tg.c:1674-1741 (allocation succeeds). -/
def processStripes (A : Arith α) (r : Rect α) (n : Nat) (segs : List (Seg α)) : Option (List (List Nat)) :=
  addStripes A r n (segs.zipIdx.map fun (s, i) => (i, s)) (List.replicate n [])

/-! ### Construction -/

/-- `struct tg_ring`, tg.c:605-617. `points` includes the extra point that closes the ring (tg.c:2207). Area, orientation and
convexity are in `Model/Orient`. -/
structure Ring (α β : Type*) where
  closed : Bool
  npoints : Nat
  nsegs : Nat
  rect : Rect α
  points : List (Pt α)
  index : Option (Index β)
  ystripes : Option (List (List Nat))
deriving Repr

/-- `num_segments`, tg.c:2101-2110. -/
def numSegments (pts : List (Pt α)) (closed : Bool) : Nat :=
  if closed then
    if pts.length < 3 then 0
    else match pts.getLast?, pts.head? with
      | some l, some h => if pteq l h then pts.length - 1 else pts.length
      | _, _ => 0
  else if pts.length < 2 then 0 else pts.length - 1

/-- `enum tg_index`, tg.c:74-79. -/
abbrev TG_DEFAULT : Nat := 0
@[inherit_doc TG_DEFAULT] abbrev TG_NONE : Nat := 1
@[inherit_doc TG_DEFAULT] abbrev TG_NATURAL : Nat := 2
@[inherit_doc TG_DEFAULT] abbrev TG_YSTRIPES : Nat := 3

/-- Which index `series_new` builds: (natural index, stripes), tg.c:2150-2184. `ix` is the kind after
`tg_index_extract_spread`, `dflt` the default of the environment. -/
def indexKinds (npoints ixspread : Nat) (closed : Bool) (ix dflt : Nat) : Bool × Bool :=
  if npoints ≥ ixspread * 2 then
    let ix := if ix = TG_DEFAULT then dflt else ix
    let indexed := ix = TG_NATURAL || ix = TG_YSTRIPES
    let indexed := if ix &&& TG_NONE = TG_NONE then indexed else true
    (indexed, closed && ix = TG_YSTRIPES)
  else (false, false)

/-- Segment `i` of `points[i], points[i+1]`; `ring_segment_at`, tg.c:2370-2374. -/
def segAt (points : List (Pt α)) (i : Nat) : Option (Seg α) :=
  match points[i]?, points[i + 1]? with
  | some a, some b => some ⟨a, b⟩
  | _, _ => none

/-- All segments; `none` if one of them is outside the points. -/
def allSegs (points : List (Pt α)) (nsegs : Nat) : Option (List (Seg α)) := (List.range nsegs).mapM (segAt points)

/-- The rectangle and the index of a series: `process_points` as called by `series_new`, tg.c:1885-1898, 2186-2202. -/
def seriesBase [Zero α] (f : Ix α β) (ixspread nsegs : Nat) (indexed : Bool) (pts : List (Pt α)) :
    Option (Rect α × Option (Index β)) :=
  match pts with
  | [] => some (⟨⟨0, 0⟩, ⟨0, 0⟩⟩, none)
  | [_] => some (⟨⟨0, 0⟩, ⟨0, 0⟩⟩, none)
  | p0 :: p1 :: rest =>
    if indexed then (processIndexed f ixspread nsegs p0 (p0 :: p1 :: rest)).map fun (r, ix) => (r, some ix)
    else some (processPlain p0 (p0 :: p1 :: rest), none)

/-- `series_new`, tg.c:2143-2221 (allocation succeeds); `none` if memory outside an object is accessed or a conversion to `int`
is out of range. -/
def seriesNew [Zero α] (f : Ix α β) (A : Arith α) (pts : List (Pt α)) (closed : Bool) (ix dflt ixspread : Nat) :
    Option (Ring α β) :=
  let nsegs := numSegments pts closed
  let (indexed, stripes) := indexKinds pts.length ixspread closed ix dflt
  match seriesBase f ixspread nsegs indexed pts with
  | none => none
  | some (rect, index) =>
    let points := pts ++ pts.take 1
    if stripes then
      match allSegs points nsegs with
      | none => none
      | some segs =>
        match processStripes A rect (stripesOf A pts) segs with
        | none => none
        | some st => some ⟨closed, pts.length, nsegs, rect, points, index, some st⟩
    else some ⟨closed, pts.length, nsegs, rect, points, index, none⟩

/-! ### Searching -/

/-- A loop `for (i = s; i < s + k; i++) if (!body(i)) return false; return true;` over a state; `none` is an access out of
bounds. -/
def forRange {σ : Type*} (body : Nat → σ → Option (σ × Bool)) : Nat → Nat → σ → Option (σ × Bool)
  | _, 0, st => some (st, true)
  | i, k + 1, st =>
    match body i st with
    | none => none
    | some (st, false) => some (st, false)
    | some (st, true) => forRange body (i + 1) k st

/-- The body of the loop over the entries of a level: test the rectangle and descend, tg.c:2430-2437, 2767-2770. -/
def entry {σ : Type*} (maybe : Rect β → Bool) (level : List (Rect β)) (descend : Nat → σ → Option (σ × Bool)) (i : Nat)
    (st : σ) : Option (σ × Bool) :=
  match level[i]? with
  | none => none
  | some r => if maybe r then descend i st else some (st, true)

/-- The tree walk shared by `index_search` (tg.c:2401-2440) and `index_pip_counter` (tg.c:2745-2773): `levels` are the levels from the
current one on, `start` the first entry. `maybe` is the test on an index rectangle, `leaf` what is done with a segment. -/
def walk {σ : Type*} (maybe : Rect β → Bool) (leaf : Nat → σ → Option (σ × Bool)) (ixspread nsegs : Nat) :
    List (List (Rect β)) → Nat → σ → Option (σ × Bool)
  | [], start, st => forRange leaf start (min (start + ixspread) nsegs - start) st
  | level :: levels, start, st =>
    forRange (entry maybe level fun i st => walk maybe leaf ixspread nsegs levels (i * ixspread) st)
      start (min (start + ixspread) level.length - start) st

/-- A callback with its state: `bool iter(struct tg_segment seg, int index, void *udata)`. -/
abbrev Iter (α σ : Type*) := Seg α → Nat → σ → σ × Bool

/-- The leaf step of a search: `if (segment_rect_intersects_rect(seg, rect)) { if (!iter(...)) return false; }`,
tg.c:2414-2419, 2454-2458. -/
def searchLeaf {σ : Type*} (points : List (Pt α)) (q : Rect α) (iter : Iter α σ) (i : Nat) (st : σ) : Option (σ × Bool) :=
  match segAt points i with
  | none => none
  | some s => if q.intersects s.rect then some (iter s i st) else some (st, true)

/-- `tg_ring_search` / `tg_line_search`, tg.c:2443-2461. The second component of the result says whether the loop ran to its
end. -/
def ringSearch {σ : Type*} (f : Ix α β) (ring : Ring α β) (q : Rect α) (iter : Iter α σ) (st : σ) : Option (σ × Bool) :=
  match ring.index with
  | some ix =>
    walk (fun r => ixIntersects r (f.rect q)) (searchLeaf ring.points q iter) ix.spread ring.nsegs ix.levels 0 st
  | none => forRange (searchLeaf ring.points q iter) 0 ring.nsegs st

/-! ### Point in ring -/

/-- `collinear`, tg.c:836-876. -/
def collinear (A : Arith α) (p1 p2 p3 : Pt α) : Bool :=
  if feq p1.x p2.x then feq p1.x p3.x
  else if feq p1.y p2.y then feq p1.y p3.y
  else if (feq p1.x p2.x && feq p1.y p2.y) || (feq p1.x p3.x && feq p1.y p3.y) || (feq p2.x p3.x && feq p2.y p3.y) then true
  else A.cross0 p1 p2 p3

/-- `enum tg_raycast_result` -/
inductive Ray where
  | out
  | in_
  | on
deriving DecidableEq, Repr

/-- The part of `raycast` after the collinearity test, tg.c:1225-1249; `a` is the lower end. -/
def raycastTail (A : Arith α) (a b p : Pt α) : Ray :=
  let p : Pt α := if p.y = a.y ∨ p.y = b.y then ⟨p.x, A.next p.y⟩ else p
  if p.y < a.y ∨ p.y > b.y then .out
  else if a.x > b.x then
    if p.x ≥ a.x then .out
    else if p.x ≤ b.x then .in_
    else if A.slopeGe p a b then .in_ else .out
  else
    if p.x ≥ b.x then .out
    else if p.x ≤ a.x then .in_
    else if A.slopeGe p a b then .in_ else .out

/-- The middle part of `raycast`, tg.c:1197-1224. -/
def raycastMid (A : Arith α) (r : Rect α) (a b p : Pt α) : Ray :=
  if pteq p a || pteq p b then .on
  else if a.y = b.y ∧ a.x = b.x then .out
  else if a.y = b.y ∧ p.y = b.y ∧ ¬ (p.x < r.lo.x ∨ p.x > r.hi.x) then .on
  else if a.x = b.x ∧ p.x = b.x ∧ p.y ≥ a.y ∧ p.y ≤ b.y then .on
  else if collinear A a b p then
    if p.x < r.lo.x then (if r.lo.y = r.hi.y then .out else .on)
    else if p.x > r.hi.x then .out
    else .on
  else raycastTail A a b p

/-- `raycast`, tg.c:1174-1250. -/
def raycast (A : Arith α) (s : Seg α) (p : Pt α) : Ray :=
  let r := s.rect
  if p.y < r.lo.y ∨ p.y > r.hi.y then .out
  else if p.x < r.lo.x ∧ p.y ≠ r.lo.y ∧ p.y ≠ r.hi.y then .in_
  else if p.x > r.hi.x ∧ r.lo.y ≠ r.hi.y ∧ r.lo.x ≠ r.hi.x then .out
  else if s.b.y < s.a.y then raycastMid A r s.b s.a p
  else raycastMid A r s.a s.b p

/-- State of the point-in-ring loops: `in` and `idx` (`-1` is `none`). -/
abbrev Pip := Bool × Option Nat

/-- `pip_eval_seg_slow`, tg.c:2645-2662. -/
def pipSlow (A : Arith α) (s : Seg α) (i : Nat) (p : Pt α) (edge : Bool) (st : Pip) : Pip :=
  match raycast A s p with
  | .out => st
  | .in_ => if st.2 = none then (!st.1, st.2) else st
  | .on => (edge, some i)

/-- `pip_eval_seg`, tg.c:2664-2687. -/
def pipEval (A : Arith α) (s : Seg α) (i : Nat) (p : Pt α) (edge : Bool) (st : Pip) : Pip :=
  let ymin := min s.a.y s.b.y
  let ymax := max s.a.y s.b.y
  if p.y < ymin ∨ p.y > ymax then st
  else
    let xmin := min s.a.x s.b.x
    let xmax := max s.a.x s.b.x
    if p.x < xmin then
      if p.y ≠ ymin ∧ p.y ≠ ymax then
        (if st.2 ≠ none then st else (!st.1, st.2))
      else pipSlow A s i p edge st
    else if p.x > xmax then
      if ymin ≠ ymax ∧ xmin ≠ xmax then st else pipSlow A s i p edge st
    else pipSlow A s i p edge st

/-- The body of the loop of `standard_pip`, tg.c:2717-2729. -/
def standardLeaf (A : Arith α) (points : List (Pt α)) (p : Pt α) (edge : Bool) (i : Nat) (st : Pip) : Option (Pip × Bool) :=
  match segAt points i with
  | none => none
  | some s =>
    if p.y < min s.a.y s.b.y ∨ p.y > max s.a.y s.b.y then some (st, true)
    else some (pipSlow A s i p edge st, true)

/-- `pip_eval_seg` on segment `i` of a ring. -/
def pipLeaf (A : Arith α) (points : List (Pt α)) (p : Pt α) (edge : Bool) (i : Nat) (st : Pip) : Option (Pip × Bool) :=
  match segAt points i with
  | none => none
  | some s => some (pipEval A s i p edge st, true)

/-- `branch_maybe_in`, tg.c:2733-2743. -/
def branchMaybeIn (p : Pt β) (r : Rect β) : Bool :=
  if p.y < r.lo.y ∨ p.y > r.hi.y then false
  else if p.x > r.hi.x ∧ r.lo.y ≠ r.hi.y ∧ r.lo.x ≠ r.hi.x then false
  else true

/-- The loop of `ystripes_pip` over the segments of a stripe, tg.c:2703-2706. -/
def stripeLoop (A : Arith α) (points : List (Pt α)) (p : Pt α) (edge : Bool) : List Nat → Pip → Option Pip
  | [], st => some st
  | i :: is, st =>
    match pipLeaf A points p edge i st with
    | none => none
    | some (st, _) => stripeLoop A points p edge is st

/-- `fclamp0(y, 0, n-1)` on integers, tg.c:824-826, 2701. -/
def clampStripe (y : Int) (n : Nat) : Int := min (max y 0) (n - 1 : Int)

/-- `tg_ring_contains_point`, tg.c:2784-2797, with `ystripes_pip`, `index_pip` and `standard_pip`. -/
def ringContainsPoint (f : Ix α β) (A : Arith α) (ring : Ring α β) (p : Pt α) (edge : Bool) : Option Pip :=
  if !ring.rect.coversPt p then some (false, none)
  else match ring.ystripes with
    | some st =>
      match A.stripe ring.rect.lo.y ring.rect.hi.y st.length p.y with
      | none => none
      | some y =>
        match st[(clampStripe y st.length).toNat]? with
        | none => none
        | some l => stripeLoop A ring.points p edge l (false, none)
    | none =>
      match ring.index with
      | some ix =>
        (walk (branchMaybeIn (f.pt p)) (pipLeaf A ring.points p edge) ix.spread ring.nsegs ix.levels 0 (false, none)).map (·.1)
      | none => (forRange (standardLeaf A ring.points p edge) 0 ring.nsegs (false, none)).map (·.1)

end Tg.S
