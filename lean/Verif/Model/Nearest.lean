import Verif.Model.Series
/-!
Nearest segment iteration: the priority queue and `tg_ring_nearest_segment`.

Distances are elements of a linear order `δ` (doubles without NaN). The distance callbacks are functions of their arguments; the callback
`iter` may change the user data. Every operation returns `none` if memory outside of an object is accessed.
-/
namespace Tg.S

variable {δ : Type*} [LinearOrder δ]

/-- `struct nqentry`, tg.c:14700-14709; `index` is the union of `seg_index` and `rect_index`. -/
structure NEntry (δ : Type*) where
  dist : δ
  isRect : Bool
  level : Nat
  more : Int
  index : Nat
deriving Repr, DecidableEq

/-- `struct nqueue`, tg.c:14713-14721. `items` are the first `len` items of the array, which has room for `cap`. -/
structure NQueue (δ : Type*) where
  items : List (NEntry δ)
  cap : Nat
  oom : Bool

/-- `NQUEUE_INIT`, tg.c:14723-14728. -/
def NQueue.init (cap : Nat) : NQueue δ := ⟨[], cap, false⟩

/-- `nqswap`, tg.c:14735-14739. -/
def nqswap {ε : Type*} (l : List ε) (i j : Nat) : Option (List ε) :=
  match l[i]?, l[j]? with
  | some a, some b => some ((l.set i b).set j a)
  | _, _ => none

/-- `nqcompare`, tg.c:14741-14745. -/
def nqcompare (l : List (NEntry δ)) (i j : Nat) : Option Int :=
  match l[i]?, l[j]? with
  | some a, some b => some (if a.dist < b.dist then -1 else if a.dist > b.dist then 1 else 0)
  | _, _ => none

/-- The loop of `nqueue_push`, tg.c:14768-14774; the first argument bounds the number of iterations. -/
def siftUp : Nat → List (NEntry δ) → Nat → Option (List (NEntry δ))
  | 0, _, _ => none
  | fuel + 1, l, i =>
    if i = 0 then some l
    else
      match nqcompare l ((i - 1) / 2) i with
      | none => none
      | some c =>
        if c > 0 then
          match nqswap l ((i - 1) / 2) i with
          | none => none
          | some l => siftUp fuel l ((i - 1) / 2)
        else some l

/-- The capacity after growing, tg.c:14753. (The product with 1.25 is a double; it is exact up to 2^50.) -/
def growCap (cap : Nat) : Nat := if cap < 1000 then cap * 2 else cap * 5 / 4

/-- Write the entry behind the last one and sift it up, tg.c:14767-14774. -/
def pushItem (items : List (NEntry δ)) (cap : Nat) (e : NEntry δ) : Option (NQueue δ) :=
  if items.length < cap then
    match siftUp (items.length + 1) (items ++ [e]) items.length with
    | none => none
    | some items => some ⟨items, cap, false⟩
  else none

/-- `nqueue_push`, tg.c:14747-14779. `alloc cap` tells whether the allocation of `cap` entries succeeds. -/
def NQueue.push (alloc : Nat → Bool) (q : NQueue δ) (e : NEntry δ) : Option (NQueue δ) :=
  if q.oom then some q
  else if q.items.length = q.cap then
    if alloc (growCap q.cap) then pushItem q.items (growCap q.cap) e
    else some { q with oom := true }
  else pushItem q.items q.cap e

/-- `smallest` after the comparison with the child `c`, tg.c:14793-14798. -/
def smaller (l : List (NEntry δ)) (c smallest : Nat) : Option Nat :=
  if c < l.length then
    match nqcompare l c smallest with
    | none => none
    | some r => some (if r ≤ 0 then c else smallest)
  else some smallest

/-- The loop of `nqueue_pop`, tg.c:14788-14804; the first argument bounds the number of iterations. -/
def siftDown : Nat → List (NEntry δ) → Nat → Option (List (NEntry δ))
  | 0, _, _ => none
  | fuel + 1, l, i =>
    match smaller l (i * 2 + 1) i with
    | none => none
    | some s =>
      match smaller l (i * 2 + 2) s with
      | none => none
      | some s =>
        if s = i then some l
        else
          match nqswap l s i with
          | none => none
          | some l => siftDown fuel l s

/-- `nqueue_pop`, tg.c:14781-14806: the inner `none` is NULL. The C code returns a pointer to the slot behind the last entry; the
caller does not look at it any more once it pushes (tg.c:14884, 14900, 14905-14907), so the model returns the entry. -/
def NQueue.pop (q : NQueue δ) : Option (Option (NEntry δ) × NQueue δ) :=
  if q.items.length = 0 ∨ q.oom then some (none, q)
  else
    match nqswap q.items 0 (q.items.length - 1) with
    | none => none
    | some l =>
      match l[l.length - 1]?, siftDown l.length (l.take (l.length - 1)) 0 with
      | some e, some l => some (some e, { q with items := l })
      | _, _ => none

/-! ### The iteration -/

variable {α β : Type*} [LinearOrder α] [LinearOrder β]

/-- A distance callback: from the argument and `*more` to the distance and the new `*more`. -/
abbrev DistFn (α δ : Type*) := α → Int → δ × Int

/-- The entry of segment `i`, tg.c:14859-14870, 14915-14926. -/
def segEntry (points : List (Pt α)) (sd : DistFn (Seg α) δ) (i : Nat) : Option (NEntry δ) :=
  match segAt points i with
  | none => none
  | some s => some ⟨(sd s 0).1, false, 0, (sd s 0).2, i⟩

/-- The rectangle `ix->levels[lvl].rects[i]`. -/
def ixRectAt (ix : Index β) (lvl i : Nat) : Option (Rect β) :=
  match ix.levels[lvl]? with
  | none => none
  | some l => l[i]?

/-- The entry of rectangle `i` of level `lvl`, tg.c:14843-14853, 14936-14946. -/
def rectEntry (f : Ix α β) (ix : Index β) (rd : DistFn (Rect α) δ) (lvl i : Nat) : Option (NEntry δ) :=
  match ixRectAt ix lvl i with
  | none => none
  | some r => some ⟨(rd (f.wideRect r) 0).1, true, lvl, (rd (f.wideRect r) 0).2, i⟩

/-- Push the entries of `i`, `i+1`, ..., `k` of them: tg.c:14842-14855, 14858-14872, 14914-14928, 14935-14948. -/
def pushRange (alloc : Nat → Bool) (mk : Nat → Option (NEntry δ)) : Nat → Nat → NQueue δ → Option (NQueue δ)
  | _, 0, q => some q
  | i, k + 1, q =>
    match mk i with
    | none => none
    | some e =>
      match q.push alloc e with
      | none => none
      | some q => pushRange alloc mk (i + 1) k q

/-- Push what lies below the rectangle `idx` of level `lvl - 1`, tg.c:14908-14949. -/
def pushBelow (alloc : Nat → Bool) (f : Ix α β) (ring : Ring α β) (ix : Index β) (rd : DistFn (Rect α) δ) (sd : DistFn (Seg α) δ)
    (lvl start : Nat) (q : NQueue δ) : Option (NQueue δ) :=
  if lvl = ix.levels.length then
    pushRange alloc (segEntry ring.points sd) start (min (start + ix.spread) ring.nsegs - start) q
  else
    match ix.levels[lvl]? with
    | none => none
    | some l => pushRange alloc (rectEntry f ix rd lvl) start (min (start + ix.spread) l.length - start) q

/-- The main loop, tg.c:14874-14950. It returns the user data and whether the queue ran out of memory. The first argument bounds the
number of iterations. `search` is the index and the rectangle callback, if there are both: without them there are only segments in the queue. -/
def nearestLoop {σ : Type*} (alloc : Nat → Bool) (f : Ix α β) (ring : Ring α β) (search : Option (Index β × DistFn (Rect α) δ)) (sd : DistFn (Seg α) δ)
    (iter : Seg α → δ → Nat → σ → σ × Bool) : Nat → NQueue δ → σ → Option (σ × Bool)
  | 0, _, _ => none
  | fuel + 1, q, st =>
    match q.pop with
    | none => none
    | some (none, q) => some (st, q.oom)
    | some (some e, q) =>
      if e.isRect then
        match search with
        | none => none
        | some (ix, rd) =>
          if e.more ≠ 0 then
            match ixRectAt ix e.level e.index with
            | none => none
            | some r =>
              match q.push alloc { e with dist := (rd (f.wideRect r) e.more).1, more := (rd (f.wideRect r) e.more).2 } with
              | none => none
              | some q => nearestLoop alloc f ring search sd iter fuel q st
          else
            match pushBelow alloc f ring ix rd sd (e.level + 1) (e.index * ix.spread) q with
            | none => none
            | some q => nearestLoop alloc f ring search sd iter fuel q st
      else
        match segAt ring.points e.index with
        | none => none
        | some s =>
          if e.more ≠ 0 then
            match q.push alloc { e with dist := (sd s e.more).1, more := (sd s e.more).2 } with
            | none => none
            | some q => nearestLoop alloc f ring search sd iter fuel q st
          else
            match iter s e.dist e.index st with
            | (st, false) => some (st, q.oom)
            | (st, true) => nearestLoop alloc f ring search sd iter fuel q st

/-- What the iteration pushes first, tg.c:14840-14873. -/
def nearestStart (alloc : Nat → Bool) (f : Ix α β) (ring : Ring α β) (search : Option (Index β × DistFn (Rect α) δ)) (sd : DistFn (Seg α) δ)
    (q : NQueue δ) : Option (NQueue δ) :=
  match search with
  | some (ix, rd) =>
    match ix.levels[0]? with
    | none => none
    | some l => pushRange alloc (rectEntry f ix rd 0) 0 l.length q
  | none => pushRange alloc (segEntry ring.points sd) 0 ring.nsegs q

/-- The index and the rectangle callback if there are both, tg.c:14838-14840. -/
def searchBy (ring : Ring α β) (rd : Option (DistFn (Rect α) δ)) : Option (Index β × DistFn (Rect α) δ) :=
  match ring.index, rd with
  | some ix, some rd => some (ix, rd)
  | _, _ => none

/-- `tg_ring_nearest_segment`, tg.c:14829-14954, for a ring and a segment callback that are not NULL; `rd` is `none` for a NULL pointer. It
returns the user data and the result. -/
def ringNearest {σ : Type*} (alloc : Nat → Bool) (f : Ix α β) (ring : Ring α β) (rd : Option (DistFn (Rect α) δ)) (sd : DistFn (Seg α) δ)
    (iter : Seg α → δ → Nat → σ → σ × Bool) (fuel : Nat) (st : σ) : Option (σ × Bool) :=
  match nearestStart alloc f ring (searchBy ring rd) sd (NQueue.init 256) with
  | none => none
  | some q =>
    match nearestLoop alloc f ring (searchBy ring rd) sd iter fuel q st with
    | none => none
    | some (st, oom) => some (st, !oom)

end Tg.S
