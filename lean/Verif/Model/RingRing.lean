import Verif.Model.Series
/-! Searching for the pairs of intersecting segments of two rings or lines: tg.c:1367-1419, 2463-2641. -/
namespace Tg.S

variable {α β : Type*} [LinearOrder α] [LinearOrder β] {σ : Type*}

/-- `tg_segment_intersects_segment`, tg.c:1367-1418. The arithmetic after the two quick tests is opaque. -/
def segIntersects (A : Arith α) (s t : Seg α) : Bool :=
  if !s.rect.intersects t.rect then false
  else if pteq s.a t.a || pteq s.a t.b || pteq s.b t.a || pteq s.b t.b then true
  else A.segX s t

/-- `bool iter(struct tg_segment aseg, int aidx, struct tg_segment bseg, int bidx, void *udata)` -/
abbrev Iter2 (α σ : Type*) := Seg α → Nat → Seg α → Nat → σ → σ × Bool

/-- A guarded call: `if (test) { if (!call) return false; }`; the test is `none` if it reads outside an object. -/
def gate (c : Option Bool) (call : σ → Option (σ × Bool)) (st : σ) : Option (σ × Bool) :=
  match c with
  | none => none
  | some false => some (st, true)
  | some true => call st

/-- The innermost body: `if (tg_segment_intersects_segment(seg_a, seg_b)) { if (!iter(...)) return false; }`,
tg.c:2504-2514, 2607-2617. -/
def pairLeaf (A : Arith α) (ap bp : List (Pt α)) (iter : Iter2 α σ) (i j : Nat) (st : σ) : Option (σ × Bool) :=
  match segAt ap i, segAt bp j with
  | some s, some t => if segIntersects A s t then some (iter s i t j st) else some (st, true)
  | _, _ => none

/-- tg.c:2517-2523: a segment of A against an index rectangle of B. -/
def testLeafBranch (f : Ix α β) (ap : List (Pt α)) (level : List (Rect β)) (i j : Nat) : Option Bool :=
  match segAt ap i, level[j]? with
  | some s, some r => some (s.rect.intersects (f.wideRect r))
  | _, _ => none

/-- tg.c:2534-2541: an index rectangle of A against a segment of B. -/
def testBranchLeaf (f : Ix α β) (bp : List (Pt α)) (level : List (Rect β)) (i j : Nat) : Option Bool :=
  match level[i]?, segAt bp j with
  | some r, some s => some ((f.wideRect r).intersects s.rect)
  | _, _ => none

/-- tg.c:2551-2555: two index rectangles. -/
def testBranches (la lb : List (Rect β)) (i j : Nat) : Option Bool :=
  match la[i]?, lb[j]? with
  | some r, some s => some (ixIntersects r s)
  | _, _ => none

/-- `ring_ring_ix`, tg.c:2486-2566. `asp0`, `bsp0` are the spreads of the indexes, `asp`, `bsp` the parameters `aspread`,
`bspread`. -/
def ringRingIx (f : Ix α β) (A : Arith α) (ap bp : List (Pt α)) (an bn asp0 bsp0 : Nat) (iter : Iter2 α σ) :
    List (List (Rect β)) → List (List (Rect β)) → Nat → Nat → Nat → Nat → σ → Option (σ × Bool)
  | [], [], ai, asp, bi, bsp, st =>
    forRange (fun i => forRange (fun j => pairLeaf A ap bp iter i j) bi (min (bi + bsp) bn - bi)) ai (min (ai + asp) an - ai) st
  | [], lb :: lbs, ai, asp, bi, bsp, st =>
    forRange (fun i => forRange (fun j => gate (testLeafBranch f ap lb i j)
        fun st => ringRingIx f A ap bp an bn asp0 bsp0 iter [] lbs i 1 (j * bsp) bsp st)
      bi (min (bi + bsp) lb.length - bi)) ai (min (ai + asp) an - ai) st
  | la :: las, [], ai, asp, bi, bsp, st =>
    forRange (fun i => forRange (fun j => gate (testBranchLeaf f bp la i j)
        fun st => ringRingIx f A ap bp an bn asp0 bsp0 iter las [] (i * asp) asp j 1 st)
      bi (min (bi + bsp) bn - bi)) ai (min (ai + asp) la.length - ai) st
  | la :: las, lb :: lbs, ai, asp, bi, bsp, st =>
    forRange (fun i => forRange (fun j => gate (testBranches la lb i j)
        fun st => ringRingIx f A ap bp an bn asp0 bsp0 iter las lbs (i * asp0) asp (j * bsp0) bsp st)
      bi (min (bi + bsp) lb.length - bi)) ai (min (ai + asp) la.length - ai) st
termination_by la lb => la.length + lb.length

/-- `tg_ring_empty`, tg.c:3090-3093. -/
def Ring.isEmpty (r : Ring α β) : Bool := (r.closed && decide (r.npoints < 3)) || decide (r.npoints < 2)

/-- `ring_ring_iter`, tg.c:2472-2484: the callback for the search with one index. The flag `stop` is the result of the
search. -/
def ringRingIter (A : Arith α) (iter : Iter2 α σ) (seg : Seg α) (index : Nat) (swapped : Bool) : Iter α σ := fun s i st =>
  if segIntersects A s seg then (if swapped then iter seg index s i st else iter s i seg index st) else (st, true)

/-- The loop with one index, tg.c:2587-2604: `d` is the ring without index. -/
def oneIndexBody (f : Ix α β) (A : Arith α) (c d : Ring α β) (iter : Iter2 α σ) (swapped : Bool) (i : Nat) (st : σ) :
    Option (σ × Bool) :=
  match segAt d.points i with
  | none => none
  | some s => ringSearch f c s.rect (ringRingIter A iter s i swapped) st

/-- `tg_ring_ring_search`, `tg_line_line_search`, `tg_ring_line_search`, tg.c:2571-2641. -/
def ringRingSearch (f : Ix α β) (A : Arith α) (a b : Ring α β) (iter : Iter2 α σ) (st : σ) : Option (σ × Bool) :=
  if a.isEmpty || b.isEmpty || !a.rect.intersects b.rect then some (st, true)
  else match a.index, b.index with
    | some ia, some ib =>
      ringRingIx f A a.points b.points a.nsegs b.nsegs ia.spread ib.spread iter ia.levels ib.levels 0 ia.spread 0 ib.spread st
    | some _, none => forRange (oneIndexBody f A a b iter false) 0 b.nsegs st
    | none, some _ => forRange (oneIndexBody f A b a iter true) 0 a.nsegs st
    | none, none =>
      forRange (fun i => forRange (fun j => pairLeaf A a.points b.points iter i j) 0 b.nsegs) 0 a.nsegs st

end Tg.S
