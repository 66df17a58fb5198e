import Verif.Lemmas.Nearest
import Verif.Lemmas.RingRing
import Verif.Props.Series
import Mathlib.Tactic.Linarith
/-!
Properties C29 and C30: the nearest segment iteration and its priority queue.

Distances are elements of a linear order `δ` (doubles without NaN).
-/
namespace Tg
open S Spec

/-! ### C30  Priority queue -/

section queue
variable {δ : Type*} [LinearOrder δ]

/-- Run a history of pushes and pops. -/
def S.runQueue (alloc : Nat → Bool) : List (QOp (NEntry δ)) → NQueue δ → Option (NQueue δ × List (Option (NEntry δ)))
  | [], q => some (q, [])
  | .push e :: ops, q => (q.push alloc e).bind fun q => runQueue alloc ops q
  | .pop :: ops, q => q.pop.bind fun (e, q) => (runQueue alloc ops q).map fun (q, outs) => (q, e :: outs)

/-- The number of pops in a history. -/
def S.pops : List (QOp (NEntry δ)) → Nat
  | [] => 0
  | .push _ :: ops => pops ops
  | .pop :: ops => pops ops + 1

theorem S.runQueue_oom (alloc : Nat → Bool) : ∀ (ops : List (QOp (NEntry δ))) {q : NQueue δ}, q.oom = true →
    runQueue alloc ops q = some (q, List.replicate (pops ops) none)
  | [], q, h => rfl
  | .push e :: ops, q, h => by
    rw [runQueue, NQueue.push, if_pos h, Option.bind_some, runQueue_oom alloc ops h]; rfl
  | .pop :: ops, q, h => by
    rw [runQueue, NQueue.pop, if_pos (Or.inr h), Option.bind_some]
    dsimp only
    rw [runQueue_oom alloc ops h]; rfl

theorem S.runQueue_ok (alloc : Nat → Bool) : ∀ (ops : List (QOp (NEntry δ))) {q : NQueue δ}, q.Ok → q.oom = false →
    ∃ q' outs, runQueue alloc ops q = some (q', outs) ∧
      (q'.oom = false → PQ NEntry.dist ops q.items outs q'.items) ∧
      (q'.oom = true → (∃ c, alloc c = false) ∧ ∃ ops₁ e ops₂ outs₁ b, ops = ops₁ ++ .push e :: ops₂ ∧
        outs = outs₁ ++ List.replicate (pops ops₂) none ∧ PQ NEntry.dist ops₁ q.items outs₁ b)
  | [], q, hq, ho => ⟨q, [], rfl, fun _ => .nil _, by simp [ho]⟩
  | .push e :: ops, q, hq, ho => by
    obtain ⟨q1, a1, a2, a3, a4, a5⟩ := push_ok alloc hq e
    cases ho1 : q1.oom with
    | true =>
      refine ⟨q1, List.replicate (pops ops) none, by rw [runQueue, a1, Option.bind_some, runQueue_oom alloc ops ho1], by simp [ho1], ?_⟩
      intro _
      exact ⟨a5 ho ho1, [], e, ops, [], _, rfl, rfl, .nil _⟩
    | false =>
      obtain ⟨q', outs, b1, b2, b3⟩ := runQueue_ok alloc ops a2 ho1
      have hm : (q1.items : Multiset (NEntry δ)) = e ::ₘ (q.items : Multiset (NEntry δ)) := by
        rw [Multiset.cons_coe]; exact Multiset.coe_eq_coe.2 (a3 ho ho1)
      rw [hm] at b2 b3
      refine ⟨q', outs, by rw [runQueue, a1, Option.bind_some, b1], fun h => .push (b2 h), fun h => ?_⟩
      obtain ⟨c1, ops₁, e', ops₂, outs₁, b, c2, c3, c4⟩ := b3 h
      exact ⟨c1, .push e :: ops₁, e', ops₂, outs₁, b, by rw [c2]; rfl, c3, .push c4⟩
  | .pop :: ops, q, hq, ho => by
    rcases pop_ok hq with ⟨h | h, hp⟩ | ⟨e, q1, -, hp, a2, ho1, hperm, hmin⟩
    · obtain ⟨q', outs, b1, b2, b3⟩ := runQueue_ok alloc ops hq ho
      have hm : (q.items : Multiset (NEntry δ)) = 0 := by rw [h]; rfl
      rw [hm] at b2 b3
      rw [hm]
      refine ⟨q', none :: outs, by rw [runQueue, hp, Option.bind_some]; dsimp only; rw [b1]; rfl, fun h => .empty (b2 h), fun h => ?_⟩
      obtain ⟨c1, ops₁, e', ops₂, outs₁, b, c2, c3, c4⟩ := b3 h
      exact ⟨c1, .pop :: ops₁, e', ops₂, none :: outs₁, b, by rw [c2]; rfl, by rw [c3]; rfl, .empty c4⟩
    · rw [ho] at h; cases h
    · obtain ⟨q', outs, b1, b2, b3⟩ := runQueue_ok alloc ops a2 ho1
      have hm : (q.items : Multiset (NEntry δ)) = e ::ₘ (q1.items : Multiset (NEntry δ)) := by
        rw [Multiset.cons_coe]; exact Multiset.coe_eq_coe.2 hperm
      have hmin' : ∀ x ∈ (q1.items : Multiset (NEntry δ)), e.dist ≤ x.dist := fun x hx => hmin x (hperm.mem_iff.2 (List.mem_cons_of_mem _ hx))
      rw [hm]
      refine ⟨q', some e :: outs, by rw [runQueue, hp, Option.bind_some]; dsimp only; rw [b1]; rfl, fun h => .pop hmin' (b2 h), fun h => ?_⟩
      obtain ⟨c1, ops₁, e', ops₂, outs₁, b, c2, c3, c4⟩ := b3 h
      exact ⟨c1, .pop :: ops₁, e', ops₂, some e :: outs₁, b, by rw [c2]; rfl, by rw [c3]; rfl, .pop hmin' c4⟩

/-- C30. Whatever the history of pushes and pops, the queue behaves like a bag from which a pop takes a least entry, and it is never accessed out of bounds. -/
theorem C30_queue (cap : Nat) (hc : 0 < cap) (ops : List (QOp (NEntry δ))) :
    ∃ q outs, runQueue (fun _ => true) ops (NQueue.init cap) = some (q, outs) ∧ PQ NEntry.dist ops 0 outs q.items := by
  obtain ⟨q, outs, h1, h2, h3⟩ := runQueue_ok (fun _ => true) ops (NQueue.init_ok (δ := δ) hc) rfl
  refine ⟨q, outs, h1, h2 ?_⟩
  cases ho : q.oom with
  | false => rfl
  | true => obtain ⟨⟨c, hc⟩, -⟩ := h3 ho; cases hc

/-- C30. If an allocation fails, the queue behaves like the bag up to that push, and is empty from then on. -/
theorem C30_out_of_memory (alloc : Nat → Bool) (cap : Nat) (hc : 0 < cap) (ops : List (QOp (NEntry δ))) :
    ∃ q outs, runQueue alloc ops (NQueue.init cap) = some (q, outs) ∧
      (PQ NEntry.dist ops 0 outs q.items ∨ 
        (∃ c, alloc c = false) ∧ ∃ ops₁ e ops₂ outs₁ b, ops = ops₁ ++ .push e :: ops₂ ∧
          outs = outs₁ ++ List.replicate (pops ops₂) none ∧ PQ NEntry.dist ops₁ 0 outs₁ b) := by
  obtain ⟨q, outs, h1, h2, h3⟩ := runQueue_ok alloc ops (NQueue.init_ok (δ := δ) hc) rfl
  refine ⟨q, outs, h1, ?_⟩
  cases ho : q.oom with
  | false => exact Or.inl (h2 ho)
  | true => exact Or.inr (h3 ho)

/-- A bag that pops in order: what `PQ` says of the outputs of pushing everything and then popping everything. -/
theorem C30_pops_sorted {ε : Type*} {key : ε → δ} : ∀ {n : Nat} {b : Multiset ε} {outs : List (Option ε)} {b' : Multiset ε},
    PQ key (List.replicate n .pop) b outs b' → (outs.filterMap id).Pairwise (fun x y => key x ≤ key y) ∧ (outs.filterMap id : Multiset ε) + b' = b
  | 0, b, outs, b', h => by
    cases h
    exact ⟨by simp, by simp⟩
  | n + 1, b, outs, b', h => by
    rw [List.replicate_succ] at h
    cases h with
    | empty h =>
      obtain ⟨h1, h2⟩ := C30_pops_sorted h
      exact ⟨by simpa using h1, by simpa using h2⟩
    | pop hmin h =>
      obtain ⟨h1, h2⟩ := C30_pops_sorted h
      simp only [List.filterMap_cons_some (f := id) (b := _) rfl, List.pairwise_cons]
      refine ⟨⟨?_, h1⟩, ?_⟩
      · intro x hx
        exact hmin x (by rw [← h2]; exact Multiset.mem_add.2 (Or.inl hx))
      · rw [← Multiset.cons_coe, Multiset.cons_add, h2]

/-- Five entries, popped in order of distance, in an array that has to grow. -/
example : (runQueue (fun _ => true) [.push ⟨(5 : Nat), false, 0, 0, 0⟩, .push ⟨2, false, 0, 0, 1⟩, .push ⟨8, true, 1, 0, 2⟩, .pop, .push ⟨1, false, 0, 0, 3⟩, .pop, .pop, .pop, .pop]
    (NQueue.init 1)).map (fun x => (x.1.items.length, x.1.cap, x.2.map (Option.map NEntry.index))) = some (0, 4, [some 1, some 3, some 0, some 2, none]) := by
  decide

end queue

/-! ### C29  Nearest segment iteration -/

universe u

section nearest
variable {α β δ : Type*} [LinearOrder α] [LinearOrder β] [LinearOrder δ]

/-- The distance does not decrease when the callback is asked again. -/
def S.Grows (g : Int → δ × Int) : Prop := ∀ m, Called g m → (g m).2 ≠ 0 → (g m).1 ≤ (g (g m).2).1

/-- The final distance of a rectangle is a lower bound for what lies inside: rectangles and segments. -/
structure S.LowerBound (segs : List (Seg α)) (rd : DistFn (Rect α) δ) (sd : DistFn (Seg α) δ) : Prop where
  rect : ∀ r m, Called (rd r) m → (rd r m).2 = 0 → ∀ r', r'.Le r → (rd r m).1 ≤ (rd r' 0).1
  seg : ∀ r m, Called (rd r) m → (rd r m).2 = 0 → ∀ s ∈ segs, r.Has s.a → r.Has s.b → (rd r m).1 ≤ (sd s 0).1

/-- What is needed of the input for the order: the index covers the segments and the callbacks are fair. -/
def S.Ordered (f : Ix α β) (pts : List (Pt α)) (closed : Bool) (spread : Nat) (ring : Ring α β) (rd : Option (DistFn (Rect α) δ)) (sd : DistFn (Seg α) δ) : Prop :=
  (∀ s ∈ segments pts closed, Grows (sd s)) ∧
  ∀ ix rd', ring.index = some ix → rd = some rd' →
    ((segments pts closed).length < pts.length ∨ pts.length % spread = 0) ∧ f.Tight (segments pts closed) ∧ (∀ r, Grows (rd' r)) ∧ LowerBound (segments pts closed) rd' sd

theorem S.nearest_ctx [Zero α] {f : Ix α β} (hf : f.Lawful) {A : Arith α} {e : Env} (he : e.Ok) {pts : List (Pt α)} {closed : Bool}
    {ix : BitVec 32} {ring : Ring α β} (h : newIx f A e pts closed ix = some ring) (rd : Option (DistFn (Rect α) δ)) (sd : DistFn (Seg α) δ)
    (hrd : ∀ rd', rd = some rd' → ∀ r, ∃ n d, Settles (rd' r) 0 n d) (hsd : ∀ s ∈ segments pts closed, ∃ n d, Settles (sd s) 0 n d) :
    NCtx (Ordered f pts closed (spreadOf e ix) ring rd sd) f ring (segments pts closed) 
      (searchBy ring rd) sd := by
  obtain ⟨h1, -⟩ := newIx_some hf he h
  have key : ∀ ix rd', searchBy ring rd = some (ix, rd') → ring.index = some ix ∧ rd = some rd' := by
    intro ix rd' hk
    unfold searchBy at hk
    split at hk
    · rename_i ha
      cases hk
      exact ⟨ha, rfl⟩
    · cases hk
  refine ⟨h1.nsegs_eq, ?_, ?_, hsd, ?_, ?_, ?_, ?_, ?_⟩
  · intro i s hs
    obtain ⟨hi, rfl⟩ := List.getElem?_eq_some_iff.1 hs
    exact h1.segAt hi
  · intro ix rd' hk
    exact h1.index_shape ix (key ix rd' hk).1
  · intro ix rd' hk
    exact hrd rd' (key ix rd' hk).2
  · intro hH s hs
    exact hH.1 s hs
  · intro hH ix rd' hk r
    exact (hH.2 ix rd' (key ix rd' hk).1 (key ix rd' hk).2).2.2.1 r
  · intro hH ix rd' hk lvl i j r r' hr hr' h2 h3 m hm hm0
    obtain ⟨hc, ht, -, hl⟩ := hH.2 ix rd' (key ix rd' hk).1 (key ix rd' hk).2
    refine hl.rect _ m hm hm0 _ ?_
    have sh := (h1.index_ok ix (key ix rd' hk).1 hc)
    unfold ixRectAt at hr hr'
    split at hr
    · cases hr
    · rename_i l hl0
      split at hr'
      · cases hr'
      · rename_i l' hl1
        have hle := (sh.levels.get hl0).2.1 l' hl1 i r hr j r' h2 h3 hr'
        exact ⟨ht.wide_mono _ _ hle.1, ht.wide_mono _ _ hle.2.1, ht.wide_mono _ _ hle.2.2.1, ht.wide_mono _ _ hle.2.2.2⟩
  · intro hH ix rd' hk i j r s hr hs h2 h3 m hm hm0
    obtain ⟨hc, ht, -, hl⟩ := hH.2 ix rd' (key ix rd' hk).1 (key ix rd' hk).2
    have sh := (h1.index_ok ix (key ix rd' hk).1 hc)
    unfold ixRectAt at hr
    split at hr
    · cases hr
    · rename_i l hl0
      obtain ⟨hj, rfl⟩ := List.getElem?_eq_some_iff.1 hs
      have hpos : 0 < ix.levels.length := List.length_pos_iff.2 sh.nonempty
      have hle := (sh.levels.get hl0).2.2 (by omega) i r hr j (f.rect (segments pts closed)[j].rect) h2 h3 hj (by simp [extOf, hs])
      have hle' := ht.le (List.mem_of_getElem? hs) hle
      refine hl.seg _ m hm hm0 _ (List.mem_of_getElem? hs) ?_ ?_
      · exact ⟨hle'.1.trans (min_le_left _ _), (le_max_left _ _).trans hle'.2.1, hle'.2.2.1.trans (min_le_left _ _), (le_max_left _ _).trans hle'.2.2.2⟩
      · exact ⟨hle'.1.trans (min_le_right _ _), (le_max_right _ _).trans hle'.2.1, hle'.2.2.1.trans (min_le_right _ _), (le_max_right _ _).trans hle'.2.2.2⟩

omit [LinearOrder α] [LinearOrder δ] in
theorem S.zip_of_idx {segs : List (Seg α)} {l : List (Seg α × δ × Nat)} {rest : List Nat} (hseg : ∀ x ∈ l, segs[x.2.2]? = some x.1)
    (hp : (List.range segs.length).Perm (l.map (fun x => x.2.2) ++ rest)) :
    ∃ rest', segs.zipIdx.Perm (l.map (fun x => (x.1, x.2.2)) ++ rest') ∧ (rest = [] → rest' = []) := by
  have e1 : segs.zipIdx.map some = (List.range segs.length).map (fun i => (segs[i]?).map fun s => (s, i)) :=
    List.ext_getElem (by simp) (by intro i h1 h2; simp at h1; simp [h1])
  have e2 : (segs.zipIdx.map some).filterMap id = segs.zipIdx := by simp
  have e3 : (l.map (fun x => x.2.2)).map (fun i => (segs[i]?).map fun s => (s, i)) = (l.map (fun x => (x.1, x.2.2))).map some := by
    rw [List.map_map, List.map_map]
    apply List.map_congr_left
    intro x hx
    simp [hseg x hx]
  refine ⟨(rest.map (fun i => (segs[i]?).map fun s => (s, i))).filterMap id, ?_, by rintro rfl; rfl⟩
  rw [← e2, e1]
  refine ((hp.map _).filterMap id).trans ?_
  rw [List.map_append, e3, List.filterMap_append]
  simp

/-- C29, with everything that can happen. The iteration ends, accesses nothing out of bounds, and delivers segments with their numbers and final distances, none twice.
If memory does not run out, they are all the segments and it returns true. If the callback stops it, it returns true. If memory runs
out, it returns false after it delivered some of the segments. If the index covers the segments and the callbacks are fair, the order is by distance. -/
theorem S.nearest_all [Zero α] {f : Ix α β} (hf : f.Lawful) {A : Arith α} {e : Env} (he : e.Ok) {pts : List (Pt α)} {closed : Bool}
    {ix : BitVec 32} {ring : Ring α β} (h : newIx f A e pts closed ix = some ring) (rd : Option (DistFn (Rect α) δ)) (sd : DistFn (Seg α) δ)
    (hrd : ∀ rd', rd = some rd' → ∀ r, ∃ n d, Settles (rd' r) 0 n d) (hsd : ∀ s ∈ segments pts closed, ∃ n d, Settles (sd s) 0 n d) (alloc : Nat → Bool) :
    ∃ (l : List (Seg α × δ × Nat)) (rest : List (Seg α × Nat)) (done : Bool) (N : Nat),
      (segments pts closed).zipIdx.Perm (l.map (fun x => (x.1, x.2.2)) ++ rest) ∧ (done = true → rest = []) ∧ (done = false → ∃ c, alloc c = false) ∧
      (∀ x ∈ l, ∃ n, Settles (sd x.1) 0 n x.2.1) ∧
      (Ordered f pts closed (spreadOf e ix) ring rd sd → l.Pairwise (fun a b => a.2.1 ≤ b.2.1)) ∧
      ∀ (σ : Type u) (iter : Seg α → δ → Nat → σ → σ × Bool) (st : σ) (fuel : Nat), N ≤ fuel →
        ringNearest alloc f ring rd sd iter fuel st = some ((deliver (fun x : Seg α × δ × Nat => iter x.1 x.2.1 x.2.2) l st).1,
          !(deliver (fun x : Seg α × δ × Nat => iter x.1 x.2.1 x.2.2) l st).2 || done) := by
  have c := nearest_ctx hf he h rd sd hrd hsd
  obtain ⟨q, l, done, rest, N, h1, h2⟩ := c.nearest_ok.{u} alloc
  obtain ⟨rest', r1, r2⟩ := zip_of_idx (fun x hx => (h2.seg x hx).1) h2.perm
  refine ⟨l, rest', done, N, r1, fun hd => r2 (h2.done_rest hd), h2.failed, fun x hx => (h2.seg x hx).2, h2.sorted, ?_⟩
  intro σ iter st fuel hfuel
  unfold ringNearest
  rw [h1]
  dsimp only
  rw [h2.run σ iter st fuel hfuel]
  simp

/-- C29. The iteration ends and delivers every segment exactly once with its number and its final distance, in an order that does not depend on the callback,
until the callback returns false; it returns true. This holds for every ring, line, index and any distances. -/
theorem C29_every_segment [Zero α] {f : Ix α β} (hf : f.Lawful) {A : Arith α} {e : Env} (he : e.Ok) {pts : List (Pt α)} {closed : Bool}
    {ix : BitVec 32} {ring : Ring α β} (h : newIx f A e pts closed ix = some ring) (rd : Option (DistFn (Rect α) δ)) (sd : DistFn (Seg α) δ)
    (hrd : ∀ rd', rd = some rd' → ∀ r, ∃ n d, Settles (rd' r) 0 n d) (hsd : ∀ s ∈ segments pts closed, ∃ n d, Settles (sd s) 0 n d) :
    ∃ (l : List (Seg α × δ × Nat)) (N : Nat), (l.map (fun x => (x.1, x.2.2))).Perm (segments pts closed).zipIdx ∧
      (∀ x ∈ l, ∃ n, Settles (sd x.1) 0 n x.2.1) ∧
      (Ordered f pts closed (spreadOf e ix) ring rd sd → l.Pairwise (fun a b => a.2.1 ≤ b.2.1)) ∧
      ∀ (σ : Type u) (iter : Seg α → δ → Nat → σ → σ × Bool) (st : σ) (fuel : Nat), N ≤ fuel →
        ringNearest (fun _ => true) f ring rd sd iter fuel st = some (visit (fun x : Seg α × δ × Nat => iter x.1 x.2.1 x.2.2) l st, true) := by
  obtain ⟨l, rest, done, N, h1, h2, h3, h4, h5, h6⟩ := nearest_all.{u} hf he h rd sd hrd hsd (fun _ => true)
  have hd : done = true := by
    cases done with
    | true => rfl
    | false => obtain ⟨c, hc⟩ := h3 rfl; cases hc
  rw [h2 hd, List.append_nil] at h1
  refine ⟨l, N, h1.symm, h4, h5, ?_⟩
  intro σ iter st fuel hfuel
  rw [h6 σ iter st fuel hfuel, hd, Bool.or_true]
  congr 2
  clear h1 h4 h5 h6
  induction l generalizing st with
  | nil => rfl
  | cons x xs ih =>
    rw [deliver, visit]
    split
    · exact ih _
    · rfl

/-- C29 without refinement steps (`*more` left alone) and in order: the segments come by distance. Missing from the full statement: an
indexed ring that is not closed by its last point and whose number of points is not a multiple of the spread, where the order fails
(`C29_open_ring_order`). -/
theorem C29_order_partial [Zero α] {f : Ix α β} (hf : f.Lawful) {A : Arith α} {e : Env} (he : e.Ok) {pts : List (Pt α)} {closed : Bool}
    {ix : BitVec 32} {ring : Ring α β} (h : newIx f A e pts closed ix = some ring)
    (hc : (segments pts closed).length < pts.length ∨ pts.length % spreadOf e ix = 0 ∨ ring.index = none)
    (ht : f.Tight (segments pts closed)) (rd : Rect α → δ) (sd : Seg α → δ)
    (hrr : ∀ r r', r'.Le r → rd r ≤ rd r') (hrs : ∀ r, ∀ s ∈ segments pts closed, r.Has s.a → r.Has s.b → rd r ≤ sd s) :
    ∃ (l : List (Seg α × Nat)) (N : Nat), l.Perm (segments pts closed).zipIdx ∧ l.Pairwise (fun a b => sd a.1 ≤ sd b.1) ∧
      ∀ (σ : Type u) (iter : Seg α → δ → Nat → σ → σ × Bool) (st : σ) (fuel : Nat), N ≤ fuel →
        ringNearest (fun _ => true) f ring (some fun r _ => (rd r, 0)) (fun s _ => (sd s, 0)) iter fuel st = 
          some (visit (fun x : Seg α × Nat => iter x.1 (sd x.1) x.2) l st, true) := by
  obtain ⟨l, N, h1, h2, h3, h4⟩ := C29_every_segment.{u} hf he h (some fun r _ => (rd r, 0)) (fun s _ => (sd s, 0))
    (by intro rd' hrd r; cases hrd; exact ⟨0, rd r, .now rfl⟩) (fun s _ => ⟨0, sd s, .now rfl⟩)
  have hval : ∀ x ∈ l, x.2.1 = sd x.1 := by
    intro x hx
    obtain ⟨n, hn⟩ := h2 x hx
    exact S.Settles.value hn rfl
  refine ⟨l.map (fun x => (x.1, x.2.2)), N, h1, ?_, ?_⟩
  · rw [List.pairwise_map]
    refine List.Pairwise.imp_of_mem ?_ (h3 ⟨fun s _ m _ hm => absurd rfl hm, fun ix' rd' hi hrd => ?_⟩)
    · intro a b ha hb hab
      rw [hval a ha, hval b hb] at hab
      exact hab
    · cases hrd
      refine ⟨?_, ht, fun r m _ hm => absurd rfl hm, fun r m _ _ r' hr => hrr r r' hr, fun r m _ _ s hs h1 h2 => hrs r s hs h1 h2⟩
      rcases hc with h | h | h
      · exact Or.inl h
      · exact Or.inr h
      · rw [h] at hi; cases hi
  · intro σ iter st fuel hfuel
    rw [h4 σ iter st fuel hfuel]
    congr 2
    clear h1 h2 h3 h4
    induction l generalizing st with
    | nil => rfl
    | cons x xs ih =>
      rw [List.map_cons, visit, visit, hval x (List.mem_cons_self ..)]
      simp only [ih (fun y hy => hval y (List.mem_cons_of_mem _ hy))]

/-- C29 when memory may run out: what was delivered is part of the segments, in order, and the result is false unless the callback stopped the
iteration or everything was delivered. -/
theorem C29_out_of_memory [Zero α] {f : Ix α β} (hf : f.Lawful) {A : Arith α} {e : Env} (he : e.Ok) {pts : List (Pt α)} {closed : Bool}
    {ix : BitVec 32} {ring : Ring α β} (h : newIx f A e pts closed ix = some ring) (rd : Option (DistFn (Rect α) δ)) (sd : DistFn (Seg α) δ)
    (hrd : ∀ rd', rd = some rd' → ∀ r, ∃ n d, Settles (rd' r) 0 n d) (hsd : ∀ s ∈ segments pts closed, ∃ n d, Settles (sd s) 0 n d) (alloc : Nat → Bool) :
    ∃ (l : List (Seg α × δ × Nat)) (rest : List (Seg α × Nat)) (done : Bool) (N : Nat),
      (segments pts closed).zipIdx.Perm (l.map (fun x => (x.1, x.2.2)) ++ rest) ∧ (done = true → rest = []) ∧ (done = false → ∃ c, alloc c = false) ∧
      (Ordered f pts closed (spreadOf e ix) ring rd sd → l.Pairwise (fun a b => a.2.1 ≤ b.2.1)) ∧
      ∀ (σ : Type u) (iter : Seg α → δ → Nat → σ → σ × Bool) (st : σ) (fuel : Nat), N ≤ fuel →
        ringNearest alloc f ring rd sd iter fuel st = some ((deliver (fun x : Seg α × δ × Nat => iter x.1 x.2.1 x.2.2) l st).1,
          !(deliver (fun x : Seg α × δ × Nat => iter x.1 x.2.1 x.2.2) l st).2 || done) := by
  obtain ⟨l, rest, done, N, h1, h2, h3, h4, h5, h6⟩ := nearest_all.{u} hf he h rd sd hrd hsd alloc
  exact ⟨l, rest, done, N, h1, h2, h3, h5, h6⟩

end nearest

/-! ### Witnesses -/

/-- The numbers of the segments in the order in which the iteration delivers them, at most `k`, and the result. The distance is the least value of `2x + y`. -/
def S.nearestFound (pts : List (Pt ℚ)) (ix : BitVec 32) (k : Nat) : Option (List Nat × Bool) :=
  (newIx Ix.exact arithQ Env.initial pts true ix).bind fun ring =>
    ringNearest (fun _ => true) Ix.exact ring (some fun r _ => (2 * r.lo.x + r.lo.y, 0)) (fun s _ => (min (2 * s.a.x + s.a.y) (2 * s.b.x + s.b.y), 0))
      (fun _ _ i l => (l ++ [i], decide (l.length + 1 < k))) 100 []

/-- Five points, not closed by the last one. -/
def S.openRing2 : List (Pt ℚ) := [⟨0, 0⟩, ⟨4, 0⟩, ⟨4, 4⟩, ⟨2, 6⟩, ⟨0, 9⟩]

/-- The full statement of C29 fails: in a ring that is not closed the last leaf of the index does not cover the closing segment, which is at distance 0 and
comes after segments at distance 8 and 9. -/
theorem C29_open_ring_order :
    nearestFound openRing2 (indexWithSpread 1#32 2) 10 = some ([0, 4, 1, 3, 2], true) ∧
    nearestFound openRing2 (indexWithSpread 2#32 2) 10 = some ([0, 1, 3, 4, 2], true) := by
  refine ⟨?_, ?_⟩ <;> decide +kernel

/-- The hypotheses of `C29_order_partial` hold for a closed ring and the distances of the examples; the iteration visits it in order, and can be stopped. -/
example : (segments (openRing2 ++ [⟨0, 0⟩]) true).length < (openRing2 ++ [⟨0, 0⟩] : List (Pt ℚ)).length ∧ Env.initial.Ok ∧
    (∀ r r' : Rect ℚ, r'.Le r → 2 * r.lo.x + r.lo.y ≤ 2 * r'.lo.x + r'.lo.y) ∧
    (∀ (r : Rect ℚ) (s : Seg ℚ), r.Has s.a → r.Has s.b → 2 * r.lo.x + r.lo.y ≤ min (2 * s.a.x + s.a.y) (2 * s.b.x + s.b.y)) ∧
    nearestFound (openRing2 ++ [⟨0, 0⟩]) (indexWithSpread 2#32 2) 10 = some ([0, 4, 1, 3, 2], true) ∧
    nearestFound (openRing2 ++ [⟨0, 0⟩]) (indexWithSpread 2#32 2) 3 = some ([0, 4, 1], true) := by
  refine ⟨by decide +kernel, ⟨by decide, by decide⟩, ?_, ?_, ?_, ?_⟩
  · intro r r' h
    have h1 := h.1
    have h2 := h.2.2.1
    linarith
  · intro r s ha hb
    have h1 := ha.1
    have h2 := ha.2.2.1
    have h3 := hb.1
    have h4 := hb.2.2.1
    refine le_min ?_ ?_ <;> linarith
  · decide +kernel
  · decide +kernel

/-- Callbacks that refine their answer once: the first answer is half the distance and asks to be called again. -/
example : (newIx Ix.exact arithQ Env.initial (openRing2 ++ [⟨0, 0⟩]) true (indexWithSpread 2#32 2)).bind (fun ring =>
    ringNearest (fun _ => true) Ix.exact ring (some fun r m => if m = 0 then ((2 * r.lo.x + r.lo.y) / 2, 1) else (2 * r.lo.x + r.lo.y, 0))
      (fun s m => if m = 0 then ((min (2 * s.a.x + s.a.y) (2 * s.b.x + s.b.y)) / 2, 1) else (min (2 * s.a.x + s.a.y) (2 * s.b.x + s.b.y), 0))
      (fun _ d i l => (l ++ [(i, d)], true)) 100 []) = some ([(0, 0), (4, 0), (1, 8), (3, 9), (2, 10)], true) := by decide +kernel

end Tg
