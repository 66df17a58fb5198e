import Verif.Lemmas.Success
/-!
Properties C31, C33 and C34: reference counts, failing allocations, copies.

`Runs fails ok h own`: a caller that keeps the rules can bring about the heap `h` and then owns
the references `own`; `fails` says which calls of the allocator return NULL.
-/
namespace Tg
open Heap

/-! ### C31  Reference counting -/

section C31
variable {fails : Nat → Bool} {ok : Heap → Op → Prop} {h h' : Heap} {own : Multiset Nat}

/-- No allowed call uses or releases a block that is not allocated, reads a block as another
type, or leaves an array. -/
theorem C31_no_fault (hr : Runs fails ok h own) {op : Op} (ha : Allowed h own op) :
    ∃ q h', op.run h = some (q, h') := by
  obtain ⟨r, hi⟩ := runs_inv hr
  obtain ⟨q, h', e, _⟩ := op_ok hi op ha
  exact ⟨q, h', e⟩

/-- What the caller can reach is allocated. -/
theorem C31_live (hr : Runs fails ok h own) {a i : Nat} (ha : a ∈ own)
    (hi : Reach h (some a) i) : h.cells i ≠ none := by
  obtain ⟨r, inv⟩ := runs_inv hr
  obtain ⟨c, hc⟩ := reach_live inv (fun x hx => by cases hx; exact (inv.held ha).2) hi
  rw [hc]; simp

/-- What is allocated can be reached from a reference that the caller owns. -/
theorem C31_no_leak (hr : Runs fails ok h own) {i : Nat} (hi : h.cells i ≠ none) :
    ∃ a ∈ own, Reach h (some a) i := by
  obtain ⟨r, inv⟩ := runs_inv hr
  obtain ⟨c, hc⟩ := Option.ne_none_iff_exists'.1 hi
  exact live_reach inv hc

/-- When the caller owns nothing, nothing is allocated. -/
theorem C31_all_released (hr : Runs fails ok h 0) (i : Nat) : h.cells i = none := by
  by_contra hi
  obtain ⟨a, ha, _⟩ := C31_no_leak hr hi
  simp at ha

/-- A call does not change the value of anything that can be reached from a reference that the
caller keeps. -/
theorem C31_values (hr : Runs fails ok h own) {op : Op} {q : Ptr} (ha : Allowed h own op)
    (hrun : op.run h = some (q, h')) {a i : Nat} (hk : a ∈ own - refsOf op.freed)
    (hi : Reach h (some a) i) (n : Nat) : tree h' n (some i) = tree h n (some i) := by
  obtain ⟨r, inv⟩ := runs_inv hr
  obtain ⟨q', h'', e, d⟩ := op_ok inv op ha
  rw [hrun] at e
  cases e
  obtain ⟨r', inv'⟩ := d.inv
  have hao : a ∈ own := Multiset.mem_of_le (Multiset.sub_le_self _ _) hk
  have hlive : (∃ c, h.cells i = some c) ∧ ∃ c, h'.cells i = some c := by
    induction hi with
    | root e =>
      cases e
      exact ⟨(inv.held hao).2, (inv'.held (Multiset.mem_add.2 (Or.inr hk))).2⟩
    | @step j i c hrj hc hm ih =>
      obtain ⟨_, c', hc'⟩ := ih
      obtain ⟨d0, hd0, hs⟩ := d.step.old j (inv.lt hc) c' hc'
      rw [hc] at hd0; cases hd0
      have hm' := mem_ptrs.2 hm
      exact ⟨(inv.child (by simp) hc hm').2,
        (inv'.child (by simp) hc' (by rw [hs.ptrs]; exact hm')).2⟩
  exact tree_keep inv inv' d.step n (some i) (fun x hx => by cases hx; exact hlive)

/-- As long as only objects without an index are copied, the pointers inside indexes stay within
their own block. For copies of indexed objects see `C34_index_witness`. -/
theorem C31_index (hr : Runs fails plainCopies h own) {i : Nat} {c : Cell}
    (hc : h.cells i = some c) : c.ownIndex i := runs_ownIx hr i c hc

end C31

/-- The state after a call, for examples. -/
def Heap.Heap.after1 (h : Heap) (op : Op) : Ptr × Heap := (op.run h).getD (none, h)

/-- A history: a ring, a polygon with that ring as exterior and hole, a collection of the polygon
twice, then the ring and the polygon are freed. -/
example : ∃ h own, Runs (fun _ => false) plainCopies h own ∧ own = {3} ∧
    h.cells 0 ≠ none ∧ h.cells 3 ≠ none ∧ h.next = 6 := by
  have r0 := Runs.init (fails := fun _ => false) (ok := plainCopies)
  have r1 := Runs.call (op := .series [] true true false) (q := some 0)
    (h' := ((Heap.init fun _ => false).after1 (.series [] true true false)).2)
    r0 trivial trivial rfl
  have a1 : Allowed ((Heap.init fun _ => false).after1 (.series [] true true false)).2 {0}
      (.poly (some 0) [some 0] 1) := by
    have harg : Arg ((Heap.init fun _ => false).after1 (.series [] true true false)).2 {0}
        Cell.isRing (some 0) := by
      rintro a ⟨⟩
      exact ⟨⟨0, by simp, .root rfl⟩, _, rfl, rfl⟩
    exact ⟨harg, by simpa using harg, rfl⟩
  generalize hh1 : ((Heap.init fun _ => false).after1 (.series [] true true false)).2 = h1 at *
  have r2 := Runs.call (op := .poly (some 0) [some 0] 1) (q := some 1)
    (h' := (h1.after1 (.poly (some 0) [some 0] 1)).2) r1 a1 trivial (by subst hh1; rfl)
  have o2 : after (after 0 (.series [] true true false) (some 0)) (.poly (some 0) [some 0] 1)
      (some 1) = {1, 0} := rfl
  rw [o2] at r2
  have a2 : Allowed (h1.after1 (.poly (some 0) [some 0] 1)).2 {1, 0}
      (.multi .collection [some 1, some 1]) := by
    refine Or.inr (Or.inr ⟨rfl, fun p hp => ?_⟩)
    have : p = some 1 := by simpa using hp
    subst this
    rintro a ⟨⟩
    refine ⟨⟨1, by simp, .root rfl⟩, .poly 1 (some 0) 1 (some 2), by subst hh1; rfl, ?_⟩
    simp [Cell.isGeometry, Cell.rc]
  have f2 : (h1.after1 (.poly (some 0) [some 0] 1)).2.cells 1 = some (.poly 1 (some 0) 1 (some 2)) := by
    subst hh1; rfl
  have r3 := Runs.call (op := .multi .collection [some 1, some 1]) (q := some 3)
    (h' := ((h1.after1 (.poly (some 0) [some 0] 1)).2.after1 (.multi .collection [some 1, some 1])).2)
    r2 a2 trivial (by subst hh1; rfl)
  have o3 : after {1, 0} (.multi .collection [some 1, some 1]) (some 3) = {3, 1, 0} := rfl
  rw [o3] at r3
  generalize hh3 : ((h1.after1 (.poly (some 0) [some 0] 1)).2.after1
    (.multi .collection [some 1, some 1])).2 = h3 at *
  have r4 := Runs.call (op := .freeRing (some 0)) (q := none)
    (h' := (h3.after1 (.freeRing (some 0))).2) r3
    (by
      rintro a ⟨⟩
      exact ⟨by simp, .series 3 true (some 0) none [], by subst hh3 hh1; rfl, Or.inl rfl⟩)
    trivial (by subst hh3 hh1; rfl)
  have o4 : after {3, 1, 0} (.freeRing (some 0)) none = ({3, 1} : Multiset Nat) := rfl
  rw [o4] at r4
  have r5 := Runs.call (op := .freePoly (some 1)) (q := none)
    (h' := ((h3.after1 (.freeRing (some 0))).2.after1 (.freePoly (some 1))).2) r4
    (by
      rintro a ⟨⟩
      exact ⟨by simp, .poly 3 (some 0) 1 (some 2), by subst hh3 hh1; rfl, trivial⟩)
    trivial (by subst hh3 hh1; rfl)
  have o5 : after {3, 1} (.freePoly (some 1)) none = ({3} : Multiset Nat) := rfl
  rw [o5] at r5
  refine ⟨_, _, r5, rfl, ?_, ?_, ?_⟩
  · subst hh3 hh1; exact fun h => by cases h
  · subst hh3 hh1; exact fun h => by cases h
  · subst hh3 hh1; rfl

/-! ### C33  Allocation failure -/

section C33
variable {fails : Nat → Bool} {ok : Heap → Op → Prop} {h h' : Heap} {own : Multiset Nat}

/-- A constructor, clone or copy that returns NULL leaves the memory as it was: nothing is leaked,
nothing of the caller is released, no counter has changed. -/
theorem C33_unchanged (hr : Runs fails ok h own) {op : Op} (ha : Allowed h own op)
    (hf : op.freed = none) (hrun : op.run h = some (none, h')) : h'.cells = h.cells := by
  obtain ⟨r, inv⟩ := runs_inv hr
  obtain ⟨q', h'', e, d⟩ := op_ok inv op ha
  rw [hrun] at e
  cases e
  obtain ⟨r', inv'⟩ := d.inv
  refine inv.same (inv'.congr ?_) d.step
  simp [after, hf, refsOf]

/-- If an allocation of a constructor, clone or copy failed, it returned NULL. -/
theorem C33_null (hr : Runs fails ok h own) {op : Op} (ha : Allowed h own op) {q : Ptr}
    (hrun : op.run h = some (q, h')) {k : Nat} (h1 : h.next ≤ k) (h2 : k < h'.next)
    (hk : fails k = true) : q = none := by
  obtain ⟨r, inv⟩ := runs_inv hr
  obtain ⟨q', h'', e, d⟩ := op_ok inv op ha
  rw [hrun] at e
  cases e
  by_contra hq
  have := d.nofail hq k h1 h2
  rw [runs_fails hr, hk] at this
  cases this

/-- A call that makes an object, except of NULL. -/
def Heap.Op.builds : Op → Prop
  | .poly e _ _ => e ≠ none
  | .clone p => p ≠ none
  | .copy _ | .copyRing _ | .copyPoly _ | .free _ | .freeRing _ | .freePoly _ => False
  | _ => True

/-- If none of its allocations fails, a constructor does not return NULL. Copies are in
`C34_null`. -/
theorem C33_success (hr : Runs fails ok h own) {op : Op} (hb : op.builds) {q : Ptr}
    (hrun : op.run h = some (q, h')) (hk : ∀ k, h.next ≤ k → k < h'.next → fails k = false) :
    q ≠ none := by
  have nf : NoFail h h' := fun k h1 h2 => by rw [runs_fails hr]; exact hk k h1 h2
  have use : Sure op.run (fun q => q ≠ none) := by
    cases op with
    | series pts cl ix st => exact sure_seriesNew _ _ _ _
    | point p => exact sure_malloc _
    | pointZm fl p z m => exact sure_malloc _
    | empty ty => exact sure_malloc _
    | poly e hs n =>
      cases e with
      | none => exact absurd rfl hb
      | some e => exact sure_polyNew e hs n
    | single ty c co fl => exact sure_singleNew _ _ _ _
    | multipoint pts => exact sure_multipointNew _
    | multi ty cs => exact sure_multiNew _ _
    | multipointZm pts co fl => exact sure_withExtra (sure_multipointNew _) _ _
    | multiZm ty cs co fl => exact sure_withExtra (sure_multiNew _ _) _ _
    | clone p => exact (sure_clone p).mono (fun q e => by rw [e]; exact hb)
    | _ => exact absurd hb id
  exact (use h q h' hrun).2.2 nf

end C33

/-- The third allocation fails while a collection is made. -/
example : ∃ h, (Op.multi .collection []).run (Heap.init fun k => k == 2) = some (none, h) ∧
    h.next = 3 := ⟨_, rfl, rfl⟩

/-! ### C34  Deep copy

The full statement: every copy equals the original and shares no storage with it. It fails for
objects with an index (`C34_index_witness`) and for geometries with a NULL line, polygon or child
(`C34_empty_witness`), so `C34_copy_partial` is about objects without an index, and
`C34_null_partial` about objects without NULLs inside. -/

section C34
variable {fails : Nat → Bool} {ok : Heap → Op → Prop} {h h' : Heap} {own : Multiset Nat}

/-- The argument of a copy: `tg_geom_copy`, `tg_poly_copy`, `tg_ring_copy`, `tg_line_copy`. -/
def Heap.Op.source : Op → Option Ptr
  | .copy p | .copyRing p | .copyPoly p => some p
  | _ => none

/-- The blocks of the original do not change, those of the copy are new, and if the original has
no index then the copy has the same value and no index either, so no pointer of it leads into the
original. -/
theorem C34_copy_partial (hr : Runs fails ok h own) {op : Op} {p : Ptr} (hs : op.source = some p)
    (ha : Allowed h own op) {b : Nat} (hrun : op.run h = some (some b, h')) :
    (∀ i c, h.cells i = some c → h'.cells i = some c) ∧
    (∀ i, Reach h' (some b) i → h.cells i = none ∧ h'.cells i ≠ none) ∧
    (Plain h p → (∀ n, tree h' n (some b) = tree h n p) ∧ Plain h' (some b)) := by
  obtain ⟨r, inv⟩ := runs_inv hr
  have hs' : op.copied = some p := by cases op <;> first | exact hs | cases hs
  obtain ⟨q', h'', e, r', cp⟩ := copied_ok inv hs' ha
  rw [hrun] at e
  cases e
  obtain ⟨r2, i2, _⟩ := cp.made.inv
  have ag := cp.old (by simp)
  refine ⟨fun i c hc => by rw [ag i (inv.lt hc) (by simp)]; exact hc, fun i hri => ⟨?_, ?_⟩,
    fun hpl => ⟨cp.tree (by simp) hpl, ?_⟩⟩
  · exact inv.fresh i (copy_fresh inv i2 cp.made.step.le ag (fun x hx => cp.made.kind x hx) hri)
  · obtain ⟨c, hc⟩ := reach_live i2 (fun x hx => (i2.held
      (Multiset.mem_add.2 (Or.inl (by cases hx; simp)))).2) hri
    rw [hc]; simp
  · exact tree_plain inv (copied_live hs' ha) (cp.tree (by simp) hpl) hpl

/-- A copy of an object without NULLs inside is NULL only if an allocation failed. -/
theorem C34_null_partial (hr : Runs fails ok h own) {op : Op} {p : Ptr}
    (hs : op.source = some p) (ha : Allowed h own op) (hp : p ≠ none) (hsol : Solid h p)
    (hrun : op.run h = some (none, h')) : ∃ k, h.next ≤ k ∧ k < h'.next ∧ fails k = true := by
  obtain ⟨r, inv⟩ := runs_inv hr
  have hs' : op.copied = some p := by cases op <;> first | exact hs | cases hs
  obtain ⟨q', h'', e, r', cp⟩ := copied_ok inv hs' ha
  rw [hrun] at e
  cases e
  rcases cp.null rfl hsol with e | e
  · exact absurd e hp
  · by_contra hno
    refine e (fun k h1 h2 => ?_)
    rw [runs_fails hr]
    by_contra hk
    exact hno ⟨k, h1, h2, by simpa using hk⟩

theorem Heap.kind_isGeometry {c d : Cell} (hkd : d.kind = c.kind) (hk : c.isGeometry) :
    d.isGeometry := by
  rcases c with ⟨_, _ | _⟩ | _ | _ | _ | _ | _ | _ | _ <;>
    rcases d with ⟨_, _ | _⟩ | _ | _ | _ | _ | _ | _ | _ <;>
    first | exact absurd rfl hk | (cases hkd; done) | exact Option.some_ne_none _

/-- Freeing the copy leaves the value of the original, freeing an original that the caller owns
leaves the value of the copy. -/
theorem C34_free (hr : Runs fails anyOp h own) {p : Nat} (hp : p ∈ own)
    (ha : Allowed h own (.copy (some p))) {b : Nat}
    (hrun : (Op.copy (some p)).run h = some (some b, h')) :
    (∀ h'' q, (Op.free (some b)).run h' = some (q, h'') →
      ∀ n, tree h'' n (some p) = tree h' n (some p)) ∧
    (∀ h'' q, (Op.free (some p)).run h' = some (q, h'') →
      ∀ n, tree h'' n (some b) = tree h' n (some b)) := by
  have hr' := Runs.call hr ha trivial hrun
  obtain ⟨r, inv⟩ := runs_inv hr
  obtain ⟨r', inv'⟩ := runs_inv hr'
  have hown : after own (.copy (some p)) (some b) = b ::ₘ own := by
    simp [after, Op.freed, refsOf]
  rw [hown] at hr' inv'
  obtain ⟨h1, h2, _⟩ := C34_copy_partial hr rfl ha hrun
  have hbp : b ≠ p := by
    rintro rfl
    obtain ⟨_, c, hc⟩ := inv.held hp
    have := (h2 b (.root rfl)).1
    rw [hc] at this; cases this
  obtain ⟨_, c, hc, hk⟩ := ha p rfl
  have hcb := (h2 b (.root rfl)).2
  obtain ⟨cb, hcb⟩ := Option.ne_none_iff_exists'.1 hcb
  have hkb : cb.isGeometry := by
    obtain ⟨q', h'', e, r'', cp⟩ := copied_ok inv (op := .copy (some p)) rfl ha
    rw [hrun] at e; cases e
    have := cp.kind p rfl b rfl c.kind ⟨c, hc, rfl⟩
    obtain ⟨d, hd, hkd⟩ := this
    rw [hcb] at hd; cases hd
    exact kind_isGeometry hkd hk
  constructor
  · intro h'' q hfree n
    refine C31_values hr' (op := .free (some b)) ?_ hfree (a := p) ?_ (.root rfl) n
    · rintro x ⟨⟩
      exact ⟨by simp, cb, hcb, hkb⟩
    · simpa [Op.freed, refsOf] using hp
  · intro h'' q hfree n
    refine C31_values hr' (op := .free (some p)) ?_ hfree (a := b) ?_ (.root rfl) n
    · rintro x ⟨⟩
      exact ⟨by simp [hp], c, h1 p c hc, hk⟩
    · simp only [Op.freed, refsOf]
      rw [← Multiset.singleton_add b own]
      refine Multiset.mem_of_le (s := {b}) ?_ (by simp)
      rw [Multiset.le_iff_count]
      intro x
      rw [Multiset.count_sub, Multiset.count_add, Multiset.count_singleton,
        Multiset.count_singleton]
      split <;> split <;> simp_all

end C34

/-- The copy of a ring with an index keeps a pointer to the index inside the original: once the
original is freed the pointer leads to released memory. -/
theorem C34_index_witness : ∃ h1 h2 h3 : Heap,
    (Op.series [] true true false).run (Heap.init fun _ => false) = some (some 0, h1) ∧
    (Op.copyRing (some 0)).run h1 = some (some 1, h2) ∧
    (Op.freeRing (some 0)).run h2 = some (none, h3) ∧
    h3.cells 1 = some (.series 1 true (some 0) none []) ∧ h3.cells 0 = none :=
  ⟨_, _, _, rfl, rfl, rfl, rfl, rfl⟩

/-- The copy of an empty LineString is NULL, although no allocation fails. -/
theorem C34_empty_witness : ∃ h1 h2 : Heap,
    (Op.empty .linestring).run (Heap.init fun _ => false) = some (some 0, h1) ∧
    (Op.copy (some 0)).run h1 = some (none, h2) :=
  ⟨_, _, rfl, rfl⟩

/-- A copy of a polygon with a hole: new blocks, the same value. -/
example : ∃ h1 h2 h3 : Heap,
    (Op.series [] true false false).run (Heap.init fun _ => false) = some (some 0, h1) ∧
    (Op.poly (some 0) [some 0] 1).run h1 = some (some 1, h2) ∧
    (Op.copy (some 1)).run h2 = some (some 3, h3) ∧
    h3.cells 3 = some (.poly 1 (some 4) 1 (some 5)) ∧
    h3.cells 5 = some (.rings [some 6]) ∧ Plain h2 (some 1) ∧ Solid h2 (some 1) := by
  have key : ∀ h2 : Heap, h2.cells 0 = some (.series 3 true none none []) →
      h2.cells 1 = some (.poly 1 (some 0) 1 (some 2)) → h2.cells 2 = some (.rings [some 0]) →
      ∀ i, Reach h2 (some 1) i → ∀ c, h2.cells i = some c → c.noIndex ∧ c.solid := by
    intro h2 c0 c1 c2 i hi
    have hm : i = 0 ∨ i = 1 ∨ i = 2 := by
      induction hi with
      | root e => cases e; simp
      | step _ hc hm ih =>
        rcases ih with rfl | rfl | rfl
        · rw [c0] at hc; cases hc; simp [Cell.kids] at hm
        · rw [c1] at hc; cases hc; simp [Cell.kids] at hm; omega
        · rw [c2] at hc; cases hc; simp [Cell.kids] at hm; omega
    intro c hc
    rcases hm with rfl | rfl | rfl
    · rw [c0] at hc; cases hc; exact ⟨rfl, trivial⟩
    · rw [c1] at hc; cases hc; exact ⟨trivial, by simp [Cell.solid]⟩
    · rw [c2] at hc; cases hc; exact ⟨trivial, by simp [Cell.solid]⟩
  exact ⟨_, _, _, rfl, rfl, rfl, rfl, rfl, fun i hi c hc => (key _ rfl rfl rfl i hi c hc).1,
    fun i hi c hc => (key _ rfl rfl rfl i hi c hc).2⟩

end Tg
