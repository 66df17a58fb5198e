import Verif.Spec.History
import Verif.Lemmas.HeapCopyGeom
/-! Histories of calls keep the counting invariant. -/
set_option linter.unusedSectionVars false
set_option linter.dupNamespace false
namespace Tg.Heap

theorem refsOf_eq (p : Ptr) : refsOf p = pm p := by cases p <;> rfl

theorem isRing_is {h : Heap} {a : Addr} {c : Cell} (hc : h.cells a = some c) (hk : c.isRing) :
    Is h a .ring := by
  refine ⟨c, hc, ?_⟩
  cases c <;> simp_all [Cell.isRing, Cell.kind]

theorem isLine_is {h : Heap} {a : Addr} {c : Cell} (hc : h.cells a = some c) (hk : c.isLine) :
    Is h a .line := by
  refine ⟨c, hc, ?_⟩
  cases c <;> simp_all [Cell.isLine, Cell.kind]

theorem isPolygon_is {h : Heap} {a : Addr} {c : Cell} (hc : h.cells a = some c)
    (hk : c.isPolygon) : IsPoly h a := by
  cases c <;> simp only [Cell.isPolygon] at hk
  · subst hk; exact Or.inl ⟨_, hc, rfl⟩
  · exact Or.inr ⟨_, hc, rfl⟩

theorem isGeometry_is {h : Heap} {a : Addr} {c : Cell} (hc : h.cells a = some c)
    (hk : c.isGeometry) : IsGeom h a := by
  cases c with
  | series rc cl ix st pts =>
    cases cl
    · exact Or.inl ⟨_, hc, rfl⟩
    · exact Or.inr (Or.inl ⟨_, hc, rfl⟩)
  | bpoint => exact Or.inr (Or.inr (Or.inl ⟨_, hc, rfl⟩))
  | poly => exact Or.inr (Or.inr (Or.inr (Or.inl ⟨_, hc, rfl⟩)))
  | geom => exact Or.inr (Or.inr (Or.inr (Or.inr ⟨_, hc, rfl⟩)))
  | _ => exact absurd rfl hk

theorem mine_split {h : Heap} {own : Multiset Addr} {K : Cell → Prop} {p : Ptr}
    (hm : Mine h own K p) : own = pm p + (own - pm p) := by
  cases p with
  | none => simp
  | some a =>
    have : {a} ≤ own := Multiset.singleton_le.2 (hm a rfl).1
    rw [pm_some, add_comm, Multiset.sub_add_cancel this]

/-- The outcome of a call. -/
structure Done (h : Heap) (own : Multiset Addr) (op : Op) (q : Ptr) (h' : Heap) : Prop where
  inv : ∃ r', Inv r' h' ∅ (after own op q)
  step : Step ∅ h h'
  nofail : q ≠ none → NoFail h h'

theorem Done.of_made {r : Addr → Nat} {h : Heap} {own : Multiset Addr} {op : Op}
    (hop : op.freed = none) {K : Heap → Addr → Prop} {q : Ptr} {h' : Heap}
    (m : Made r ∅ own h K q h') : Done h own op q h' := by
  obtain ⟨r', i', _⟩ := m.inv
  exact ⟨⟨r', i'.congr (by simp [after, hop, refsOf_eq])⟩, m.step, m.nofail⟩

theorem Done.of_freed {r : Addr → Nat} {h : Heap} {own : Multiset Addr} {op : Op} {p : Ptr}
    (hop : op.freed = p) {f : M Unit} (hw : wp f (Freed r ∅ (own - pm p) h) h) :
    wp (do f; pure none) (Done h own op) h := by
  apply wp_bind
  refine wp_mono hw ?_
  rintro _ h1 ⟨i1, f1⟩
  exact wp_pure ⟨⟨r, i1.congr (by simp [after, hop, refsOf_eq])⟩, f1.toStep,
    fun e => absurd rfl e⟩

theorem arg_geom {h : Heap} {own : Multiset Addr} {K : Cell → Prop} {p : Ptr}
    (ha : Arg h own K p) (hK : ∀ c, K c → c.isGeometry) : ∀ a ∈ p, a ∉ (∅ : Finset Addr) ∧ IsGeom h a :=
  fun a h' => by
    obtain ⟨_, c, hc, hk⟩ := ha a h'
    exact ⟨by simp, isGeometry_is hc (hK c hk)⟩

theorem isRing_geom (c : Cell) (h : c.isRing) : c.isGeometry := by
  cases c <;> simp_all [Cell.isRing, Cell.isGeometry, Cell.rc]
theorem isLine_geom (c : Cell) (h : c.isLine) : c.isGeometry := by
  cases c <;> simp_all [Cell.isLine, Cell.isGeometry, Cell.rc]
theorem isPolygon_geom (c : Cell) (h : c.isPolygon) : c.isGeometry := by
  cases c <;> simp_all [Cell.isPolygon, Cell.isGeometry, Cell.rc]

theorem multi_args {h : Heap} {own : Multiset Addr} {ty : GType} {cs : List Ptr}
    (ha : (ty = .multilinestring ∧ ∀ p ∈ cs, Arg h own Cell.isLine p) ∨
      (ty = .multipolygon ∧ ∀ p ∈ cs, Arg h own Cell.isPolygon p) ∨
      (ty = .collection ∧ ∀ p ∈ cs, Arg h own Cell.isGeometry p)) :
    isMulti ty = true ∧ ∀ p ∈ cs, ∀ b ∈ p, b ∉ (∅ : Finset Addr) ∧ IsGeom h b := by
  rcases ha with ⟨rfl, ha⟩ | ⟨rfl, ha⟩ | ⟨rfl, ha⟩
  · exact ⟨rfl, fun p hp => arg_geom (ha p hp) isLine_geom⟩
  · exact ⟨rfl, fun p hp => arg_geom (ha p hp) isPolygon_geom⟩
  · exact ⟨rfl, fun p hp => arg_geom (ha p hp) (fun _ h => h)⟩

theorem op_ok {r : Addr → Nat} {h : Heap} {own : Multiset Addr} (hi : Inv r h ∅ own) (op : Op)
    (ha : Allowed h own op) : wp op.run (Done h own op) h := by
  cases op with
  | series pts cl ix st =>
    exact wp_mono (seriesNew_ok pts cl ix st hi) (fun _ _ m => Done.of_made rfl m)
  | point p => exact wp_mono (pointNew_ok p hi) (fun _ _ m => Done.of_made rfl m)
  | pointZm fl p z m =>
    exact wp_mono (pointNewZm_ok fl p z m hi) (fun _ _ m => Done.of_made rfl m)
  | empty ty => exact wp_mono (geomNew_ok ty _ hi) (fun _ _ m => Done.of_made rfl m)
  | poly e hs n =>
    obtain ⟨h1, h2, h3⟩ := ha
    exact wp_mono (polyNew_ok hi
      (fun a ha => by obtain ⟨_, c, hc, hk⟩ := h1 a ha; exact ⟨by simp, isRing_is hc hk⟩)
      (fun p hp a ha => by obtain ⟨_, c, hc, hk⟩ := h2 p hp a ha; exact ⟨by simp, isRing_is hc hk⟩)
      h3) (fun _ _ m => Done.of_made rfl m)
  | single ty c co fl =>
    refine wp_mono (singleNew_ok co fl hi (ha.imp And.left And.left) ?_ ?_)
      (fun _ _ m => Done.of_made rfl m)
    · rintro rfl a hac
      rcases ha with ⟨_, ha⟩ | ⟨e, _⟩
      · obtain ⟨_, c, hc, hk⟩ := ha a hac
        exact ⟨by simp, isLine_is hc hk⟩
      · cases e
    · rintro rfl a hac
      rcases ha with ⟨e, _⟩ | ⟨_, ha⟩
      · cases e
      · obtain ⟨_, c, hc, hk⟩ := ha a hac
        exact ⟨by simp, isPolygon_is hc hk⟩
  | multipoint pts => exact wp_mono (multipointNew_ok pts hi) (fun _ _ m => Done.of_made rfl m)
  | multi ty cs =>
    obtain ⟨h1, h2⟩ := multi_args ha
    exact wp_mono (multiNew_ok h1 cs hi h2) (fun _ _ m => Done.of_made rfl m)
  | multipointZm pts co fl =>
    exact wp_mono (withExtra_ok rfl co fl (multipointNew_ok pts hi))
      (fun _ _ m => Done.of_made rfl m)
  | multiZm ty cs co fl =>
    obtain ⟨h1, h2⟩ := multi_args ha
    exact wp_mono (withExtra_ok h1 co fl (multiNew_ok h1 cs hi h2))
      (fun _ _ m => Done.of_made rfl m)
  | clone p =>
    refine wp_mono (clone_ok hi (arg_geom ha (fun _ h => h))) ?_
    rintro q h' ⟨rfl, i', f', _⟩
    exact ⟨⟨r, i'.congr (by simp [after, Op.freed, refsOf_eq])⟩, f'.toStep,
      fun _ => NoFail.refl _ _ f'.next⟩
  | copy p =>
    refine wp_mono (tgGeomCopy_ok hi (arg_geom ha (fun _ h => h))) ?_
    rintro q h' ⟨r', cp⟩
    exact Done.of_made rfl cp.made
  | copyRing p =>
    refine wp_mono (ringCopy_ok hi (fun a hap => ?_)) ?_
    · obtain ⟨_, c, hc, hk⟩ := ha a hap
      exact ⟨by simp, hk.imp (isRing_is hc) (isLine_is hc)⟩
    · intro q h' cp
      exact Done.of_made rfl cp.made
  | copyPoly p =>
    refine wp_mono (polyCopy_ok hi (fun a hap => ?_)) ?_
    · obtain ⟨_, c, hc, hk⟩ := ha a hap
      exact ⟨by simp, isPolygon_is hc hk⟩
    · intro q h' cp
      exact Done.of_made rfl cp.made
  | free p =>
    refine Done.of_freed rfl (tgGeomFree_ok (hi.congr (mine_split ha)) (fun a hap => ?_))
    obtain ⟨_, c, hc, hk⟩ := ha a hap
    exact isGeometry_is hc hk
  | freeRing p =>
    refine Done.of_freed rfl (ringFree_ok (hi.congr (mine_split ha)) (fun a hap => ?_))
    obtain ⟨_, c, hc, hk⟩ := ha a hap
    exact hk.imp (isRing_is hc) (isLine_is hc)
  | freePoly p =>
    refine Done.of_freed rfl (polyFree_ok (hi.congr (mine_split ha)) (fun a hap => ?_))
    obtain ⟨_, c, hc, hk⟩ := ha a hap
    exact isPolygon_is hc hk

theorem inv_init (fails : Nat → Bool) : Inv (fun _ => 0) (Heap.init fails) ∅ 0 := by
  constructor <;> simp [refs, Heap.init]

theorem runs_inv {fails : Nat → Bool} {ok : Heap → Op → Prop} {h : Heap} {own : Multiset Addr}
    (hr : Runs fails ok h own) : ∃ r, Inv r h ∅ own := by
  induction hr with
  | init => exact ⟨_, inv_init fails⟩
  | call _ ha _ hrun ih =>
    obtain ⟨r, hi⟩ := ih
    obtain ⟨q', h'', e, d⟩ := op_ok hi _ ha
    rw [hrun] at e
    cases e
    exact d.inv

theorem runs_fails {fails : Nat → Bool} {ok : Heap → Op → Prop} {h : Heap} {own : Multiset Addr}
    (hr : Runs fails ok h own) : h.fails = fails := by
  induction hr with
  | init => rfl
  | call hr ha _ hrun ih =>
    obtain ⟨r, hi⟩ := runs_inv hr
    obtain ⟨q', h'', e, d⟩ := op_ok hi _ ha
    rw [hrun] at e
    cases e
    rw [d.step.fails, ih]

theorem reach_live {r : Addr → Nat} {h : Heap} {own : Multiset Addr} (hi : Inv r h ∅ own)
    {p : Ptr} (hp : ∀ a ∈ p, ∃ c, h.cells a = some c) {i : Addr} (hr : Reach h p i) :
    ∃ c, h.cells i = some c := by
  induction hr with
  | root e => exact hp _ e
  | step _ hc hk ih => exact (hi.child (by simp) hc (mem_ptrs.2 hk)).2

theorem live_reach {r : Addr → Nat} {h : Heap} {own : Multiset Addr} (hi : Inv r h ∅ own)
    {i : Addr} {c : Cell} (hc : h.cells i = some c) : ∃ a ∈ own, Reach h (some a) i :=
  hi.top (P := fun i => ∃ a ∈ own, Reach h (some a) i)
    (fun j hj => ⟨j, hj, .root rfl⟩)
    (fun k d _ hd ⟨a, ha, hr⟩ j hj => ⟨a, ha, .step hr hd (mem_ptrs.1 hj)⟩) i c (by simp) hc

/-- The values of the references that stay with the caller are not changed by a call. -/
theorem tree_keep {r r' : Addr → Nat} {h h' : Heap} {E E' : Multiset Addr} (hi : Inv r h ∅ E)
    (hi' : Inv r' h' ∅ E') (s : Step ∅ h h') :
    ∀ n p, (∀ a ∈ p, (∃ c, h.cells a = some c) ∧ ∃ c, h'.cells a = some c) →
      tree h' n p = tree h n p
  | 0, none, _ => rfl
  | 0, some _, _ => rfl
  | _ + 1, none, _ => rfl
  | n + 1, some a, hk => by
    obtain ⟨⟨c, hc⟩, c', hc'⟩ := hk a rfl
    obtain ⟨d, hd, hs⟩ := s.old a (hi.lt hc) c' hc'
    rw [hc] at hd; cases hd
    have hkid : c'.kids = c.kids := by
      cases c' <;> cases c <;> simp_all [Same, Cell.withRc, Cell.kids]
    have : c'.view (tree h' n) a = c.view (tree h' n) a := by
      cases c' <;> cases c <;> simp_all [Same, Cell.withRc, Cell.view]
    simp only [tree, hc, hc', Option.elim, this]
    apply view_congr
    intro p hp
    refine tree_keep hi hi' s n p ?_
    intro b hb
    have hb' : some b ∈ c.kids := by rw [← show p = some b from hb]; exact hp
    exact ⟨(hi.child (by simp) hc (mem_ptrs.2 hb')).2,
      (hi'.child (by simp) hc' (mem_ptrs.2 (by rw [hkid]; exact hb'))).2⟩

/-! ### Copies of plain objects are plain -/

theorem view_kids {c c' : Cell} {f g : Ptr → Tree} {a b : Addr}
    (h : c.view f a = c'.view g b) :
    c.kids.map f = c'.kids.map g ∧ (c'.noIndex → c.noIndex) := by
  have hown : ∀ {x y : Ptr}, own a x = own b y → y = none → x = none := by
    intro x y e hy
    subst hy
    cases x <;> simp_all [own]
  cases c <;> cases c' <;> simp_all [Cell.view, Cell.kids, Cell.noIndex] <;> first | exact hown h.2.1 | exact hown h.1

theorem tree_plain {r : Addr → Nat} {h h' : Heap} {E : Multiset Addr} (hi : Inv r h ∅ E)
    {p q : Ptr} (hp : ∀ a ∈ p, ∃ c, h.cells a = some c)
    (ht : ∀ n, tree h' n q = tree h n p) (hpl : Plain h p) : Plain h' q := by
  have key : ∀ i, Reach h' q i → ∃ j, Reach h p j ∧ ∀ n, tree h' n (some i) = tree h n (some j) := by
    intro i hr
    induction hr with
    | root e =>
      cases hpe : p with
      | none =>
        have := ht 0
        rw [e, hpe] at this
        simp [tree] at this
      | some j => exact ⟨j, .root rfl, fun n => by rw [← e, ← hpe]; exact ht n⟩
    | @step j i c hrj hc hk ih =>
      obtain ⟨j', hrj', he⟩ := ih
      obtain ⟨c', hc'⟩ := reach_live hi hp hrj'
      have hmap : ∀ n, c.kids.map (tree h' n) = c'.kids.map (tree h n) := fun n => by
        have := he (n + 1)
        simp only [tree, hc, hc', Option.elim] at this
        exact (view_kids this).1
      obtain ⟨k, hkl, hke⟩ := List.mem_iff_getElem.1 hk
      have hlen : c.kids.length = c'.kids.length := by
        have := congrArg List.length (hmap 0)
        simpa using this
      have hval : ∀ n, tree h' n (some i) = tree h n (c'.kids[k]'(by omega)) := fun n => by
        have h1 : (c.kids.map (tree h' n))[k]? = (c'.kids.map (tree h n))[k]? := by rw [hmap n]
        rw [List.getElem?_eq_getElem (by simpa using hkl),
          List.getElem?_eq_getElem (by rw [List.length_map]; omega)] at h1
        simpa [hke] using h1
      cases hx : c'.kids[k]'(by omega) with
      | none => have := hval 0; rw [hx] at this; simp [tree] at this
      | some i' =>
        refine ⟨i', .step hrj' hc' (by rw [← hx]; exact List.getElem_mem _), fun n => ?_⟩
        rw [hval n, hx]
  intro i hr c hc
  obtain ⟨j, hrj, he⟩ := key i hr
  obtain ⟨c', hc'⟩ := reach_live hi hp hrj
  have := he 1
  simp only [tree, hc, hc', Option.elim] at this
  exact (view_kids this).2 (hpl j hrj c' hc')

/-- New blocks next to old blocks that did not change do not point to the old ones. -/
theorem new_fresh {r r' : Addr → Nat} {h h' : Heap} {E : Multiset Addr} {q : Ptr}
    (hi : Inv r h ∅ E) (hi' : Inv r' h' ∅ (pm q + E)) (hle : h.next ≤ h'.next)
    (ag : Agree ∅ h h') {k i : Addr} {c : Cell} (hk : h.next ≤ k) (hc : h'.cells k = some c)
    (hm : i ∈ c.ptrs) : h.next ≤ i := by
  by_contra hn
  have hil : i < h.next := by omega
  obtain ⟨_, d, hd⟩ := hi'.child (by simp) hc hm
  have hd0 : h.cells i = some d := by rw [← ag i hil (by simp)]; exact hd
  have h1 := (hi.live i d (by simp) hd0).1
  have h2 := (hi'.live i d (by simp) hd).1
  obtain ⟨n, hn'⟩ := Nat.exists_eq_add_of_le hle
  have hsplit : refs h' ∅ = refs h ∅ + ∑ x ∈ Finset.range n, out h' ∅ (h.next + x) := by
    unfold refs
    rw [hn', Finset.sum_range_add]
    congr 1
    refine Finset.sum_congr rfl (fun j hj => ?_)
    unfold out
    rw [ag j (by simpa using hj) (by simp)]
  have hmem : i ∈ ∑ x ∈ Finset.range n, out h' ∅ (h.next + x) := by
    rw [Multiset.mem_sum]
    have := hi'.lt hc
    refine ⟨k - h.next, by simp; omega, ?_⟩
    rw [Nat.add_sub_cancel' hk]
    simp [out, hc, hm]
  have := Multiset.count_pos.2 hmem
  rw [hsplit] at h2
  simp only [Multiset.count_add] at h1 h2
  omega

theorem copy_fresh {r r' : Addr → Nat} {h h' : Heap} {E : Multiset Addr} {q : Ptr}
    (hi : Inv r h ∅ E) (hi' : Inv r' h' ∅ (pm q + E)) (hle : h.next ≤ h'.next)
    (ag : Agree ∅ h h') (hq : ∀ b ∈ q, h.next ≤ b) {i : Addr} (hr : Reach h' q i) :
    h.next ≤ i := by
  induction hr with
  | root e => exact hq _ e
  | step _ hc hk ih => exact new_fresh hi hi' hle ag ih hc (mem_ptrs.2 hk)

/-! ### Indexes stay within their blocks -/

def OwnIx (h : Heap) : Prop := ∀ a c, h.cells a = some c → c.ownIndex a

def Keeps {α : Type} (m : M α) : Prop :=
  ∀ h x h', OwnIx h → m h = some (x, h') → OwnIx h'

theorem keeps_pure {α : Type} (x : α) : Keeps (pure x : M α) := by
  intro h y h' ho e
  cases e
  exact ho

theorem keeps_fault {α : Type} : Keeps (fault : M α) := by
  intro h y h' _ e
  cases e

theorem keeps_bind {α β : Type} {m : M α} {f : α → M β} (hm : Keeps m) (hf : ∀ x, Keeps (f x)) :
    Keeps (m >>= f) := by
  intro h y h' ho e
  change (match m h with | none => none | some (a, h') => f a h') = _ at e
  cases hmh : m h with
  | none => rw [hmh] at e; cases e
  | some x =>
    obtain ⟨a, h1⟩ := x
    rw [hmh] at e
    exact hf a h1 y h' (hm h a h1 ho hmh) e

theorem bind_fault {α β : Type} {m : M α} {f : α → M β} {h : Heap} (hm : m h = none) :
    (m >>= f) h = none := by
  show (match m h with | none => none | some (a, h') => f a h') = _
  rw [hm]

theorem keeps_load {α : Type} {a : Addr} {f : Cell → M α}
    (hf : ∀ c : Cell, c.ownIndex a → Keeps (f c)) : Keeps (load a >>= f) := by
  intro h y h' ho e
  cases hc : h.cells a with
  | none =>
    rw [bind_fault (by simp [load, hc])] at e
    cases e
  | some c =>
    rw [bind_of (a := c) (h' := h) (by simp [load, hc])] at e
    exact hf c (ho a c hc) h y h' ho e

theorem OwnIx.set {h : Heap} (ho : OwnIx h) {a : Addr} {c : Option Cell}
    (hc : ∀ d ∈ c, d.ownIndex a) : OwnIx (h.set a c) := by
  intro b d hd
  by_cases hb : b = a
  · subst hb
    rw [set_cells_self] at hd
    exact hc d hd
  · rw [set_cells_ne _ _ hb] at hd
    exact ho b d hd

theorem keeps_store {a : Addr} {c : Cell} (hc : c.ownIndex a) : Keeps (store a c) := by
  intro h y h' ho e
  unfold store at e
  cases hca : h.cells a with
  | none => rw [hca] at e; cases e
  | some d =>
    rw [hca] at e
    cases e
    exact ho.set (fun d hd => by cases hd; exact hc)

theorem keeps_release (a : Addr) : Keeps (release a) := by
  intro h y h' ho e
  unfold release at e
  cases hca : h.cells a with
  | none => rw [hca] at e; cases e
  | some d =>
    rw [hca] at e
    cases e
    exact ho.set (fun d hd => by cases hd)

theorem keeps_malloc {c : Cell} (hc : ∀ a, c.ownIndex a) : Keeps (malloc c) := by
  intro h y h' ho e
  unfold malloc at e
  split at e
  · cases e; exact ho
  · cases e
    intro b d hd
    exact (ho.set (a := h.next) (c := some c) (fun d hd => by cases hd; exact hc _)) b d hd

theorem ownIndex_withRc {c : Cell} {a : Addr} {k : Int} (hc : c.ownIndex a) :
    (c.withRc k).ownIndex a := by
  cases c <;> exact hc

theorem keeps_ite {α : Type} {b : Prop} [Decidable b] {x y : M α} (hx : Keeps x) (hy : Keeps y) :
    Keeps (if b then x else y) := by
  split
  · exact hx
  · exact hy

theorem keeps_releaseOpt (p : Ptr) : Keeps (releaseOpt p) := by
  cases p
  · exact keeps_pure _
  · exact keeps_release _

theorem keeps_rcRetain (a : Addr) : Keeps (rcRetain a) := by
  refine keeps_load (fun c hc => ?_)
  split
  · exact keeps_fault
  · exact keeps_store (ownIndex_withRc hc)

theorem keeps_rcRelease (a : Addr) : Keeps (rcRelease a) := by
  refine keeps_load (fun c hc => ?_)
  split
  · exact keeps_fault
  · exact keeps_bind (keeps_store (ownIndex_withRc hc)) (fun _ => keeps_pure _)

theorem keeps_clone (p : Ptr) : Keeps (clone p) := by
  cases p
  · exact keeps_pure _
  · exact keeps_bind (keeps_rcRetain _) (fun _ => keeps_pure _)

theorem keeps_ringDrop (a : Addr) : Keeps (ringDrop a) := by
  refine keeps_load (fun c _ => ?_)
  cases c <;> first
    | exact keeps_fault
    | exact keeps_bind (keeps_releaseOpt _) (fun _ => keeps_release _)

theorem keeps_ringFree (p : Ptr) : Keeps (ringFree p) := by
  cases p
  · exact keeps_pure _
  · exact keeps_bind (keeps_rcRelease _) (fun _ => keeps_ite (keeps_ringDrop _) (keeps_pure _))

theorem keeps_freeHoles (a : Addr) : ∀ n i, Keeps (freeHoles a i n)
  | 0, i => keeps_pure _
  | n + 1, i => by
    refine keeps_load (fun c _ => ?_)
    cases c <;> try exact keeps_fault
    dsimp only
    split
    · exact keeps_fault
    · exact keeps_bind (keeps_ringFree _) (fun _ => keeps_freeHoles a n (i + 1))

theorem keeps_dropHoles (p : Ptr) (n : Nat) : Keeps (dropHoles p n) := by
  cases p
  · exact keeps_pure _
  · exact keeps_bind (keeps_freeHoles _ _ _) (fun _ => keeps_release _)

theorem keeps_polyDrop (a : Addr) : Keeps (polyDrop a) := by
  refine keeps_load (fun c _ => ?_)
  cases c <;> first
    | exact keeps_fault
    | exact keeps_bind (keeps_ringFree _) (fun _ => keeps_bind (keeps_dropHoles _ _)
        (fun _ => keeps_release _))

theorem keeps_polyFree (p : Ptr) : Keeps (polyFree p) := by
  cases p with
  | none => exact keeps_pure _
  | some a =>
    refine keeps_load (fun c _ => ?_)
    split
    · exact keeps_ringFree _
    · exact keeps_bind (keeps_rcRelease _) (fun _ => keeps_ite (keeps_polyDrop _) (keeps_pure _))
    · exact keeps_fault

theorem keeps_bpointFree (a : Addr) : Keeps (bpointFree a) :=
  keeps_bind (keeps_rcRelease _) (fun _ => keeps_ite (keeps_release _) (keeps_pure _))

theorem keeps_freeGeoms {free : Ptr → M Unit} (hf : ∀ p, Keeps (free p)) (a : Addr) :
    ∀ n i, Keeps (freeGeoms free a i n)
  | 0, i => keeps_pure _
  | n + 1, i => by
    refine keeps_load (fun c _ => ?_)
    cases c <;> try exact keeps_fault
    dsimp only
    split
    · exact keeps_fault
    · exact keeps_bind (hf _) (fun _ => keeps_freeGeoms hf a n (i + 1))

theorem keeps_dropGeoms {free : Ptr → M Unit} (hf : ∀ p, Keeps (free p)) (p : Ptr) (n : Nat) :
    Keeps (dropGeoms free p n) := by
  cases p
  · exact keeps_pure _
  · exact keeps_bind (keeps_freeGeoms hf _ _ _) (fun _ => keeps_release _)

theorem keeps_multiDrop {free : Ptr → M Unit} (hf : ∀ p, Keeps (free p)) (p : Ptr) :
    Keeps (multiDrop free p) := by
  cases p with
  | none => exact keeps_pure _
  | some m =>
    refine keeps_load (fun c _ => ?_)
    cases c <;> first
      | exact keeps_fault
      | exact keeps_bind (keeps_dropGeoms hf _ _) (fun _ => keeps_bind (keeps_releaseOpt _)
          (fun _ => keeps_bind (keeps_releaseOpt _) (fun _ => keeps_release _)))

theorem keeps_childDrop {free : Ptr → M Unit} (hf : ∀ p, Keeps (free p)) (ty : GType) (p : Ptr) :
    Keeps (childDrop free ty p) := by
  cases ty <;> first
    | exact keeps_pure _
    | exact keeps_ringFree _
    | exact keeps_polyFree _
    | exact keeps_multiDrop hf _

theorem keeps_dropCoords (ty : GType) (p : Ptr) : Keeps (dropCoords ty p) :=
  keeps_ite (keeps_pure _) (keeps_releaseOpt _)

theorem keeps_geomDrop {free : Ptr → M Unit} (hf : ∀ p, Keeps (free p)) (a : Addr) :
    Keeps (geomDrop free a) := by
  refine keeps_load (fun c _ => ?_)
  cases c <;> first
    | exact keeps_fault
    | exact keeps_bind (keeps_childDrop hf _ _) (fun _ => keeps_bind (keeps_dropCoords _ _)
        (fun _ => keeps_bind (keeps_releaseOpt _) (fun _ => keeps_release _)))

theorem keeps_geomFree (n : Nat) : ∀ p, Keeps (geomFree n p) := by
  induction n with
  | zero =>
    intro p
    cases p
    · exact keeps_pure _
    · exact keeps_fault
  | succ n ih =>
    intro p
    cases p with
    | none => exact keeps_pure _
    | some a =>
      refine keeps_load (fun c _ => ?_)
      cases c <;> first
        | exact keeps_fault
        | exact keeps_bpointFree _
        | exact keeps_ringFree _
        | exact keeps_polyFree _
        | exact keeps_bind (keeps_rcRelease _) (fun _ =>
            keeps_ite (keeps_geomDrop ih _) (keeps_pure _))

theorem keeps_tgGeomFree (p : Ptr) : Keeps (tgGeomFree p) :=
  fun h x h' ho e => keeps_geomFree _ p h x h' ho e

theorem keeps_processYstripes (a : Addr) : Keeps (processYstripes a) := by
  refine keeps_bind (keeps_malloc (fun _ => Or.inl rfl)) (fun t => ?_)
  cases t with
  | none => exact keeps_pure _
  | some t =>
    refine keeps_bind (keeps_malloc (fun _ => Or.inl rfl)) (fun s => ?_)
    cases s with
    | none => exact keeps_bind (keeps_release _) (fun _ => keeps_pure _)
    | some s =>
      refine keeps_bind (keeps_store (Or.inr rfl)) (fun _ => keeps_bind (keeps_release _)
        (fun _ => keeps_load (fun c hc => ?_)))
      cases c <;> try exact keeps_fault
      exact keeps_bind (keeps_store hc) (fun _ => keeps_pure _)

theorem keeps_seriesNew (pts : List Pt) (cl ix st : Bool) : Keeps (seriesNew pts cl ix st) := by
  refine keeps_bind (keeps_malloc (fun _ => Or.inl rfl)) (fun a => ?_)
  cases a with
  | none => exact keeps_pure _
  | some a =>
    refine keeps_bind (keeps_ite (keeps_store (Or.inr rfl)) (keeps_pure _)) (fun _ => ?_)
    refine keeps_ite (keeps_bind (keeps_processYstripes _) (fun _ => keeps_ite (keeps_pure _) ?_))
      (keeps_pure _)
    exact keeps_bind (keeps_ringFree _) (fun _ => keeps_pure _)

theorem keeps_setRing (a : Addr) (i : Nat) (p : Ptr) : Keeps (setRing a i p) := by
  refine keeps_load (fun c _ => ?_)
  cases c <;> try exact keeps_fault
  exact keeps_ite (keeps_store trivial) keeps_fault

theorem keeps_setGeom (a : Addr) (i : Nat) (p : Ptr) : Keeps (setGeom a i p) := by
  refine keeps_load (fun c _ => ?_)
  cases c <;> try exact keeps_fault
  exact keeps_ite (keeps_store trivial) keeps_fault

theorem keeps_cloneHoles (a : Addr) : ∀ l i, Keeps (cloneHoles a i l)
  | [], _ => keeps_pure _
  | p :: l, i => keeps_bind (keeps_clone _) (fun _ => keeps_bind (keeps_setRing _ _ _)
      (fun _ => keeps_cloneHoles a l (i + 1)))

theorem keeps_cloneGeoms (a : Addr) : ∀ l i, Keeps (cloneGeoms a i l)
  | [], _ => keeps_pure _
  | p :: l, i => keeps_bind (keeps_clone _) (fun _ => keeps_bind (keeps_setGeom _ _ _)
      (fun _ => keeps_cloneGeoms a l (i + 1)))

theorem keeps_polyNew (e : Ptr) (hs : List Ptr) (n : Int) : Keeps (polyNew e hs n) := by
  cases e with
  | none => exact keeps_pure _
  | some e =>
    refine keeps_ite (keeps_clone _) (keeps_bind (keeps_malloc (fun _ => trivial)) (fun a => ?_))
    cases a with
    | none => exact keeps_pure _
    | some a =>
      refine keeps_bind (keeps_clone _) (fun _ => keeps_bind (keeps_store trivial) (fun _ => ?_))
      refine keeps_ite (keeps_bind (keeps_malloc (fun _ => trivial)) (fun hp => ?_)) (keeps_pure _)
      cases hp with
      | none => exact keeps_bind (keeps_polyFree _) (fun _ => keeps_pure _)
      | some hp => exact keeps_bind (keeps_store trivial) (fun _ =>
          keeps_bind (keeps_cloneHoles _ _ _) (fun _ => keeps_pure _))

theorem keeps_fillExtra (a : Addr) (co : List Byte) (fl : Flags) : Keeps (fillExtra a co fl) := by
  refine keeps_load (fun c _ => ?_)
  cases c <;> try exact keeps_fault
  refine keeps_bind (keeps_store trivial) (fun _ => keeps_ite (keeps_pure _)
    (keeps_bind (keeps_malloc (fun _ => Or.inl rfl)) (fun b => ?_)))
  cases b with
  | none => exact keeps_bind (keeps_tgGeomFree _) (fun _ => keeps_pure _)
  | some b => exact keeps_bind (keeps_store trivial) (fun _ => keeps_pure _)

theorem keeps_geomNew (ty : GType) (fl : Flags) : Keeps (geomNew ty fl) :=
  keeps_malloc (fun _ => trivial)

theorem keeps_singleNew (ty : GType) (c : Ptr) (co : List Byte) (fl : Flags) :
    Keeps (singleNew ty c co fl) := by
  refine keeps_bind (keeps_geomNew _ _) (fun a => ?_)
  cases a with
  | none => exact keeps_pure _
  | some a => exact keeps_bind (keeps_clone _) (fun _ => keeps_bind (keeps_store trivial)
      (fun _ => keeps_fillExtra _ _ _))

theorem keeps_newMulti (ty : GType) (n : Nat) : Keeps (newMulti ty n) := by
  refine keeps_bind (keeps_geomNew _ _) (fun a => ?_)
  cases a with
  | none => exact keeps_pure _
  | some a =>
    refine keeps_bind (keeps_malloc (fun _ => trivial)) (fun m => ?_)
    cases m with
    | none => exact keeps_bind (keeps_release _) (fun _ => keeps_pure _)
    | some m =>
      refine keeps_bind (keeps_store trivial) (fun _ =>
        keeps_bind (keeps_malloc (fun _ => trivial)) (fun g => ?_))
      cases g with
      | none => exact keeps_bind (keeps_release _) (fun _ => keeps_bind (keeps_release _)
          (fun _ => keeps_pure _))
      | some g =>
        refine keeps_bind (keeps_store trivial) (fun _ => keeps_ite
          (keeps_bind (keeps_malloc (fun _ => Or.inl rfl)) (fun ix =>
            keeps_bind (keeps_malloc (fun _ => Or.inl rfl)) (fun ixg => ?_))) (keeps_pure _))
        have hno : Keeps (do
            releaseOpt ix; releaseOpt ixg; release g; release m; release a; pure (none : Ptr)) :=
          keeps_bind (keeps_releaseOpt _) (fun _ => keeps_bind (keeps_releaseOpt _) (fun _ =>
            keeps_bind (keeps_release _) (fun _ => keeps_bind (keeps_release _) (fun _ =>
              keeps_bind (keeps_release _) (fun _ => keeps_pure _)))))
        cases ix <;> cases ixg <;> try exact hno
        exact keeps_bind (keeps_store trivial) (fun _ => keeps_bind (keeps_store (Or.inr rfl))
          (fun _ => keeps_pure _))

theorem keeps_ringRect (p : Ptr) : Keeps (ringRect p) := by
  cases p with
  | none => exact keeps_pure _
  | some a =>
    refine keeps_load (fun c _ => ?_)
    cases c <;> first | exact keeps_fault | exact keeps_pure _

theorem keeps_polyRect (p : Ptr) : Keeps (polyRect p) := by
  cases p with
  | none => exact keeps_pure _
  | some a =>
    refine keeps_load (fun c _ => ?_)
    split
    · exact keeps_pure _
    · exact keeps_ringRect _
    · exact keeps_fault

theorem keeps_geomRect (p : Ptr) : Keeps (geomRect p) := by
  cases p with
  | none => exact keeps_pure _
  | some a =>
    refine keeps_load (fun c _ => ?_)
    cases c with
    | geom rc ty fl ch co er p z m =>
      dsimp only
      split
      · exact keeps_pure _
      · exact keeps_ringRect _
      · exact keeps_polyRect _
      · split
        · exact keeps_pure _
        · refine keeps_load (fun c _ => ?_)
          cases c <;> first | exact keeps_fault | exact keeps_pure _
    | _ => first | exact keeps_fault | exact keeps_pure _ | exact keeps_polyRect _

theorem keeps_readRects : ∀ l, Keeps (readRects l)
  | [] => keeps_pure _
  | _ :: l => keeps_bind (keeps_geomRect _) (fun _ => keeps_readRects l)

theorem keeps_inflateRect (a : Addr) : Keeps (inflateRect a) := by
  refine keeps_load (fun c _ => ?_)
  split
  · refine keeps_load (fun c _ => ?_)
    split
    · refine keeps_ite (keeps_pure _) (keeps_load (fun c _ => ?_))
      split
      · refine keeps_bind (keeps_readRects _) (fun _ => ?_)
        split
        · exact keeps_pure _
        · refine keeps_bind (keeps_malloc (fun _ => Or.inl rfl)) (fun t => ?_)
          cases t with
          | none => exact keeps_bind (keeps_tgGeomFree _) (fun _ => keeps_pure _)
          | some t => exact keeps_bind (keeps_readRects _) (fun _ =>
              keeps_bind (keeps_release _) (fun _ => keeps_pure _))
      · exact keeps_fault
    · exact keeps_fault
  · exact keeps_fault

theorem keeps_geomsOf (a : Addr) : Keeps (geomsOf a) := by
  refine keeps_load (fun c _ => ?_)
  split
  · refine keeps_load (fun c _ => ?_)
    split
    · exact keeps_pure _
    · exact keeps_fault
  · exact keeps_fault

theorem keeps_fillPoints (g : Addr) : ∀ l i, Keeps (fillPoints g i l)
  | [], _ => keeps_pure _
  | p :: l, i => by
    refine keeps_bind (keeps_malloc (fun _ => trivial)) (fun q =>
      keeps_bind (keeps_setGeom _ _ _) (fun _ => ?_))
    cases q with
    | none => exact keeps_pure _
    | some q => exact keeps_fillPoints g l (i + 1)

theorem keeps_multipointNew (pts : List Pt) : Keeps (multipointNew pts) := by
  refine keeps_bind (keeps_newMulti _ _) (fun a => ?_)
  cases a with
  | none => exact keeps_pure _
  | some a => exact keeps_bind (keeps_geomsOf _) (fun _ => keeps_bind (keeps_fillPoints _ _ _)
      (fun _ => keeps_ite (keeps_inflateRect _)
        (keeps_bind (keeps_tgGeomFree _) (fun _ => keeps_pure _))))

theorem keeps_multiNew (ty : GType) (l : List Ptr) : Keeps (multiNew ty l) := by
  refine keeps_bind (keeps_newMulti _ _) (fun a => ?_)
  cases a with
  | none => exact keeps_pure _
  | some a => exact keeps_bind (keeps_geomsOf _) (fun _ => keeps_bind (keeps_cloneGeoms _ _ _)
      (fun _ => keeps_inflateRect _))

theorem keeps_withExtra {m : M Ptr} (hm : Keeps m) (co : List Byte) (fl : Flags) :
    Keeps (withExtra m co fl) := by
  refine keeps_bind hm (fun a => ?_)
  cases a with
  | none => exact keeps_pure _
  | some a => exact keeps_fillExtra _ _ _

theorem keeps_op {op : Op} (ho : op.noCopy) : Keeps op.run := by
  cases op with
  | series pts cl ix st => exact keeps_seriesNew _ _ _ _
  | point p => exact keeps_malloc (fun _ => trivial)
  | pointZm fl p z m => exact keeps_malloc (fun _ => trivial)
  | empty ty => exact keeps_geomNew _ _
  | poly e hs n => exact keeps_polyNew _ _ _
  | single ty c co fl => exact keeps_singleNew _ _ _ _
  | multipoint pts => exact keeps_multipointNew _
  | multi ty cs => exact keeps_multiNew _ _
  | multipointZm pts co fl => exact keeps_withExtra (keeps_multipointNew _) _ _
  | multiZm ty cs co fl => exact keeps_withExtra (keeps_multiNew _ _) _ _
  | clone p => exact keeps_clone _
  | copy p => exact absurd ho id
  | copyRing p => exact absurd ho id
  | copyPoly p => exact absurd ho id
  | free p => exact keeps_bind (keeps_tgGeomFree _) (fun _ => keeps_pure _)
  | freeRing p => exact keeps_bind (keeps_ringFree _) (fun _ => keeps_pure _)
  | freePoly p => exact keeps_bind (keeps_polyFree _) (fun _ => keeps_pure _)

/-- The argument of a copy, and the outcome of the three kinds of copy. -/
def Op.copied : Op → Option Ptr
  | .copy p | .copyRing p | .copyPoly p => some p
  | _ => none

theorem copied_ok {r : Addr → Nat} {h : Heap} {own : Multiset Addr} (hi : Inv r h ∅ own) {op : Op}
    {p : Ptr} (ho : op.copied = some p) (ha : Allowed h own op) :
    wp op.run (fun q h' => ∃ r', CopyPost r' ∅ own h p q h') h := by
  cases op <;> simp only [Op.copied, Option.some.injEq, reduceCtorEq] at ho
  all_goals subst ho
  · exact tgGeomCopy_ok hi (arg_geom ha (fun _ h => h))
  · refine wp_mono (ringCopy_ok hi (fun a hap => ?_)) (fun q h' cp => ⟨r, cp⟩)
    obtain ⟨_, c, hc, hk⟩ := ha a hap
    exact ⟨by simp, hk.imp (isRing_is hc) (isLine_is hc)⟩
  · refine wp_mono (polyCopy_ok hi (fun a hap => ?_)) (fun q h' cp => ⟨r, cp⟩)
    obtain ⟨_, c, hc, hk⟩ := ha a hap
    exact ⟨by simp, isPolygon_is hc hk⟩

theorem copied_live {h : Heap} {own : Multiset Addr} {op : Op}
    {p : Ptr} (ho : op.copied = some p) (ha : Allowed h own op) :
    ∀ a ∈ p, ∃ c, h.cells a = some c := by
  intro a hap
  cases op <;> simp only [Op.copied, Option.some.injEq, reduceCtorEq] at ho
  all_goals subst ho
  all_goals
    obtain ⟨_, c, hc, _⟩ := ha a hap
    exact ⟨c, hc⟩

/-- Copies of plain objects keep indexes within their blocks. -/
theorem plain_copy_keeps {r : Addr → Nat} {h h' : Heap} {own : Multiset Addr}
    (hi : Inv r h ∅ own) {op : Op} {p q : Ptr} (ho : op.copied = some p) (ha : Allowed h own op)
    (hpl : Plain h p) (hrun : op.run h = some (q, h')) (hown : OwnIx h) : OwnIx h' := by
  obtain ⟨q', h'', e, r', cp⟩ := copied_ok hi ho ha
  rw [hrun] at e
  cases e
  obtain ⟨r2, i2, _⟩ := cp.made.inv
  cases hq : q with
  | none =>
    subst hq
    have hs := hi.same (i2.congr (by simp)) cp.made.step
    intro a c hc
    exact hown a c (by rw [← hs]; exact hc)
  | some b =>
    have hqn : q ≠ none := by rw [hq]; simp
    have hpl' := tree_plain hi (copied_live ho ha) (cp.tree hqn hpl) hpl
    have ag := cp.old hqn
    intro i c hc
    by_cases hil : i < h.next
    · exact hown i c (by rw [← ag i hil (by simp)]; exact hc)
    · obtain ⟨a, hae, hra⟩ := live_reach i2 hc
      rcases Multiset.mem_add.1 hae with hae | hae
      · have hqa : q = some a := by simpa using hae
        have := hpl' i (by rw [hqa]; exact hra) c hc
        cases c <;> simp_all [Cell.noIndex, Cell.ownIndex]
      · exfalso
        obtain ⟨_, d, hd⟩ := hi.held hae
        obtain ⟨_, _, e, he⟩ := ag.reach hi (fun x hx => by cases hx; exact ⟨by simp, d, hd⟩) hra
        exact hil (hi.lt he)

theorem runs_ownIx {fails : Nat → Bool} {h : Heap} {own : Multiset Addr}
    (hr : Runs fails plainCopies h own) : OwnIx h := by
  induction hr with
  | init => intro a c hc; simp [Heap.init] at hc
  | @call h h' own op q hr ha hok hrun ih =>
    by_cases ho : op.copied = none
    · refine keeps_op (op := op) ?_ _ _ _ ih hrun
      cases op <;> simp_all [Op.copied, Op.noCopy]
    · obtain ⟨p, hp⟩ := Option.ne_none_iff_exists'.1 ho
      obtain ⟨r, hi⟩ := runs_inv hr
      refine plain_copy_keeps hi hp ha ?_ hrun ih
      cases op <;> simp_all [Op.copied, plainCopies]

end Tg.Heap
