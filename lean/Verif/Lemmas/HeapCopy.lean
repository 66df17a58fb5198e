import Verif.Lemmas.HeapMulti
import Verif.Spec.Heap
/-! Deep copies: the counting invariant, the value of the copy, and where its blocks are. -/
set_option linter.unusedSectionVars false
set_option linter.dupNamespace false
namespace Tg.Heap

theorem mem_ptrs {c : Cell} {i : Addr} : i ∈ c.ptrs ↔ some i ∈ c.kids := by
  cases c <;> simp [Cell.ptrs, Cell.kids, mem_pms, eq_comm]

theorem Reach.child {h : Heap} {j : Addr} {c : Cell} {p : Ptr} (hc : h.cells j = some c)
    (hp : p ∈ c.kids) {i : Addr} (hr : Reach h p i) : Reach h (some j) i := by
  induction hr with
  | root e => exact .step (.root rfl) hc (by rw [← e]; exact hp)
  | step _ hc' hk ih => exact .step ih hc' hk

theorem Plain.child {h : Heap} {j : Addr} {c : Cell} {p : Ptr} (hpl : Plain h (some j))
    (hc : h.cells j = some c) (hp : p ∈ c.kids) : Plain h p :=
  fun i hr => hpl i (hr.child hc hp)

theorem Solid.child {h : Heap} {j : Addr} {c : Cell} {p : Ptr} (hpl : Solid h (some j))
    (hc : h.cells j = some c) (hp : p ∈ c.kids) : Solid h p :=
  fun i hr => hpl i (hr.child hc hp)

theorem IsGeom.map {h h' : Heap} {a b : Addr} (hg : IsGeom h a)
    (hk : ∀ k, Is h a k → Is h' b k) : IsGeom h' b := by
  rcases hg with hg | hg | hg | hg | hg
  · exact Or.inl (hk _ hg)
  · exact Or.inr (Or.inl (hk _ hg))
  · exact Or.inr (Or.inr (Or.inl (hk _ hg)))
  · exact Or.inr (Or.inr (Or.inr (Or.inl (hk _ hg))))
  · exact Or.inr (Or.inr (Or.inr (Or.inr (hk _ hg))))

theorem IsPoly.map {h h' : Heap} {a b : Addr} (hg : IsPoly h a)
    (hk : ∀ k, Is h a k → Is h' b k) : IsPoly h' b := by
  rcases hg with hg | hg
  · exact Or.inl (hk _ hg)
  · exact Or.inr (hk _ hg)

/-- The blocks that count in `h` are the same in `h'`. -/
def Agree (D : Finset Addr) (h h' : Heap) : Prop :=
  ∀ j < h.next, j ∉ D → h'.cells j = h.cells j

theorem Agree.trans {D D' : Finset Addr} {h h' h'' : Heap} (a : Agree D h h')
    (b : Agree D' h' h'') (hl : h.next ≤ h'.next) (hD : ∀ j < h.next, j ∈ D' → j ∈ D) :
    Agree D h h'' := fun j hj hjD => by
  rw [b j (by omega) (fun h => hjD (hD j hj h)), a j hj hjD]

theorem Agree.set {D : Finset Addr} {h h' : Heap} (a : Agree D h h') {b : Addr} {c : Option Cell}
    (hb : b ∈ D ∨ h.next ≤ b) : Agree D h (h'.set b c) := fun j hj hjD => by
  rw [set_cells_ne, a j hj hjD]
  rintro rfl
  rcases hb with hb | hb
  · exact hjD hb
  · omega

theorem Agree.alloc {D : Finset Addr} {h h' : Heap} (a : Agree D h h') (hl : h.next ≤ h'.next)
    (c : Cell) : Agree D h (h'.alloc c) := fun j hj hjD => by
  rw [alloc_cells_ne _ _ (by omega), a j hj hjD]

theorem Agree.mono {D D' : Finset Addr} {h h' : Heap} (a : Agree D h h') (hs : D ⊆ D') :
    Agree D' h h' := fun j hj hjD => a j hj (fun h => hjD (hs h))

theorem Agree.is {D : Finset Addr} {h h' : Heap} (a : Agree D h h') {j : Addr} {k : Kind}
    (hj : j < h.next) (hjD : j ∉ D) (hk : Is h j k) : Is h' j k := by
  obtain ⟨c, hc, hk⟩ := hk
  exact ⟨c, by rw [a j hj hjD]; exact hc, hk⟩

theorem view_congr {c : Cell} {f g : Ptr → Tree} {a : Addr} (hf : ∀ p ∈ c.kids, f p = g p) :
    c.view f a = c.view g a := by
  cases c <;> simp_all [Cell.view, Cell.kids]

theorem Agree.tree {r : Addr → Nat} {D : Finset Addr} {E : Multiset Addr} {h h' : Heap}
    (ag : Agree D h h') (hi : Inv r h D E) : ∀ n p, (∀ a ∈ p, a ∉ D ∧ ∃ c, h.cells a = some c) →
    tree h' n p = tree h n p
  | 0, none, _ => rfl
  | 0, some _, _ => rfl
  | _ + 1, none, _ => rfl
  | n + 1, some a, hk => by
    obtain ⟨haD, c, hc⟩ := hk a rfl
    have hc' : h'.cells a = some c := by rw [ag a (hi.lt hc) haD]; exact hc
    simp only [Tg.Heap.tree, hc, hc', Option.elim]
    apply view_congr
    intro p hp
    refine Agree.tree ag hi n p ?_
    intro b hb
    exact hi.child haD hc (mem_ptrs.2 (by rw [← show p = some b from hb]; exact hp))

theorem Agree.reach {r : Addr → Nat} {D : Finset Addr} {E : Multiset Addr} {h h' : Heap}
    (ag : Agree D h h') (hi : Inv r h D E) {p : Ptr} (hp : ∀ a ∈ p, a ∉ D ∧ ∃ c, h.cells a = some c)
    {i : Addr} (hr : Reach h' p i) : Reach h p i ∧ i ∉ D ∧ ∃ c, h.cells i = some c := by
  induction hr with
  | root e => exact ⟨.root e, hp _ e⟩
  | step _ hc hk ih =>
    obtain ⟨hr, hjD, c, hc0⟩ := ih
    rw [ag _ (hi.lt hc0) hjD] at hc
    exact ⟨.step hr hc hk, hi.child hjD hc (mem_ptrs.2 hk)⟩

theorem Agree.plain {r : Addr → Nat} {D : Finset Addr} {E : Multiset Addr} {h h' : Heap}
    (ag : Agree D h h') (hi : Inv r h D E) {p : Ptr} (hp : ∀ a ∈ p, a ∉ D ∧ ∃ c, h.cells a = some c)
    (hpl : Plain h p) : Plain h' p := fun i hr c hc => by
  obtain ⟨hr, hiD, c', hc'⟩ := ag.reach hi hp hr
  rw [ag _ (hi.lt hc') hiD] at hc
  exact hpl i hr c hc

theorem Agree.solid {r : Addr → Nat} {D : Finset Addr} {E : Multiset Addr} {h h' : Heap}
    (ag : Agree D h h') (hi : Inv r h D E) {p : Ptr} (hp : ∀ a ∈ p, a ∉ D ∧ ∃ c, h.cells a = some c)
    (hpl : Solid h p) : Solid h' p := fun i hr c hc => by
  obtain ⟨hr, hiD, c', hc'⟩ := ag.reach hi hp hr
  rw [ag _ (hi.lt hc') hiD] at hc
  exact hpl i hr c hc

/-- The outcome of copying the object `p` of `h`. -/
structure CopyPost (r : Addr → Nat) (D : Finset Addr) (E : Multiset Addr) (h : Heap) (p q : Ptr)
    (h' : Heap) : Prop where
  made : Made r D E h (fun _ b => h.next ≤ b) q h'
  kind : ∀ a ∈ p, ∀ b ∈ q, ∀ k, Is h a k → Is h' b k
  old : q ≠ none → Agree ∅ h h'
  tree : q ≠ none → Plain h p → ∀ n, tree h' n q = tree h n p
  null : q = none → Solid h p → p = none ∨ ¬ NoFail h h'
  nonnull : p = none → q = none

/-- `copy` copies objects of rank below `n`. -/
def CopyOk (n : Nat) (copy : Ptr → M Ptr) : Prop :=
  ∀ r h D E p, Inv r h D E → (∀ a ∈ p, a ∉ D ∧ IsGeom h a ∧ r a < n) →
    wp (copy p) (CopyPost r D E h p) h

theorem CopyPost.nil {r : Addr → Nat} {D : Finset Addr} {E : Multiset Addr} {h : Heap}
    (hi : Inv r h D E) : CopyPost r D E h none none h :=
  ⟨Made.null hi (fun _ _ => rfl) (Step.refl _ _), fun _ ha => (by cases ha),
    fun hn => absurd rfl hn, fun hn => absurd rfl hn, fun _ _ => Or.inl rfl, fun _ => rfl⟩

theorem not_noFail {h h1 h2 h' : Heap} (hn : ¬ NoFail h1 h2) (hl : h.next ≤ h1.next)
    (hf : h1.fails = h.fails) (hl' : h2.next ≤ h'.next) : ¬ NoFail h h' := by
  intro hx
  apply hn
  intro k h1 h2
  rw [hf]
  exact hx k (by omega) (by omega)

theorem fail_skip {h : Heap} (hf : h.fails h.next = true) : ¬ NoFail h h.skip := by
  intro hx
  have := hx h.next (le_refl _) (by simp [Heap.skip])
  rw [hf] at this
  cases this

/-! ### A block under construction -/

structure Half (r0 r : Addr → Nat) (D : Finset Addr) (E : Multiset Addr) (h0 : Heap) (b : Addr)
    (c : Cell) (h : Heap) : Prop where
  nmem : b ∉ D
  ge : h0.next ≤ b
  cell : h.cells b = some c
  inv : Inv r h (insert b D) (c.ptrs + E)
  rank : ∀ j < h0.next, r j = r0 j
  step : Step D h0 h
  want : c.want = 1
  typed : c.Typed h

theorem Half.new {r : Addr → Nat} {D : Finset Addr} {E : Multiset Addr} {h0 : Heap} {c : Cell}
    (hi : Inv r h0 D E) (hp : c.ptrs = 0) (hw : c.want = 1) (ht : ∀ h, c.Typed h) :
    Half r r D E h0 h0.next c (h0.alloc c) :=
  ⟨hi.next_nmem, le_refl _, alloc_cells_self _ _, by rw [hp, zero_add]; exact hi.alloc c,
    fun _ _ => rfl, Step.alloc hi.next_nmem _, hw, ht _⟩

theorem Half.close {r0 r : Addr → Nat} {D : Finset Addr} {E : Multiset Addr} {h0 h : Heap}
    {b : Addr} {c : Cell} (hf : Half r0 r D E h0 b c h) :
    ∃ r', Inv r' h D ({b} + E) ∧ (∀ j < h0.next, r' j = r0 j) := by
  obtain ⟨r', hi, hr⟩ := hf.inv.attach hf.nmem hf.cell hf.want hf.typed
  refine ⟨r', hi, fun j hj => ?_⟩
  have := hf.ge
  rw [hr j (by omega), hf.rank j hj]

/-- Writing the block after a call that left it alone. -/
theorem Half.put {r0 r r' : Addr → Nat} {D : Finset Addr} {E : Multiset Addr} {h0 h h' : Heap}
    {b : Addr} {c : Cell} (hf : Half r0 r D E h0 b c h) {c' : Cell}
    (hi : Inv r' h' (insert b D) (c'.ptrs + E)) (hr : ∀ j < h.next, r' j = r j)
    (s : Step (insert b D) h h') (hw : c'.want = 1) (ht : c'.Typed h') :
    Half r0 r' D E h0 b c' (h'.set b (some c')) := by
  have hle := hf.step.le
  refine ⟨hf.nmem, hf.ge, by simp, hi.put (by simp) _,
    fun j hj => (hr j (by omega)).trans (hf.rank j hj),
    (hf.step.trans (s.mono (subset_insert' b D))).put hf.nmem hf.ge, hw, ?_⟩
  refine ht.mono (fun i hi' k hk => is_set_other ?_ hk)
  rintro rfl
  exact (hi.held (Multiset.mem_add.2 (Or.inl hi'))).1 (by simp)

/-- References held from outside keep their kind. -/
theorem isE {r r' : Addr → Nat} {h h' : Heap} {D D' Ds : Finset Addr} {E E' : Multiset Addr}
    (hi : Inv r h D E) (hi' : Inv r' h' D' E') (s : Step Ds h h') {i : Addr} (h1 : i ∈ E)
    (h2 : i ∈ E') {k : Kind} (hk : Is h i k) : Is h' i k := by
  obtain ⟨_, c, hc⟩ := hi.held h1
  exact s.is (hi.lt hc) (hi'.held h2).2 hk

/-- `q` is, in `h`, a copy of what `p` is in `h0`. -/
def Cp (h0 : Heap) (p : Ptr) (h : Heap) (q : Ptr) : Prop :=
  Plain h0 p → ∀ n, tree h n q = tree h0 n p

theorem Cp.null {h0 h : Heap} : Cp h0 none h none := fun _ n => by cases n <;> rfl

theorem Cp.mono {r : Addr → Nat} {D : Finset Addr} {E : Multiset Addr} {h0 h h' : Heap}
    {p q : Ptr} (hc : Cp h0 p h q) (hi : Inv r h D E)
    (hq : ∀ a ∈ q, a ∉ D ∧ ∃ c, h.cells a = some c) (ag : Agree D h h') : Cp h0 p h' q :=
  fun hp n => by rw [ag.tree hi n q hq]; exact hc hp n

/-- A copy made in a heap that agrees with the first one. -/
theorem CopyPost.cp {r0 r : Addr → Nat} {D0 D : Finset Addr} {E0 E : Multiset Addr}
    {h0 h h' : Heap} {p q : Ptr} (cp : CopyPost r D E h p q h') (hq : q ≠ none)
    (hi0 : Inv r0 h0 D0 E0) (hp : ∀ a ∈ p, a ∉ D0 ∧ ∃ c, h0.cells a = some c)
    (ag : Agree D0 h0 h) : Cp h0 p h' q := fun hpl n => by
  rw [cp.tree hq (ag.plain hi0 hp hpl) n, ag.tree hi0 n p hp]

/-! ### Blocks of numbers and text -/

theorem blockCopy_ok {r : Addr → Nat} {D : Finset Addr} {E : Multiset Addr} {h : Heap} {p : Ptr}
    (hi : Inv r h D E) (hk : ∀ a ∈ p, Is h a .block) :
    wp (blockCopy p) (fun x h' => CopyPost r D E h p x.1 h' ∧
      (x.2 = true ↔ (p = none ∨ x.1 ≠ none)) ∧ (p = none → x.1 = none ∧ h' = h) ∧
      (∀ b ∈ x.1, Is h' b .block)) h := by
  cases p with
  | none =>
    exact wp_pure ⟨CopyPost.nil hi, by simp, fun _ => ⟨rfl, rfl⟩, fun _ hb => (by cases hb)⟩
  | some s =>
    obtain ⟨inner, d, hc⟩ := (hk s rfl).block
    unfold blockCopy
    apply wp_bind
    apply wp_load hc
    dsimp only
    apply wp_bind
    have hm := malloc_ok (c := .block inner d) hi rfl rfl (fun _ => trivial)
    apply wp_malloc
    · intro hf
      refine wp_pure ⟨⟨Made.null hi.skip (fun _ _ => rfl) Step.skip, fun _ _ _ hb => (by cases hb),
        fun hn => absurd rfl hn, fun hn => absurd rfl hn, fun _ _ => Or.inr (fail_skip hf),
        fun _ => rfl⟩,
        by simp, fun e => (by cases e), fun _ hb => (by cases hb)⟩
    · intro hf
      dsimp only
      have hfh := Half.new (c := .block inner d) hi rfl rfl (fun _ => trivial)
      obtain ⟨r', hi', hr'⟩ := hfh.close
      have hcb : (h.alloc (.block inner d)).cells h.next = some (.block inner d) :=
        alloc_cells_self _ _
      refine wp_pure ⟨⟨⟨⟨r', hi', hr'⟩, hfh.step, fun b hb => by cases hb; exact le_refl _,
        fun _ => NoFail.alloc hf⟩, ?_, ?_, ?_, fun e => (by cases e),
        fun e => (by cases e)⟩, by simp,
        fun e => (by cases e), fun b hb => by cases hb; exact ⟨_, hcb, rfl⟩⟩
      · rintro a ⟨⟩ b ⟨⟩ k ⟨c, hc', hk⟩
        rw [hc] at hc'; cases hc'
        exact ⟨_, hcb, hk⟩
      · intro _
        exact Agree.alloc (fun _ _ _ => rfl) (le_refl _) _
      · intro _ hpl n
        have : inner = none := hpl s (.root rfl) _ hc
        subst this
        cases n with
        | zero => rfl
        | succ n => simp [tree, hc, hcb, Cell.view, own]

/-! ### Rings and lines -/

theorem ringCopy_ok {r : Addr → Nat} {D : Finset Addr} {E : Multiset Addr} {h : Heap} {p : Ptr}
    (hi : Inv r h D E) (hk : ∀ a ∈ p, a ∉ D ∧ (Is h a .ring ∨ Is h a .line)) :
    wp (ringCopy p) (CopyPost r D E h p) h := by
  cases p with
  | none => exact wp_pure (CopyPost.nil hi)
  | some a =>
    obtain ⟨haD, hak⟩ := hk a rfl
    obtain ⟨rc, cl, ix, st, pts, hc⟩ := Is.series hak
    have hst : ∀ s ∈ st, Is h s .block := hi.typed a _ haD hc
    have hstD : ∀ s ∈ st, s ∉ D ∧ ∃ c, h.cells s = some c := fun s hs =>
      hi.child haD hc (by simpa [Cell.ptrs] using hs)
    unfold ringCopy
    apply wp_bind
    apply wp_load hc
    dsimp only
    apply wp_bind
    apply wp_malloc
    · intro hf
      refine wp_pure ⟨Made.null hi.skip (fun _ _ => rfl) Step.skip, fun _ _ _ hb => (by cases hb),
        fun hn => absurd rfl hn, fun hn => absurd rfl hn, fun _ _ => Or.inr (fail_skip hf),
        fun _ => rfl⟩
    intro hf
    dsimp only
    have hfh := Half.new (c := .series 1 cl ix none pts) hi rfl rfl
      (fun _ => fun s hs => (by cases hs))
    have ag0 : Agree ∅ h (h.alloc (.series 1 cl ix none pts)) :=
      Agree.alloc (fun _ _ _ => rfl) (le_refl _) _
    have n0 : NoFail h (h.alloc (.series 1 cl ix none pts)) := NoFail.alloc hf
    generalize hb : h.next = b at *
    generalize h.alloc (.series 1 cl ix none pts) = h1 at *
    have hkind : ∀ (h' : Heap) (st' : Ptr), h'.cells b = some (.series 1 cl ix st' pts) →
        ∀ a' ∈ some a, ∀ b' ∈ some b, ∀ k, Is h a' k → Is h' b' k := by
      rintro h' st' hcb a' ⟨⟩ b' ⟨⟩ k ⟨c, hc', hk⟩
      rw [hc] at hc'; cases hc'
      exact ⟨_, hcb, by rw [← hk]; cases cl <;> rfl⟩
    cases st with
    | none =>
      dsimp only
      obtain ⟨r', hi', hr'⟩ := hfh.close
      refine wp_pure ⟨⟨⟨r', hi', hr'⟩, hfh.step,
        fun b hb => by cases hb; omega, fun _ => n0⟩, hkind _ _ hfh.cell, fun _ => ag0, ?_,
        fun e => (by cases e), fun e => (by cases e)⟩
      intro _ hpl n
      have : ix = none := hpl a (.root rfl) _ hc
      subst this
      cases n with
      | zero => rfl
      | succ n => simp [tree, hc, hfh.cell, Cell.view, own]
    | some s =>
      dsimp only
      obtain ⟨inner, d, hcs⟩ := (hst s rfl).block
      have hsb : s ≠ b := by have := hi.lt hcs; omega
      have hcs1 : h1.cells s = some (.block inner d) := by
        rw [ag0 s (hi.lt hcs) (by simp)]; exact hcs
      apply wp_bind
      apply wp_load hcs1
      dsimp only
      apply wp_bind
      apply wp_malloc
      · intro hff
        dsimp only
        apply wp_bind
        apply wp_release (h := h1.skip) hfh.cell
        refine wp_pure ⟨Made.null (hfh.inv.skip.congr (by simp [Cell.ptrs]) |>.drop hfh.nmem)
          (fun _ _ => rfl) ((hfh.step.trans Step.skip).put hfh.nmem (by omega)),
          fun _ _ _ hb => (by cases hb), fun hn => absurd rfl hn, fun hn => absurd rfl hn,
          fun _ _ => Or.inr ?_, fun _ => rfl⟩
        exact not_noFail (fail_skip hff) hfh.step.le hfh.step.fails (le_refl _)
      intro hff
      dsimp only
      have hft := Half.new (c := .block inner d) hfh.inv rfl rfl (fun _ => trivial)
      have ag1 : Agree ∅ h1 (h1.alloc (.block inner d)) :=
        Agree.alloc (fun _ _ _ => rfl) (le_refl _) _
      have n1 : NoFail h1 (h1.alloc (.block inner d)) := NoFail.alloc hff
      have hle1 := hfh.step.le
      have htb : h1.next ≠ b := by have := hfh.inv.lt hfh.cell; omega
      generalize ht : h1.next = t at *
      generalize h1.alloc (.block inner d) = h2 at *
      obtain ⟨r', hi', hr'⟩ := hft.close
      have hcb2 : h2.cells b = some (.series 1 cl ix none pts) := by
        rw [hft.step.keep b (by simp)]; exact hfh.cell
      apply wp_bind
      apply wp_store hcb2
      have hf2 := hfh.put (c' := .series 1 cl ix (some t) pts)
        (hi'.congr (by simp [Cell.ptrs])) (by rw [ht] at hr'; rw [ht]; exact hr') hft.step rfl
        (fun s hs => by cases hs; exact ⟨_, hft.cell, rfl⟩)
      have hct : (h2.set b (some (.series 1 cl ix (some t) pts))).cells t
          = some (.block inner d) := by rw [set_cells_ne _ _ htb]; exact hft.cell
      have ag2 : Agree ∅ h (h2.set b (some (.series 1 cl ix (some t) pts))) :=
        (ag0.trans ag1 (by omega) (fun _ _ h => h)).set (Or.inr (by omega))
      obtain ⟨r3, hi3, hr3⟩ := hf2.close
      refine wp_pure ⟨⟨⟨r3, hi3, hr3⟩, hf2.step,
        fun b hb => by cases hb; omega, fun _ => n0.trans n1 hfh.step.fails⟩,
        hkind _ _ hf2.cell, fun _ => ag2, ?_,
        fun e => (by cases e), fun e => (by cases e)⟩
      intro _ hpl n
      have e1 : ix = none := hpl a (.root rfl) _ hc
      have e2 : inner = none := hpl s (.step (.root rfl) hc (by simp [Cell.kids])) _ hcs
      subst e1 e2
      cases n with
      | zero => rfl
      | succ n =>
        simp only [tree, hc, hf2.cell, Cell.view, own, Option.elim]
        cases n with
        | zero => rfl
        | succ n => simp [tree, hcs, hct, Cell.view, own]

/-! ### Arrays -/

theorem copyHoles_ok {r0 rr : Addr → Nat} {D : Finset Addr} {E E0 : Multiset Addr} {h0 : Heap}
    {hp src : Addr} {l : List Ptr} (hi0 : Inv rr h0 D E0) (hsD : src ∉ D)
    (hsrc : h0.cells src = some (.rings l)) :
    ∀ (k : Nat) (l2 : List Ptr) (h : Heap) (r : Addr → Nat), l2.length + k = l.length →
    Half r0 r D E h0 hp (.rings (l2 ++ List.replicate k none)) h → Agree ∅ h0 h → NoFail h0 h →
    (Plain h0 (some src) → ∀ n, l2.map (tree h n) = (l.take l2.length).map (tree h0 n)) →
    wp (copyHoles src hp l2.length k) (fun ok h' => ∃ r' l', l'.length = l.length ∧
      Half r0 r' D E h0 hp (.rings l') h' ∧
      (ok = true → Agree ∅ h0 h' ∧ NoFail h0 h' ∧
        (Plain h0 (some src) → ∀ n, l'.map (tree h' n) = l.map (tree h0 n))) ∧
      (ok = false → Solid h0 (some src) → ¬ NoFail h0 h')) h
  | 0, l2, h, r, hlen, hf, ag, nf, ht => by
    refine wp_pure ⟨r, l2, by omega, by simpa using hf, fun _ => ⟨ag, nf, fun hpl n => ?_⟩,
      fun e => (by cases e)⟩
    rw [ht hpl n, List.take_of_length_le (by omega)]
  | k + 1, l2, h, r, hlen, hf, ag, nf, ht => by
    have hl := hi0.lt hsrc
    have hsrc' : h.cells src = some (.rings l) := by rw [ag src hl (by simp)]; exact hsrc
    have hlt : l2.length < l.length := by omega
    obtain ⟨p, hp'⟩ : ∃ p, l[l2.length]? = some p := ⟨_, List.getElem?_eq_getElem hlt⟩
    have hpl : p ∈ l := List.mem_of_getElem? hp'
    have hpa : ∀ a ∈ p, a ∉ D ∧ ∃ c, h0.cells a = some c := fun a ha =>
      hi0.child hsD hsrc (mem_pms.2 (by rw [← show p = some a from ha]; exact hpl))
    unfold copyHoles
    apply wp_bind
    apply wp_load hsrc'
    dsimp only
    rw [hp']
    dsimp only
    apply wp_bind
    have hpk : ∀ a ∈ p, a < h0.next ∧ a ∉ insert hp D ∧ Is h a .ring := by
      intro a ha
      obtain ⟨haD, c, hc⟩ := hpa a ha
      have h1 := hi0.lt hc
      have h2 := hf.ge
      refine ⟨h1, ?_, ?_⟩
      · simp only [Finset.mem_insert, not_or]
        exact ⟨by omega, haD⟩
      · exact ag.is h1 (by simp) (hi0.typed src _ hsD hsrc p hpl a ha)
    refine wp_mono (ringCopy_ok hf.inv ?_) ?_
    · exact fun a ha => ⟨(hpk a ha).2.1, Or.inl (hpk a ha).2.2⟩
    rintro q h1 cp
    obtain ⟨r1, hi1, hr1⟩ := cp.made.inv
    have hc1 : h1.cells hp = some (.rings (l2 ++ none :: List.replicate k none)) := by
      rw [cp.made.step.keep hp (by simp)]; exact hf.cell
    apply wp_bind
    unfold setRing
    apply wp_bind
    apply wp_load hc1
    dsimp only
    rw [if_pos (by simp)]
    apply wp_store hc1
    rw [set_append]
    have hf2 := hf.put (c' := .rings (l2 ++ q :: List.replicate k none)) (r' := r1) (h' := h1)
      (hi1.congr (by
        simp only [Cell.ptrs, List.replicate_succ, pms_append, pms_cons, pm_none]; abel))
      hr1 cp.made.step rfl (by
        intro p' hp2 a ha
        have ha' : p' = some a := ha
        simp only [List.mem_append, List.mem_cons, List.mem_replicate] at hp2
        rcases hp2 with hp2 | hp2 | hp2
        · have hm : a ∈ (Cell.rings (l2 ++ List.replicate (k + 1) none)).ptrs + E :=
            Multiset.mem_add.2 (Or.inl (mem_pms.2 (by rw [← ha']; simp [hp2])))
          exact isE hf.inv hi1 cp.made.step hm (Multiset.mem_add.2 (Or.inr hm))
            (hf.typed p' (by simp [hp2]) a ha)
        · subst hp2
          subst ha'
          cases hpc : p with
          | none => exact absurd (cp.nonnull hpc) (by simp)
          | some a0 =>
            exact cp.kind a0 hpc a rfl _ (hpk a0 hpc).2.2
        · rw [hp2.2] at ha'; cases ha')
    cases hq : q with
    | none =>
      subst hq
      dsimp only
      refine wp_pure ⟨r1, _, ?_, hf2, fun e => (by cases e), fun _ hso => ?_⟩
      · simp; omega
      · rcases cp.null rfl ((ag.mono (by simp)).solid hi0 hpa (hso.child hsrc hpl)) with e | e
        · exact absurd (e ▸ hpl) (hso src (.root rfl) _ hsrc)
        · exact not_noFail e hf.step.le hf.step.fails (le_refl _)
    | some b =>
      dsimp only
      have hqn : q ≠ none := by rw [hq]; simp
      rw [← hq]
      have hlen2 : l2.length + 1 = (l2 ++ [q]).length := by simp
      rw [hlen2]
      have ag1 := cp.old hqn
      refine copyHoles_ok hi0 hsD hsrc k (l2 ++ [q]) _ r1 (by simp; omega)
        (by simpa using hf2) ?_ ?_ ?_
      · exact (ag.trans ag1 hf.step.le (fun _ _ h => h)).set (Or.inr hf.ge)
      · exact nf.trans (cp.made.nofail hqn) hf.step.fails
      · intro hplain n
        have agx : Agree (insert hp D) h
            (h1.set hp (some (.rings (l2 ++ q :: List.replicate k none)))) :=
          (ag1.mono (by simp)).set (Or.inl (by simp))
        have agy : Agree (insert hp D) h1
            (h1.set hp (some (.rings (l2 ++ q :: List.replicate k none)))) :=
          Agree.set (fun _ _ _ => rfl) (Or.inl (by simp))
        rw [List.map_append, ← hlen2, List.take_add_one, hp', List.map_append]
        congr 1
        · rw [← ht hplain n]
          apply List.map_congr_left
          intro p' hp2
          refine agx.tree hf.inv n p' (fun a ha => hf.inv.held (Multiset.mem_add.2 (Or.inl ?_)))
          exact mem_pms.2 (by rw [← show p' = some a from ha]; simp [hp2])
        · simp only [List.map_cons, List.map_nil, Option.toList_some]
          congr 1
          have hcp := cp.cp hqn hi0 hpa (ag.mono (by simp))
          rw [agy.tree hi1 n q (fun a ha => hi1.held (Multiset.mem_add.2 (Or.inl (by
            simpa using ha))))]
          exact hcp (hplain.child hsrc hpl) n

theorem copyGeoms_ok {r0 rr : Addr → Nat} {D : Finset Addr} {E E0 : Multiset Addr} {h0 : Heap}
    {hp src : Addr} {l : List Ptr} {copy : Ptr → M Ptr} {bd : Nat}
    (hcopy : CopyOk bd copy) (hbd : ∀ p ∈ l, ∀ a ∈ p, r0 a < bd) (hi0 : Inv rr h0 D E0) (hsD : src ∉ D)
    (hsrc : h0.cells src = some (.geoms l)) :
    ∀ (k : Nat) (l2 : List Ptr) (h : Heap) (r : Addr → Nat), l2.length + k = l.length →
    Half r0 r D E h0 hp (.geoms (l2 ++ List.replicate k none)) h → Agree ∅ h0 h → NoFail h0 h →
    (Plain h0 (some src) → ∀ n, l2.map (tree h n) = (l.take l2.length).map (tree h0 n)) →
    wp (copyGeoms copy src hp l2.length k) (fun ok h' => ∃ r' l', l'.length = l.length ∧
      Half r0 r' D E h0 hp (.geoms l') h' ∧
      (ok = true → Agree ∅ h0 h' ∧ NoFail h0 h' ∧
        (Plain h0 (some src) → ∀ n, l'.map (tree h' n) = l.map (tree h0 n))) ∧
      (ok = false → Solid h0 (some src) → ¬ NoFail h0 h')) h
  | 0, l2, h, r, hlen, hf, ag, nf, ht => by
    refine wp_pure ⟨r, l2, by omega, by simpa using hf, fun _ => ⟨ag, nf, fun hpl n => ?_⟩,
      fun e => (by cases e)⟩
    rw [ht hpl n, List.take_of_length_le (by omega)]
  | k + 1, l2, h, r, hlen, hf, ag, nf, ht => by
    have hl := hi0.lt hsrc
    have hsrc' : h.cells src = some (.geoms l) := by rw [ag src hl (by simp)]; exact hsrc
    have hlt : l2.length < l.length := by omega
    obtain ⟨p, hp'⟩ : ∃ p, l[l2.length]? = some p := ⟨_, List.getElem?_eq_getElem hlt⟩
    have hpl : p ∈ l := List.mem_of_getElem? hp'
    have hpa : ∀ a ∈ p, a ∉ D ∧ ∃ c, h0.cells a = some c := fun a ha =>
      hi0.child hsD hsrc (mem_pms.2 (by rw [← show p = some a from ha]; exact hpl))
    unfold copyGeoms
    apply wp_bind
    apply wp_load hsrc'
    dsimp only
    rw [hp']
    dsimp only
    apply wp_bind
    have hpk : ∀ a ∈ p, a < h0.next ∧ a ∉ insert hp D ∧ IsGeom h a := by
      intro a ha
      obtain ⟨haD, c, hc⟩ := hpa a ha
      have h1 := hi0.lt hc
      have h2 := hf.ge
      refine ⟨h1, ?_, ?_⟩
      · simp only [Finset.mem_insert, not_or]
        exact ⟨by omega, haD⟩
      · exact (hi0.typed src _ hsD hsrc p hpl a ha).mono (fun k hk => ag.is h1 (by simp) hk)
    refine wp_mono (hcopy _ _ _ _ _ hf.inv ?_) ?_
    · intro a ha
      refine ⟨(hpk a ha).2.1, (hpk a ha).2.2, ?_⟩
      rw [hf.rank a (hpk a ha).1]
      exact hbd p hpl a ha
    rintro q h1 cp
    obtain ⟨r1, hi1, hr1⟩ := cp.made.inv
    have hc1 : h1.cells hp = some (.geoms (l2 ++ none :: List.replicate k none)) := by
      rw [cp.made.step.keep hp (by simp)]; exact hf.cell
    apply wp_bind
    unfold setGeom
    apply wp_bind
    apply wp_load hc1
    dsimp only
    rw [if_pos (by simp)]
    apply wp_store hc1
    rw [set_append]
    have hf2 := hf.put (c' := .geoms (l2 ++ q :: List.replicate k none)) (r' := r1) (h' := h1)
      (hi1.congr (by
        simp only [Cell.ptrs, List.replicate_succ, pms_append, pms_cons, pm_none]; abel))
      hr1 cp.made.step rfl (by
        intro p' hp2 a ha
        have ha' : p' = some a := ha
        simp only [List.mem_append, List.mem_cons, List.mem_replicate] at hp2
        rcases hp2 with hp2 | hp2 | hp2
        · have hm : a ∈ (Cell.geoms (l2 ++ List.replicate (k + 1) none)).ptrs + E :=
            Multiset.mem_add.2 (Or.inl (mem_pms.2 (by rw [← ha']; simp [hp2])))
          exact (hf.typed p' (by simp [hp2]) a ha).mono (fun k hk =>
            isE hf.inv hi1 cp.made.step hm (Multiset.mem_add.2 (Or.inr hm)) hk)
        · subst hp2
          subst ha'
          cases hpc : p with
          | none => exact absurd (cp.nonnull hpc) (by simp)
          | some a0 =>
            exact (hpk a0 hpc).2.2.map (fun k hk => cp.kind a0 hpc a rfl k hk)
        · rw [hp2.2] at ha'; cases ha')
    cases hq : q with
    | none =>
      subst hq
      dsimp only
      refine wp_pure ⟨r1, _, ?_, hf2, fun e => (by cases e), fun _ hso => ?_⟩
      · simp; omega
      · rcases cp.null rfl ((ag.mono (by simp)).solid hi0 hpa (hso.child hsrc hpl)) with e | e
        · exact absurd (e ▸ hpl) (hso src (.root rfl) _ hsrc)
        · exact not_noFail e hf.step.le hf.step.fails (le_refl _)
    | some b =>
      dsimp only
      have hqn : q ≠ none := by rw [hq]; simp
      rw [← hq]
      have hlen2 : l2.length + 1 = (l2 ++ [q]).length := by simp
      rw [hlen2]
      have ag1 := cp.old hqn
      refine copyGeoms_ok hcopy hbd hi0 hsD hsrc k (l2 ++ [q]) _ r1 (by simp; omega)
        (by simpa using hf2) ?_ ?_ ?_
      · exact (ag.trans ag1 hf.step.le (fun _ _ h => h)).set (Or.inr hf.ge)
      · exact nf.trans (cp.made.nofail hqn) hf.step.fails
      · intro hplain n
        have agx : Agree (insert hp D) h
            (h1.set hp (some (.geoms (l2 ++ q :: List.replicate k none)))) :=
          (ag1.mono (by simp)).set (Or.inl (by simp))
        have agy : Agree (insert hp D) h1
            (h1.set hp (some (.geoms (l2 ++ q :: List.replicate k none)))) :=
          Agree.set (fun _ _ _ => rfl) (Or.inl (by simp))
        rw [List.map_append, ← hlen2, List.take_add_one, hp', List.map_append]
        congr 1
        · rw [← ht hplain n]
          apply List.map_congr_left
          intro p' hp2
          refine agx.tree hf.inv n p' (fun a ha => hf.inv.held (Multiset.mem_add.2 (Or.inl ?_)))
          exact mem_pms.2 (by rw [← show p' = some a from ha]; simp [hp2])
        · simp only [List.map_cons, List.map_nil, Option.toList_some]
          congr 1
          have hcp := cp.cp hqn hi0 hpa (ag.mono (by simp))
          rw [agy.tree hi1 n q (fun a ha => hi1.held (Multiset.mem_add.2 (Or.inl (by
            simpa using ha))))]
          exact hcp (hplain.child hsrc hpl) n

/-! ### Polygons -/

theorem alloc_set {h : Heap} {b : Addr} {c : Cell} {x : Option Cell} (hb : b ≠ h.next) :
    (h.alloc c).set b x = (h.set b x).alloc c := by
  unfold Heap.alloc Heap.set
  dsimp only
  congr 1
  funext j
  by_cases h1 : j = b
  · subst h1; simp [hb]
  · simp [h1]

/-- A finished copy. -/
theorem Half.post {r r' : Addr → Nat} {D : Finset Addr} {E : Multiset Addr} {h h' : Heap}
    {a b : Addr} {c c' : Cell} (hf : Half r r' D E h b c' h') (hc : h.cells a = some c)
    (ag : Agree ∅ h h') (nf : NoFail h h') (hk : c'.kind = c.kind)
    (ht : Plain h (some a) → ∀ n, c'.view (tree h' n) b = c.view (tree h n) a) :
    CopyPost r D E h (some a) (some b) h' := by
  obtain ⟨r1, hi, hr⟩ := hf.close
  refine ⟨⟨⟨r1, hi, hr⟩, hf.step, fun b' hb => by cases hb; exact hf.ge, fun _ => nf⟩, ?_,
    fun _ => ag, ?_, fun e => (by cases e), fun e => (by cases e)⟩
  · rintro a' ⟨⟩ b' ⟨⟩ k ⟨d, hd, hdk⟩
    rw [hc] at hd; cases hd
    exact ⟨c', hf.cell, by rw [hk]; exact hdk⟩
  · intro _ hpl n
    cases n with
    | zero => rfl
    | succ n =>
      simp only [Tg.Heap.tree, hc, hf.cell, Option.elim]
      exact ht hpl n

theorem CopyPost.failed {r r' : Addr → Nat} {D : Finset Addr} {E : Multiset Addr} {h h' : Heap}
    {p : Ptr} (hi : Inv r' h' D E) (hr : ∀ j < h.next, r' j = r j) (s : Step D h h')
    (hn : Solid h p → p = none ∨ ¬ NoFail h h') : CopyPost r D E h p none h' :=
  ⟨Made.null hi hr s, fun _ _ _ hb => (by cases hb), fun hn => absurd rfl hn,
    fun hn => absurd rfl hn, fun _ => hn, fun _ => rfl⟩

theorem polyCopy_ok {r : Addr → Nat} {D : Finset Addr} {E : Multiset Addr} {h : Heap} {p : Ptr}
    (hi : Inv r h D E) (hk : ∀ a ∈ p, a ∉ D ∧ IsPoly h a) :
    wp (polyCopy p) (CopyPost r D E h p) h := by
  cases p with
  | none => exact wp_pure (CopyPost.nil hi)
  | some a =>
    obtain ⟨haD, hak⟩ := hk a rfl
    unfold polyCopy
    apply wp_bind
    rcases hak with hak | hak
    · obtain ⟨rc, ix, st, pts, hc⟩ := hak.ring
      apply wp_load hc
      exact ringCopy_ok hi (fun b hb => by cases hb; exact ⟨haD, Or.inl hak⟩)
    obtain ⟨rc, ext, n, holes, hc⟩ := hak.poly
    apply wp_load hc
    dsimp only
    obtain ⟨t1, t2, t3⟩ := hi.typed a _ haD hc
    have hext : ∀ e ∈ ext, e ∉ D ∧ ∃ c, h.cells e = some c := fun e he =>
      hi.child haD hc (by simp only [Cell.ptrs, Multiset.mem_add, mem_pm]; exact Or.inl he)
    have hholes : ∀ e ∈ holes, e ∉ D ∧ ∃ c, h.cells e = some c := fun e he =>
      hi.child haD hc (by simp only [Cell.ptrs, Multiset.mem_add, mem_pm]; exact Or.inr he)
    apply wp_bind
    apply wp_malloc
    · intro hf
      exact wp_pure (CopyPost.failed hi.skip (fun _ _ => rfl) Step.skip
        (fun _ => Or.inr (fail_skip hf)))
    intro hff
    dsimp only
    have hf1 := Half.new (c := .poly 1 none 0 none) hi rfl rfl
      (fun _ => ⟨fun _ ha => (by cases ha), fun _ ha => (by cases ha), by simp⟩)
    have ag1 : Agree ∅ h (h.alloc (.poly 1 none 0 none)) :=
      Agree.alloc (fun _ _ _ => rfl) (le_refl _) _
    have n1 : NoFail h (h.alloc (.poly 1 none 0 none)) := NoFail.alloc hff
    have hbn := le_of_eq (rfl : h.next = h.next)
    generalize hb : h.next = b at hf1 hbn ⊢
    generalize h.alloc (.poly 1 none 0 none) = h1 at *
    have holdD : ∀ e c, h.cells e = some c → e ∉ D → e ∉ insert b D := by
      intro e c hc he
      have := hi.lt hc
      simp only [Finset.mem_insert, not_or]
      exact ⟨by omega, he⟩
    apply wp_bind
    refine wp_mono (ringCopy_ok hf1.inv (p := ext) ?_) ?_
    · intro e he
      obtain ⟨heD, c, hce⟩ := hext e he
      exact ⟨holdD e c hce heD, Or.inl (ag1.is (hi.lt hce) (by simp) (t1 e he))⟩
    intro q h2 cp
    obtain ⟨r2, i2, e2⟩ := cp.made.inv
    have hcb2 : h2.cells b = some (.poly 1 none 0 none) := by
      rw [cp.made.step.keep b (by simp)]; exact hf1.cell
    apply wp_bind
    apply wp_store hcb2
    have hqring : ∀ x ∈ q, Is h2 x .ring := by
      intro x hx
      cases hxe : ext with
      | none => have := cp.nonnull hxe; rw [this] at hx; cases hx
      | some e =>
        obtain ⟨_, c, hce⟩ := hext e hxe
        exact cp.kind e hxe x hx _ (ag1.is (hi.lt hce) (by simp) (t1 e hxe))
    have hf3 := hf1.put (c' := .poly 1 q 0 none) (i2.congr (by
        simp only [Cell.ptrs, pm_none]; abel)) e2 cp.made.step rfl
        ⟨hqring, fun _ ha => (by cases ha), by simp⟩
    generalize hh3 : h2.set b (some (.poly 1 q 0 none)) = h3 at *
    have hn3 : h3.next = h2.next := by rw [← hh3]; rfl
    cases hq : q with
    | none =>
      dsimp only
      apply wp_bind
      obtain ⟨r4, i4, e4⟩ := hf3.close
      refine wp_mono (polyFree_ok (p := some b) i4 ?_) ?_
      · intro x hx; cases hx; exact Or.inr ⟨_, hf3.cell, rfl⟩
      rintro _ h4 ⟨i5, f5⟩
      refine wp_pure (CopyPost.failed i5 e4 (hf3.step.trans f5.toStep) (fun hso => Or.inr ?_))
      rcases cp.null hq ((ag1.mono (by simp)).solid hi hext (hso.child hc (by simp [Cell.kids])))
        with e | e
      · exact absurd e (hso a (.root rfl) _ hc)
      · exact not_noFail e hf1.step.le hf1.step.fails (by rw [f5.next, hn3])
    | some x =>
      have hqn : q ≠ none := by rw [hq]; simp
      have ag2 := cp.old hqn
      have n2 := cp.made.nofail hqn
      have ag3 : Agree ∅ h h3 := by
        rw [← hh3]
        exact (ag1.trans ag2 hf1.step.le (fun _ _ h => h)).set (Or.inr hf1.ge)
      have n3 : NoFail h h3 := fun k e1 e2 =>
        n1.trans n2 hf1.step.fails k e1 (by rw [← hn3]; exact e2)
      have cpq : Cp h ext h3 q := by
        refine (cp.cp hqn hi hext (ag1.mono (by simp))).mono i2 (fun y hy => i2.held
          (Multiset.mem_add.2 (Or.inl (by simpa using hy)))) ?_
        rw [← hh3]
        exact Agree.set (fun _ _ _ => rfl) (Or.inl (by simp))
      dsimp only
      rw [← hq]
      split
      · rename_i hpos
        apply wp_bind
        apply wp_malloc
        · intro hff3
          dsimp only
          apply wp_bind
          obtain ⟨r4, i4, e4⟩ := hf3.close
          refine wp_mono (polyFree_ok (p := some b) i4.skip ?_) ?_
          · intro x hx; cases hx; exact Or.inr ⟨_, hf3.cell, rfl⟩
          rintro _ h4 ⟨i5, f5⟩
          refine wp_pure (CopyPost.failed i5 e4 ((hf3.step.trans Step.skip).trans f5.toStep)
            (fun hso => Or.inr ?_))
          exact not_noFail (fail_skip hff3) hf3.step.le hf3.step.fails (by rw [f5.next])
        intro hff3
        dsimp only
        have hb3 : b ≠ h3.next := by have := hf3.inv.lt hf3.cell; omega
        have hca : (h3.alloc (.rings (List.replicate n none))).cells b
            = some (.poly 1 q 0 none) := by rw [alloc_cells_ne _ _ hb3]; exact hf3.cell
        apply wp_bind
        apply wp_store hca
        rw [alloc_set hb3]
        generalize hhp3 : h3.next = hp
        cases holes with
        | none => have := t3.1 rfl; omega
        | some src =>
          dsimp only
          obtain ⟨hsD, csrc, hcsrc⟩ := hholes src rfl
          obtain ⟨l, hcl, hll⟩ := (t2 src rfl).rings
          have hsb : src ≠ b := by have := hi.lt hcl; omega
          have i4 := hf3.inv.put (a := b) (by simp) (.poly 1 q n (some hp))
          have ag4 : Agree ∅ h (h3.set b (some (.poly 1 q n (some hp)))) :=
            ag3.set (Or.inr hf1.ge)
          have s4 : Step D h (h3.set b (some (.poly 1 q n (some hp)))) :=
            hf3.step.put hf3.nmem hf3.ge
          have hcb4 : (h3.set b (some (.poly 1 q n (some hp)))).cells b
            = some (.poly 1 q n (some hp)) := by simp
          have hqring4 : ∀ x ∈ q, Is (h3.set b (some (.poly 1 q n (some hp)))) x .ring := by
            intro x hx
            refine is_set_other ?_ (hf3.typed.1 x hx)
            rintro rfl
            exact (i2.held (a := x) (Multiset.mem_add.2 (Or.inl (by simpa using hx)))).1 (by simp)
          have cpq4 : Cp h ext (h3.set b (some (.poly 1 q n (some hp)))) q := by
            refine cpq.mono hf3.inv (fun y hy => hf3.inv.held
              (Multiset.mem_add.2 (Or.inl (by
                simp only [Cell.ptrs, Multiset.mem_add, mem_pm]; exact Or.inl hy)))) ?_
            exact Agree.set (fun _ _ _ => rfl) (Or.inl (by simp))
          have hn4 : (h3.set b (some (.poly 1 q n (some hp)))).next = hp := hhp3
          have hf4 : (h3.set b (some (.poly 1 q n (some hp)))).fails = h3.fails := rfl
          have hcs4 : (h3.set b (some (.poly 1 q n (some hp)))).cells src
              = some (.rings l) := by
            rw [ag4 src (hi.lt hcl) (by simp)]; exact hcl
          have hn4' : NoFail h (h3.set b (some (.poly 1 q n (some hp)))) := n3
          have hff4 : (h3.set b (some (.poly 1 q n (some hp)))).fails
            (h3.set b (some (.poly 1 q n (some hp)))).next = false := hff3
          generalize h3.set b (some (.poly 1 q n (some hp))) = h4 at *
          have i4' : Inv r2 h4 (insert b D) (pm q + E) := i4.congr (by
            simp only [Cell.ptrs, pm_none]; abel)
          have hfh := Half.new (c := .rings (List.replicate n none)) i4' (by
              clear * -
              show pms _ = 0
              induction n with
              | zero => rfl
              | succ n ih => rw [List.replicate_succ, pms_cons, ih]; rfl) rfl
            (fun _ => fun p hp' a ha => by
              rw [(List.mem_replicate.1 hp').2] at ha; cases ha)
          have ag5 : Agree ∅ h4 (h4.alloc (.rings (List.replicate n none))) :=
            Agree.alloc (fun _ _ _ => rfl) (le_refl _) _
          have n5 : NoFail h4 (h4.alloc (.rings (List.replicate n none))) := NoFail.alloc hff4
          rw [hn4] at hfh
          generalize h4.alloc (.rings (List.replicate n none)) = h5 at *
          apply wp_bind
          have hloop := copyHoles_ok i4' (holdD src _ hcl hsD) hcs4 n [] h5 r2
            (by simpa using hll.symm) (by simpa using hfh) ag5 n5 (fun _ _ => rfl)
          refine wp_mono hloop ?_
          rintro ok h6 ⟨r6, l', hl', hf6, hok, hno⟩
          obtain ⟨r7, i7, e7⟩ := hf6.close
          have hcb6 : h6.cells b = some (.poly 1 q n (some hp)) := by
            rw [hf6.step.keep b (by simp)]; exact hcb4
          have hs3 := hf3.step.le
          have hfb : Half r r7 D E h b (.poly 1 q n (some hp)) h6 := by
            refine ⟨hf3.nmem, hf3.ge, hcb6, i7.congr (by
              simp only [Cell.ptrs, pm_some]; abel), fun j hj => ?_,
              s4.trans (hf6.step.mono (subset_insert' b D)), rfl, ?_, ?_, ?_⟩
            · rw [e7 j (by omega)]; exact hf3.rank j hj
            · intro y hy
              exact isE i4' i7 hf6.step (Multiset.mem_add.2 (Or.inl (by simpa using hy)))
                (Multiset.mem_add.2 (Or.inr (Multiset.mem_add.2 (Or.inl (by simpa using hy)))))
                (hqring4 y hy)
            · intro y hy
              cases hy
              exact ⟨_, hf6.cell, by simp [Cell.kind]; omega⟩
            · constructor
              · intro e; cases e
              · intro e; omega
          cases ok with
          | true =>
            obtain ⟨ag6, n6, tr6⟩ := hok rfl
            refine wp_pure (hfb.post hc (ag4.trans ag6 s4.le (fun _ _ h => h))
              (hn4'.trans n6 s4.fails) rfl ?_)
            intro hpl m
            have hplx : Plain h4 (some src) := (ag4.mono (by simp)).plain hi
              (fun y hy => by cases hy; exact hholes src rfl) (hpl.child hc (by simp [Cell.kids]))
            have e1 : tree h6 m q = tree h m ext :=
              (cpq4.mono i4' (fun y hy => i4'.held
                (Multiset.mem_add.2 (Or.inl (by simpa using hy))))
                (ag6.mono (by simp))) (hpl.child hc (by simp [Cell.kids])) m
            have e2 : tree h6 m (some hp) = tree h m (some src) := by
              cases m with
              | zero => rfl
              | succ m =>
                simp only [tree, hf6.cell, hcl, Option.elim, Cell.view]
                rw [tr6 hplx m]
                congr 1
                apply List.map_congr_left
                intro p' hp'
                refine (ag4.mono (by simp)).tree hi m p' (fun y hy => ?_)
                exact hi.child hsD hcl (mem_pms.2 (by rw [← show p' = some y from hy]; exact hp'))
            simp only [Cell.view, e1, e2]
          | false =>
            simp only [Bool.false_eq_true, if_false]
            apply wp_bind
            obtain ⟨r8, i8, e8⟩ := hfb.close
            refine wp_mono (polyFree_ok (p := some b) i8 ?_) ?_
            · intro x hx; cases hx; exact Or.inr ⟨_, hcb6, rfl⟩
            rintro _ h9 ⟨i9, f9⟩
            refine wp_pure (CopyPost.failed i9 e8 (hfb.step.trans f9.toStep)
              (fun hso => Or.inr ?_))
            refine not_noFail (hno rfl ?_) s4.le s4.fails (by rw [f9.next])
            exact (ag4.mono (by simp)).solid hi
              (fun y hy => by cases hy; exact hholes src rfl) (hso.child hc (by simp [Cell.kids]))
      · rename_i hpos
        have hn0 : n = 0 := by omega
        have hh0 := t3.2 hn0
        subst hn0 hh0
        refine wp_pure (hf3.post hc ag3 n3 rfl ?_)
        intro hpl m
        simp only [Cell.view]
        rw [cpq (hpl.child hc (by simp [Cell.kids])) m]
        cases m <;> rfl

end Tg.Heap
