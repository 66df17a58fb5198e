import Verif.Lemmas.HeapFree
/-! The constructors keep the counting invariant, whichever allocations fail. -/
set_option linter.unusedSectionVars false
set_option linter.dupNamespace false
namespace Tg.Heap

/-- All allocations between two heaps succeeded. -/
def NoFail (h h' : Heap) : Prop := ∀ k, h.next ≤ k → k < h'.next → h.fails k = false

theorem NoFail.refl (h h' : Heap) (hn : h'.next = h.next) : NoFail h h' := fun k h1 h2 => by omega

theorem NoFail.trans {h h' h'' : Heap} (a : NoFail h h') (b : NoFail h' h'')
    (hf : h'.fails = h.fails) : NoFail h h'' := fun k h1 h2 => by
  by_cases hk : k < h'.next
  · exact a k h1 hk
  · rw [← hf]; exact b k (by omega) h2

theorem NoFail.alloc {h : Heap} {c : Cell} (hf : h.fails h.next = false) :
    NoFail h (h.alloc c) := fun k h1 h2 => by
  simp at h2
  have : k = h.next := by omega
  rw [this]; exact hf

/-- The outcome of a constructor: NULL, or one new reference to a `K`. -/
structure Made (r : Addr → Nat) (D : Finset Addr) (E : Multiset Addr) (h : Heap)
    (K : Heap → Addr → Prop) (q : Ptr) (h' : Heap) : Prop where
  inv : ∃ r', Inv r' h' D (pm q + E) ∧ ∀ j < h.next, r' j = r j
  step : Step D h h'
  kind : ∀ a ∈ q, K h' a
  nofail : q ≠ none → NoFail h h'

theorem Made.mono {r : Addr → Nat} {D : Finset Addr} {E : Multiset Addr} {h : Heap}
    {K K' : Heap → Addr → Prop} {q : Ptr} {h' : Heap} (m : Made r D E h K q h')
    (hk : ∀ h a, K h a → K' h a) : Made r D E h K' q h' :=
  ⟨m.inv, m.step, fun a ha => hk _ _ (m.kind a ha), m.nofail⟩

theorem Made.null {r r' : Addr → Nat} {D : Finset Addr} {E : Multiset Addr} {h h' : Heap}
    {K : Heap → Addr → Prop} (hi : Inv r' h' D E) (hr : ∀ j < h.next, r' j = r j)
    (s : Step D h h') : Made r D E h K none h' :=
  ⟨⟨r', hi.congr (by simp), hr⟩, s, fun _ ha => absurd ha (by simp), fun hn => absurd rfl hn⟩

theorem isGeom_rc {h : Heap} {a : Addr} (hg : IsGeom h a) :
    ∃ c k, h.cells a = some c ∧ c.rc = some k := by
  rcases hg with hg | hg | hg | hg | hg
  · obtain ⟨rc, ix, st, pts, hc⟩ := hg.line; exact ⟨_, rc, hc, rfl⟩
  · obtain ⟨rc, ix, st, pts, hc⟩ := hg.ring; exact ⟨_, rc, hc, rfl⟩
  · obtain ⟨rc, p, hc⟩ := hg.bpoint; exact ⟨_, rc, hc, rfl⟩
  · obtain ⟨rc, e, k, hs, hc⟩ := hg.poly; exact ⟨_, rc, hc, rfl⟩
  · obtain ⟨rc, ty, fl, ch, co, er, p, z, m, hc⟩ := hg.geom; exact ⟨_, rc, hc, rfl⟩

theorem clone_ok {r : Addr → Nat} {h : Heap} {D : Finset Addr} {E : Multiset Addr} {p : Ptr}
    (hi : Inv r h D E) (hk : ∀ a ∈ p, a ∉ D ∧ IsGeom h a) :
    wp (clone p) (fun q h' => q = p ∧ Inv r h' D (pm p + E) ∧ Frees D h h' ∧
      ∀ i k, Is h i k → Is h' i k) h := by
  cases p with
  | none => exact wp_pure ⟨rfl, hi.congr (by simp), Frees.refl _ _, fun _ _ hk => hk⟩
  | some a =>
    obtain ⟨ha, hg⟩ := hk a rfl
    obtain ⟨c, k, hc, hrc⟩ := isGeom_rc hg
    unfold clone rcRetain
    apply wp_bind
    apply wp_bind
    apply wp_load hc
    rw [hrc]
    apply wp_store hc
    apply wp_pure
    exact ⟨rfl, hi.retain ha hc hrc, Frees.setSame ha hc (same_withRc _ _),
      fun i k hk => is_set_same hc (same_withRc _ _) hk⟩

/-! ### Rings and lines -/

/-- A block under construction: out of the count, above the old heap. -/
structure Fresh (D : Finset Addr) (h h' : Heap) (a : Addr) : Prop where
  nmem : a ∉ D
  ge : h.next ≤ a
  step : Step D h h'
  nofail : NoFail h h'

theorem processYstripes_ok {r : Addr → Nat} {h0 h : Heap} {D : Finset Addr} {E : Multiset Addr}
    {a : Addr} {rc : Int} {cl : Bool} {ix : Ptr} {pts : List Pt}
    (hi : Inv r h (insert a D) E) (hc : h.cells a = some (.series rc cl ix none pts))
    (hf : Fresh D h0 h a) :
    wp (processYstripes a) (fun b h' =>
      (b = false ∧ Inv r h' (insert a D) E ∧ h'.cells a = some (.series rc cl ix none pts) ∧
        Step D h0 h') ∨
      (b = true ∧ ∃ s r', Inv r' h' (insert a D) ({s} + E) ∧ (∀ j < h0.next, r' j = r j) ∧
        h'.cells a = some (.series rc cl ix (some s) pts) ∧ Is h' s .block ∧
        Step D h0 h' ∧ NoFail h0 h')) h := by
  unfold processYstripes
  apply wp_bind
  apply wp_malloc
  · intro hff
    apply wp_pure
    left
    exact ⟨rfl, hi.skip, hc, hf.step.trans Step.skip⟩
  intro hff
  dsimp only
  set t := h.next with ht
  have hat : a ≠ t := by have := hi.lt hc; omega
  have htD : t ∉ insert a D := hi.next_nmem
  have hi1 := hi.alloc (.block none [])
  rw [← ht] at hi1
  have s1 : Step D h0 (h.alloc (.block none [])) :=
    hf.step.trans (Step.alloc (fun hm => htD (Finset.mem_insert_of_mem hm)) _)
  have n1 : NoFail h0 (h.alloc (.block none [])) :=
    hf.nofail.trans (NoFail.alloc hff) hf.step.fails
  have hc1 : (h.alloc (.block none [])).cells a = some (.series rc cl ix none pts) := by
    rw [alloc_cells_ne _ _ hat]; exact hc
  have hct1 : (h.alloc (.block none [])).cells t = some (.block none []) := alloc_cells_self _ _
  have ht0 : h0.next ≤ t := by have := hf.ge; have := hi.lt hc; omega
  generalize h.alloc (.block none []) = h1 at *
  apply wp_bind
  apply wp_malloc
  · intro _
    dsimp only
    apply wp_bind
    apply wp_release (h := h1.skip) (c := .block none []) hct1
    apply wp_pure
    left
    refine ⟨rfl, hi1.skip.drop htD, ?_, ?_⟩
    · rw [set_cells_ne _ _ hat]; exact hc1
    · exact (s1.trans Step.skip).put (fun hm => htD (by simp [hm])) ht0
  intro hff1
  dsimp only
  set s := h1.next with hs
  have hat' : a ≠ s := by have := hi1.lt hc1; omega
  have hts : t ≠ s := by have := hi1.lt hct1; omega
  have hsD : s ∉ insert t (insert a D) := hi1.next_nmem
  have hi2 := hi1.alloc (.block none [])
  rw [← hs] at hi2
  have s2 : Step D h0 (h1.alloc (.block none [])) :=
    s1.trans (Step.alloc (fun hm => hsD (Finset.mem_insert_of_mem (Finset.mem_insert_of_mem hm))) _)
  have n2 : NoFail h0 (h1.alloc (.block none [])) :=
    n1.trans (NoFail.alloc hff1) s1.fails
  have hc2 : (h1.alloc (.block none [])).cells a = some (.series rc cl ix none pts) := by
    rw [alloc_cells_ne _ _ hat']; exact hc1
  have hct2 : (h1.alloc (.block none [])).cells t = some (.block none []) := by
    rw [alloc_cells_ne _ _ hts]; exact hct1
  have hcs2 : (h1.alloc (.block none [])).cells s = some (.block none []) := alloc_cells_self _ _
  have hs0 : h0.next ≤ s := by have := hi1.lt hct1; omega
  generalize h1.alloc (.block none []) = h2 at *
  apply wp_bind
  apply wp_store hcs2
  have hi3 := hi2.put (a := s) (by simp) (.block (some s) [])
  have s3 : Step D h0 (h2.set s (some (.block (some s) []))) :=
    s2.put (fun hm => hsD (by simp [hm])) hs0
  apply wp_bind
  apply wp_release (c := .block none [])
  · rw [set_cells_ne _ _ hts]; exact hct2
  have hi4 : Inv r ((h2.set s (some (.block (some s) []))).set t none)
      (insert s (insert a D)) E := by
    refine Inv.drop ?_ ?_
    · rw [Finset.insert_comm]; exact hi3
    · simp only [Finset.mem_insert, not_or]
      exact ⟨hts, fun h => hat h.symm, fun hm => htD (by simp [hm])⟩
  have s4 := s3.put (a := t) (c := none) (fun hm => htD (by simp [hm])) ht0
  have hc4 : ((h2.set s (some (.block (some s) []))).set t none).cells a
      = some (.series rc cl ix none pts) := by
    rw [set_cells_ne _ _ hat, set_cells_ne _ _ hat']; exact hc2
  have hcs4 : ((h2.set s (some (.block (some s) []))).set t none).cells s
      = some (.block (some s) []) := by
    rw [set_cells_ne _ _ hts.symm, set_cells_self]
  have hn4 : ((h2.set s (some (.block (some s) []))).set t none).next = h2.next := rfl
  generalize (h2.set s (some (.block (some s) []))).set t none = h4 at *
  apply wp_bind
  apply wp_load hc4
  dsimp only
  apply wp_bind
  apply wp_store hc4
  apply wp_pure
  right
  obtain ⟨r', hi5, hr'⟩ := Inv.attach (c := .block (some s) []) (E := E) (hi4.congr (by simp [Cell.ptrs]))
    (fun hm => hsD (by simp at hm ⊢; tauto)) hcs4 rfl trivial
  refine ⟨rfl, s, r', hi5.put (by simp) _, ?_, by simp, ?_, ?_, ?_⟩
  · intro j hj; exact hr' j (by omega)
  · exact ⟨_, by rw [set_cells_ne _ _ hat'.symm]; exact hcs4, rfl⟩
  · exact s4.put hf.nmem hf.ge
  · intro k h1 h2; exact n2 k h1 (by rw [← hn4]; exact h2)

theorem seriesNew_ok {r : Addr → Nat} {h : Heap} {D : Finset Addr} {E : Multiset Addr}
    (pts : List Pt) (cl ixd st : Bool) (hi : Inv r h D E) :
    wp (seriesNew pts cl ixd st) (fun q h' => Made r D E h
      (fun h' a => h.next ≤ a ∧ Is h' a (if cl then .ring else .line)) q h') h := by
  unfold seriesNew
  apply wp_bind
  apply wp_malloc
  · intro _
    exact wp_pure (Made.null hi.skip (fun _ _ => rfl) Step.skip)
  intro hff
  dsimp only
  have hi1 := hi.alloc (.series 1 cl none none pts)
  have hnD := hi.next_nmem
  have f1 : Fresh D h (h.alloc (.series 1 cl none none pts)) h.next :=
    ⟨hnD, le_refl _, Step.alloc hnD _, NoFail.alloc hff⟩
  have hc1 : (h.alloc (.series 1 cl none none pts)).cells h.next
      = some (.series 1 cl none none pts) := alloc_cells_self _ _
  set a := h.next with ha
  have hlt : ∀ j < a, j ≠ a := fun j hj e => by omega
  generalize h.alloc (.series 1 cl none none pts) = h1 at *
  apply wp_bind
  have hsi : wp (setIndex a cl ixd pts) (fun _ h' => Inv r h' (insert a D) E ∧ Fresh D h h' a ∧
      ∃ ix, h'.cells a = some (.series 1 cl ix none pts)) h1 := by
    unfold setIndex
    split
    · apply wp_store hc1
      exact ⟨hi1.put (by simp) _, ⟨f1.nmem, f1.ge, f1.step.put f1.nmem f1.ge, f1.nofail⟩,
        some a, by simp⟩
    · exact wp_pure ⟨hi1, f1, none, hc1⟩
  refine wp_mono hsi ?_
  rintro _ h2 ⟨hi2, f2, ix, hc2⟩
  have hk : ∀ (st : Ptr) (h' : Heap), h'.cells a = some (.series 1 cl ix st pts) →
      Is h' a (if cl then .ring else .line) := by
    intro st h' hc
    refine ⟨_, hc, ?_⟩
    cases cl <;> rfl
  split
  · apply wp_bind
    refine wp_mono (processYstripes_ok hi2 hc2 f2) ?_
    rintro b h3 (⟨rfl, hi3, hc3, s3⟩ | ⟨rfl, s, r', hi3, hr3, hc3, hs3, s3, n3⟩)
    · simp only [Bool.false_eq_true, ↓reduceIte]
      apply wp_bind
      obtain ⟨r', hi4, hr'⟩ := Inv.attach (c := .series 1 cl ix none pts) (E := E)
        (hi3.congr (by simp [Cell.ptrs])) hnD hc3 rfl (fun s hs => by cases hs)
      refine wp_mono (ringFree_ok (p := some a) hi4 ?_) ?_
      · rintro b ⟨⟩
        have := hk none h3 hc3
        cases cl
        · right; simpa using this
        · left; simpa using this
      · rintro _ h4 ⟨hi5, f5⟩
        exact wp_pure (Made.null hi5 (fun j hj => hr' j (hlt j hj)) (s3.trans f5.toStep))
    · simp only [↓reduceIte]
      apply wp_pure
      obtain ⟨r'', hi4, hr'⟩ := Inv.attach (c := .series 1 cl ix (some s) pts) (E := E)
        (hi3.congr (by simp [Cell.ptrs])) hnD hc3 rfl (fun s' hs => by cases hs; exact hs3)
      exact ⟨⟨r'', hi4.congr (by simp), fun j hj => (hr' j (hlt j hj)).trans (hr3 j hj)⟩, s3,
        fun b hb => by cases hb; exact ⟨le_refl _, hk _ _ hc3⟩, fun _ => n3⟩
  · apply wp_pure
    obtain ⟨r', hi4, hr'⟩ := Inv.attach (c := .series 1 cl ix none pts) (E := E)
      (hi2.congr (by simp [Cell.ptrs])) hnD hc2 rfl (fun s hs => by cases hs)
    exact ⟨⟨r', hi4.congr (by simp), fun j hj => hr' j (hlt j hj)⟩, f2.step,
      fun b hb => by cases hb; exact ⟨le_refl _, hk _ _ hc2⟩, fun _ => f2.nofail⟩

/-! ### Blocks without children -/

/-- An allocation of a finished block without pointers. -/
theorem malloc_ok {r : Addr → Nat} {h : Heap} {D : Finset Addr} {E : Multiset Addr} {c : Cell}
    (hi : Inv r h D E) (hp : c.ptrs = 0) (hw : c.want = 1) (ht : ∀ h, c.Typed h) :
    wp (malloc c) (fun q h' => Made r D E h
      (fun h' a => h.next ≤ a ∧ h'.cells a = some c) q h') h := by
  apply wp_malloc
  · intro _
    exact Made.null hi.skip (fun _ _ => rfl) Step.skip
  · intro hf
    obtain ⟨r', hi', hr'⟩ := Inv.attach (c := c) (E := E) ((hi.alloc c).congr (by rw [hp, zero_add]))
      hi.next_nmem (alloc_cells_self _ _) hw (ht _)
    exact ⟨⟨r', hi', fun j hj => hr' j (by omega)⟩, Step.alloc hi.next_nmem _,
      fun a ha => by cases ha; exact ⟨le_refl _, alloc_cells_self _ _⟩,
      fun _ => NoFail.alloc hf⟩

theorem pointNew_ok {r : Addr → Nat} {h : Heap} {D : Finset Addr} {E : Multiset Addr}
    (p : Pt) (hi : Inv r h D E) :
    wp (pointNew p) (fun q h' => Made r D E h (fun h' a => h.next ≤ a ∧ Is h' a .bpoint) q h') h :=
  wp_mono (malloc_ok hi rfl rfl (fun _ => trivial))
    (fun _ _ m => m.mono (fun _ _ hk => ⟨hk.1, _, hk.2, rfl⟩))

theorem pointNewZm_ok {r : Addr → Nat} {h : Heap} {D : Finset Addr} {E : Multiset Addr}
    (fl : Flags) (p : Pt) (z m : F64) (hi : Inv r h D E) :
    wp (pointNewZm fl p z m)
      (fun q h' => Made r D E h (fun h' a => h.next ≤ a ∧ Is h' a .geom) q h') h :=
  wp_mono (malloc_ok hi rfl rfl (fun _ => by simp [Cell.Typed]))
    (fun _ _ m => m.mono (fun _ _ hk => ⟨hk.1, _, hk.2, rfl⟩))

theorem geomNew_ok {r : Addr → Nat} {h : Heap} {D : Finset Addr} {E : Multiset Addr}
    (ty : GType) (fl : Flags) (hi : Inv r h D E) :
    wp (geomNew ty fl)
      (fun q h' => Made r D E h (fun h' a => h.next ≤ a ∧ Is h' a .geom) q h') h :=
  wp_mono (malloc_ok hi rfl rfl (fun _ => by simp [Cell.Typed, geomCell]))
    (fun _ _ m => m.mono (fun _ _ hk => ⟨hk.1, _, hk.2, rfl⟩))

/-! ### Polygons -/

theorem set_append {α : Type} (l : List α) (x y : α) (t : List α) :
    (l ++ x :: t).set l.length y = l ++ y :: t := by
  rw [List.set_append_right _ _ (le_refl _)]; simp

theorem pms_append (l t : List Ptr) : pms (l ++ t) = pms l + pms t := by
  simp [pms]

theorem cloneHoles_ok {r : Addr → Nat} {h0 : Heap} {D D0 : Finset Addr} {E : Multiset Addr}
    {hp : Addr} (hd : hp ∈ D) (hd0 : hp ∉ D0) (hge : h0.next ≤ hp) (hsub : D0 ⊆ D) :
    ∀ (ps l : List Ptr) (h : Heap),
    h.cells hp = some (.rings (l ++ List.replicate ps.length none)) →
    Inv r h D (pms l + E) → Step D0 h0 h → (∀ p ∈ ps, ∀ a ∈ p, a ∉ D ∧ IsGeom h a) →
    wp (cloneHoles hp l.length ps) (fun _ h' => h'.cells hp = some (.rings (l ++ ps)) ∧
      Inv r h' D (pms (l ++ ps) + E) ∧ Step D0 h0 h' ∧ h'.next = h.next ∧
      (∀ j ∈ D, j ≠ hp → h'.cells j = h.cells j) ∧
      (∀ i k, i ≠ hp → Is h i k → Is h' i k)) h
  | [], l, h, hc, hi, s, hk => by
    refine wp_pure ⟨by simpa using hc, by simpa using hi, s, rfl, fun _ _ _ => rfl,
      fun _ _ _ hk => hk⟩
  | p :: ps, l, h, hc, hi, s, hk => by
    unfold cloneHoles
    apply wp_bind
    refine wp_mono (clone_ok hi (hk p (by simp))) ?_
    rintro q h1 ⟨rfl, hi1, f1, k1⟩
    have hc1 : h1.cells hp = some (.rings (l ++ none :: List.replicate ps.length none)) := by
      rw [f1.keep hp hd, hc]; rfl
    apply wp_bind
    unfold setRing
    apply wp_bind
    apply wp_load hc1
    dsimp only
    rw [if_pos (by simp)]
    apply wp_store hc1
    rw [set_append]
    have hi2 := hi1.put hd (.rings (l ++ q :: List.replicate ps.length none))
    have s1 : Step D0 h0 h1 := s.trans (f1.toStep.mono hsub)
    have s2 := s1.put (c := some (.rings (l ++ q :: List.replicate ps.length none))) hd0 hge
    have hlen : l.length + 1 = (l ++ [q]).length := by simp
    rw [hlen]
    refine wp_mono (cloneHoles_ok (r := r) (E := E) hd hd0 hge hsub ps (l ++ [q]) _ ?_ ?_ s2 ?_) ?_
    · simp
    · refine hi2.congr ?_
      rw [pms_append]; simp; abel
    · intro p' hp' a ha
      obtain ⟨haD, hg⟩ := hk p' (by simp [hp']) a ha
      refine ⟨haD, ?_⟩
      have hne : a ≠ hp := fun e => by rw [e] at haD; exact haD hd
      rcases hg with hg | hg | hg | hg | hg
      · exact Or.inl (is_set_other hne (k1 _ _ hg))
      · exact Or.inr (Or.inl (is_set_other hne (k1 _ _ hg)))
      · exact Or.inr (Or.inr (Or.inl (is_set_other hne (k1 _ _ hg))))
      · exact Or.inr (Or.inr (Or.inr (Or.inl (is_set_other hne (k1 _ _ hg)))))
      · exact Or.inr (Or.inr (Or.inr (Or.inr (is_set_other hne (k1 _ _ hg)))))
    · rintro _ h3 ⟨c3, i3, s3, n3, k3, is3⟩
      refine ⟨by simpa using c3, by simpa using i3, s3, by rw [n3]; exact f1.next, ?_, ?_⟩
      · intro j hj hne
        rw [k3 j hj hne, set_cells_ne _ _ hne]; exact f1.keep j hj
      · intro i k hne hk
        exact is3 i k hne (is_set_other hne (k1 _ _ hk))

theorem polyNew_ok {r : Addr → Nat} {h : Heap} {D : Finset Addr} {E : Multiset Addr}
    {ext : Ptr} {holes : List Ptr} {nholes : Int} (hi : Inv r h D E)
    (he : ∀ a ∈ ext, a ∉ D ∧ Is h a .ring)
    (hh : ∀ p ∈ holes, ∀ a ∈ p, a ∉ D ∧ Is h a .ring)
    (hn : holes.length = nholes.toNat) :
    wp (polyNew ext holes nholes) (fun q h' => Made r D E h IsPoly q h') h := by
  cases ext with
  | none => exact wp_pure (Made.null hi (fun _ _ => rfl) (Step.refl _ _))
  | some e =>
    obtain ⟨heD, her⟩ := he e rfl
    unfold polyNew
    dsimp only
    by_cases hn0 : nholes = 0
    · rw [if_pos hn0]
      refine wp_mono (clone_ok hi (fun a ha => by cases ha; exact ⟨heD, Or.inr (Or.inl her)⟩)) ?_
      rintro q h1 ⟨rfl, hi1, f1, k1⟩
      exact ⟨⟨r, hi1, fun _ _ => rfl⟩, f1.toStep,
        fun a ha => by cases ha; exact Or.inl (k1 _ _ her), fun _ => NoFail.refl _ _ f1.next⟩
    rw [if_neg hn0]
    apply wp_bind
    apply wp_malloc
    · intro _
      exact wp_pure (Made.null hi.skip (fun _ _ => rfl) Step.skip)
    intro hff
    dsimp only
    have hi1 := hi.alloc (.poly 1 none 0 none)
    have haD := hi.next_nmem
    have s1 : Step D h (h.alloc (.poly 1 none 0 none)) := Step.alloc haD _
    have n1 : NoFail h (h.alloc (.poly 1 none 0 none)) := NoFail.alloc hff
    have hc1 : (h.alloc (.poly 1 none 0 none)).cells h.next = some (.poly 1 none 0 none) :=
      alloc_cells_self _ _
    have k1 : ∀ i k, Is h i k → Is (h.alloc (.poly 1 none 0 none)) i k := by
      rintro i k ⟨c, hc, hk⟩
      exact ⟨c, by rw [alloc_cells_ne _ _ (by have := hi.lt hc; omega)]; exact hc, hk⟩
    have hlt : ∀ i k, Is h i k → i < h.next := by
      rintro i k ⟨c, hc, hk⟩; exact hi.lt hc
    set a := h.next with ha
    have hx1 : a < (h.alloc (.poly 1 none 0 none)).next := by simp [← ha]
    generalize h.alloc (.poly 1 none 0 none) = h1 at *
    have hea : e ≠ a := by have := hlt _ _ her; omega
    apply wp_bind
    refine wp_mono (clone_ok hi1 (p := some e) ?_) ?_
    · rintro b ⟨⟩
      exact ⟨by simp [hea, heD], Or.inr (Or.inl (k1 _ _ her))⟩
    rintro q h2 ⟨rfl, hi2, f2, k2⟩
    have hc2 : h2.cells a = some (.poly 1 none 0 none) := by
      rw [f2.keep a (by simp)]; exact hc1
    have s2 : Step D h h2 := s1.trans (f2.toStep.mono (subset_insert' a D))
    have n2 : NoFail h h2 := fun k hk1 hk2 => n1 k hk1 (by rw [← f2.next]; exact hk2)
    apply wp_bind
    apply wp_store hc2
    have hi3 := hi2.put (a := a) (by simp) (.poly 1 (some e) 0 none)
    have s3 := s2.put (c := some (.poly 1 (some e) 0 none)) haD (le_of_eq ha)
    have hc3 : (h2.set a (some (.poly 1 (some e) 0 none))).cells a
        = some (.poly 1 (some e) 0 none) := by simp
    have k3 : ∀ i k, Is h i k → Is (h2.set a (some (.poly 1 (some e) 0 none))) i k :=
      fun i k hk => is_set_other (by have := hlt _ _ hk; omega) (k2 _ _ (k1 _ _ hk))
    have n3 : NoFail h (h2.set a (some (.poly 1 (some e) 0 none))) := n2
    have hx3 : a < (h2.set a (some (.poly 1 (some e) 0 none))).next := by
      rw [set_next, f2.next]; exact hx1
    generalize h2.set a (some (.poly 1 (some e) 0 none)) = h3 at *
    by_cases hpos : 0 < nholes
    · rw [if_pos hpos]
      apply wp_bind
      apply wp_malloc
      · intro _
        dsimp only
        apply wp_bind
        obtain ⟨r', hi4, hr'⟩ := Inv.attach (c := .poly 1 (some e) 0 none) (E := E)
          (hi3.skip.congr (by simp [Cell.ptrs])) haD hc3 rfl
          ⟨fun b hb => by cases hb; exact k3 _ _ her, fun b hb => (by cases hb), by simp⟩
        refine wp_mono (polyFree_ok (p := some a) hi4 ?_) ?_
        · rintro b ⟨⟩
          exact Or.inr ⟨_, hc3, rfl⟩
        · rintro _ h4 ⟨hi5, f5⟩
          exact wp_pure (Made.null hi5 (fun j hj => hr' j (by omega))
            ((s3.trans Step.skip).trans f5.toStep))
      intro hff3
      dsimp only
      have hi4 := hi3.alloc (.rings (List.replicate nholes.toNat none))
      have hpD := hi3.next_nmem
      have hah : a ≠ h3.next := by omega
      have s4 : Step D h (h3.alloc (.rings (List.replicate nholes.toNat none))) :=
        s3.trans (Step.alloc (fun hm => hpD (by simp [hm])) _)
      have n4 : NoFail h (h3.alloc (.rings (List.replicate nholes.toNat none))) :=
        n3.trans (NoFail.alloc hff3) s3.fails
      have hc4 : (h3.alloc (.rings (List.replicate nholes.toNat none))).cells a
          = some (.poly 1 (some e) 0 none) := by
        rw [alloc_cells_ne _ _ hah]; exact hc3
      have hch4 : (h3.alloc (.rings (List.replicate nholes.toNat none))).cells h3.next
          = some (.rings (List.replicate nholes.toNat none)) := alloc_cells_self _ _
      have k4 : ∀ i k, Is h i k →
          Is (h3.alloc (.rings (List.replicate nholes.toNat none))) i k := by
        intro i k hk
        obtain ⟨c, hc, hk'⟩ := k3 i k hk
        exact ⟨c, by rw [alloc_cells_ne _ _ (by have := hlt _ _ hk; omega)]; exact hc, hk'⟩
      set hp := h3.next with hhp
      generalize h3.alloc (.rings (List.replicate nholes.toNat none)) = h4 at *
      apply wp_bind
      apply wp_store hc4
      have hi5 := hi4.put (a := a) (by simp) (.poly 1 (some e) nholes.toNat (some hp))
      have s5 := s4.put (c := some (.poly 1 (some e) nholes.toNat (some hp))) haD (le_of_eq ha)
      have hc5 : (h4.set a (some (.poly 1 (some e) nholes.toNat (some hp)))).cells a
          = some (.poly 1 (some e) nholes.toNat (some hp)) := by simp
      have hch5 : (h4.set a (some (.poly 1 (some e) nholes.toNat (some hp)))).cells hp
          = some (.rings (List.replicate nholes.toNat none)) := by
        rw [set_cells_ne _ _ hah.symm]; exact hch4
      have k5 : ∀ i k, Is h i k →
          Is (h4.set a (some (.poly 1 (some e) nholes.toNat (some hp)))) i k :=
        fun i k hk => is_set_other (by have := hlt _ _ hk; omega) (k4 _ _ hk)
      have n5 : NoFail h (h4.set a (some (.poly 1 (some e) nholes.toNat (some hp)))) := n4
      generalize h4.set a (some (.poly 1 (some e) nholes.toNat (some hp))) = h5 at *
      apply wp_bind
      have hargs : ∀ p ∈ holes, ∀ b ∈ p, b ∉ insert hp (insert a D) ∧ IsGeom h5 b := by
        intro p hp' b hb
        obtain ⟨hbD, hbr⟩ := hh p hp' b hb
        have := hlt _ _ hbr
        refine ⟨?_, Or.inr (Or.inl (k5 _ _ hbr))⟩
        simp only [Finset.mem_insert, not_or]
        exact ⟨by omega, by omega, hbD⟩
      refine wp_mono (cloneHoles_ok (r := r) (E := {e} + E) (D0 := D) (D := insert hp (insert a D)) (h0 := h)
        (by simp) (fun hm => hpD (by simp [hm])) (by omega) ?_ holes [] h5 ?_ ?_ s5 hargs) ?_
      · intro x hx; simp [hx]
      · simpa [hn] using hch5
      · exact hi5.congr (by simp)
      rintro _ h6 ⟨hch6, hi6, s6, hn6, kd6, k6⟩
      apply wp_pure
      simp only [List.nil_append] at hch6 hi6
      have hc6 : h6.cells a = some (.poly 1 (some e) nholes.toNat (some hp)) := by
        rw [kd6 a (by simp) hah]; exact hc5
      have kk6 : ∀ i k, Is h i k → Is h6 i k := fun i k hk =>
        k6 i k (by have := hlt _ _ hk; omega) (k5 _ _ hk)
      obtain ⟨r1, hi7, hr1⟩ := Inv.attach (c := .rings holes) (E := {e} + E)
        (hi6.congr (by simp [Cell.ptrs])) hpD hch6 rfl
        (fun p hp' b hb => kk6 _ _ (hh p hp' b hb).2)
      obtain ⟨r2, hi8, hr2⟩ := Inv.attach (c := .poly 1 (some e) nholes.toNat (some hp)) (E := E)
        (hi7.congr (by simp only [Cell.ptrs, pm_some]; abel)) haD hc6 rfl
        ⟨fun b hb => by cases hb; exact kk6 _ _ her, fun b hb => by
          cases hb; exact ⟨_, hch6, by simp [Cell.kind, hn]⟩, by
            constructor
            · intro hx; cases hx
            · omega⟩
      refine ⟨⟨r2, hi8, fun j hj => ?_⟩, s6, fun b hb => ?_, fun _ => ?_⟩
      · rw [hr2 j (by omega), hr1 j (by omega)]
      · cases hb; exact Or.inr ⟨_, hc6, rfl⟩
      · intro k hk1 hk2; exact n5 k hk1 (by rw [← hn6]; exact hk2)
    · rw [if_neg hpos]
      apply wp_pure
      obtain ⟨r', hi4, hr'⟩ := Inv.attach (c := .poly 1 (some e) 0 none) (E := E)
        (hi3.congr (by simp [Cell.ptrs])) haD hc3 rfl
        ⟨fun b hb => by cases hb; exact k3 _ _ her, fun b hb => (by cases hb), by simp⟩
      exact ⟨⟨r', hi4, fun j hj => hr' j (by omega)⟩, s3,
        fun b hb => by cases hb; exact Or.inr ⟨_, hc3, rfl⟩, fun _ => n3⟩

end Tg.Heap
