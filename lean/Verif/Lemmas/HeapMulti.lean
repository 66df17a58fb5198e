import Verif.Lemmas.HeapNew
/-! The constructors of geometries with extra coordinates and of collections. -/
set_option linter.unusedSectionVars false
set_option linter.dupNamespace false
namespace Tg.Heap

theorem IsGeom.mono {h h' : Heap} {a : Addr} (hg : IsGeom h a)
    (hk : ∀ k, Is h a k → Is h' a k) : IsGeom h' a := by
  rcases hg with hg | hg | hg | hg | hg
  · exact Or.inl (hk _ hg)
  · exact Or.inr (Or.inl (hk _ hg))
  · exact Or.inr (Or.inr (Or.inl (hk _ hg)))
  · exact Or.inr (Or.inr (Or.inr (Or.inl (hk _ hg))))
  · exact Or.inr (Or.inr (Or.inr (Or.inr (hk _ hg))))

theorem IsPoly.mono {h h' : Heap} {a : Addr} (hg : IsPoly h a)
    (hk : ∀ k, Is h a k → Is h' a k) : IsPoly h' a := by
  rcases hg with hg | hg
  · exact Or.inl (hk _ hg)
  · exact Or.inr (hk _ hg)

theorem IsPoly.geom {h : Heap} {a : Addr} (hg : IsPoly h a) : IsGeom h a := by
  rcases hg with hg | hg
  · exact Or.inr (Or.inl hg)
  · exact Or.inr (Or.inr (Or.inr (Or.inl hg)))

theorem is_alloc {h : Heap} {i : Addr} {k : Kind} {c : Cell} (hne : i ≠ h.next) (hk : Is h i k) :
    Is (h.alloc c) i k := by
  obtain ⟨d, hd, hk⟩ := hk
  exact ⟨d, by rw [alloc_cells_ne _ _ hne]; exact hd, hk⟩

/-- Changing the own fields of the geometry that a constructor is about to return. -/
theorem fillExtra_ok {r r0 : Addr → Nat} {h0 h : Heap} {D : Finset Addr} {E : Multiset Addr}
    {a : Addr} {ty : GType} {fl0 : Flags} {ch er : Ptr} {p : Pt} {z m : F64}
    (coords : List Byte) (fl : Flags)
    (hi : Inv r h D ({a} + E)) (hc : h.cells a = some (.geom 1 ty fl0 ch none er p z m))
    (hty : ty ≠ .point) (hge : h0.next ≤ a) (s : Step D h0 h) (n : NoFail h0 h)
    (hr0 : ∀ j < h0.next, r j = r0 j) :
    wp (fillExtra a coords fl) (fun q h' => Made r0 D E h0
      (fun h' b => h0.next ≤ b ∧ Is h' b .geom) q h') h := by
  obtain ⟨haD, _⟩ := hi.held (a := a) (by simp)
  have ht : Cell.Typed h (.geom 1 ty fl0 ch none er p z m) := hi.typed a _ haD hc
  have hi1 := hi.detach hc rfl (Same.refl _)
  rw [set_self hc] at hi1
  unfold fillExtra
  apply wp_bind
  apply wp_load hc
  dsimp only
  apply wp_bind
  apply wp_store hc
  have hi2 := hi1.put (a := a) (by simp) (.geom 1 ty fl ch none er p z m)
  have s2 := s.put (c := some (.geom 1 ty fl ch none er p z m)) haD hge
  have hc2 : (h.set a (some (.geom 1 ty fl ch none er p z m))).cells a
      = some (.geom 1 ty fl ch none er p z m) := by simp
  have hch : ∀ i ∈ (Cell.geom 1 ty fl0 ch none er p z m).ptrs, i ≠ a := by
    intro i hi' e
    have := hi.rank a _ haD hc i hi'
    rw [e] at this
    omega
  have ht2 : Cell.Typed (h.set a (some (.geom 1 ty fl ch none er p z m)))
      (.geom 1 ty fl ch none er p z m) := by
    have := ht.mono (h' := h.set a (some (.geom 1 ty fl ch none er p z m)))
      (fun i hi' k hk => is_set_other (hch i hi') hk)
    exact this
  have hx2 : a < (h.set a (some (.geom 1 ty fl ch none er p z m))).next := by
    rw [set_next]; exact hi.lt hc
  have n2 : NoFail h0 (h.set a (some (.geom 1 ty fl ch none er p z m))) := n
  have hptr : (Cell.geom 1 ty fl0 ch none er p z m).ptrs
      = (Cell.geom 1 ty fl ch none er p z m).ptrs := rfl
  rw [hptr] at hi2 hch
  generalize h.set a (some (.geom 1 ty fl ch none er p z m)) = h2 at *
  have hlt : ∀ i ∈ (Cell.geom 1 ty fl ch none er p z m).ptrs, i < h2.next := by
    intro i hi'
    obtain ⟨c, hc⟩ := (hi2.held (Multiset.mem_add.2 (Or.inl hi'))).2
    exact hi2.lt hc
  split
  · apply wp_pure
    obtain ⟨r', hi3, hr'⟩ := hi2.attach haD hc2 rfl ht2
    exact ⟨⟨r', hi3, fun j hj => (hr' j (by omega)).trans (hr0 j hj)⟩, s2,
      fun b hb => by cases hb; exact ⟨hge, _, hc2, rfl⟩, fun _ => n2⟩
  apply wp_bind
  apply wp_malloc
  · intro _
    dsimp only
    apply wp_bind
    obtain ⟨r', hi3, hr'⟩ := hi2.skip.attach haD hc2 rfl ht2
    refine wp_mono (tgGeomFree_ok (p := some a) hi3 ?_) ?_
    · rintro b ⟨⟩
      exact Or.inr (Or.inr (Or.inr (Or.inr ⟨_, hc2, rfl⟩)))
    · rintro _ h3 ⟨hi4, f4⟩
      exact wp_pure (Made.null hi4 (fun j hj => (hr' j (by omega)).trans (hr0 j hj))
        ((s2.trans Step.skip).trans f4.toStep))
  intro hff
  dsimp only
  have hi3 := hi2.alloc (.block none coords)
  have hbD := hi2.next_nmem
  have hab : a ≠ h2.next := by omega
  have hc3 : (h2.alloc (.block none coords)).cells a
      = some (.geom 1 ty fl ch none er p z m) := by
    rw [alloc_cells_ne _ _ hab]; exact hc2
  have hcb3 : (h2.alloc (.block none coords)).cells h2.next = some (.block none coords) :=
    alloc_cells_self _ _
  have s3 := s2.trans (Step.alloc (D := D)
    (fun hm => hbD (Finset.mem_insert_of_mem hm)) (.block none coords))
  have n3 := n2.trans (NoFail.alloc (c := .block none coords) hff) s2.fails
  have ht3 : Cell.Typed (h2.alloc (.block none coords)) (.geom 1 ty fl ch none er p z m) :=
    ht2.mono (fun i hi' k hk => is_alloc (by have := hlt i hi'; omega) hk)
  generalize h2.alloc (.block none coords) = h3 at *
  obtain ⟨r3, hi4, hr3⟩ := Inv.attach (c := .block none coords)
    (E := (Cell.geom 1 ty fl ch none er p z m).ptrs + E)
    (hi3.congr (by rw [show (Cell.block none coords).ptrs = 0 from rfl, zero_add]))
    hbD hcb3 rfl trivial
  apply wp_bind
  apply wp_store hc3
  apply wp_pure
  have hi5 := hi4.put (a := a) (by simp) (.geom 1 ty fl ch (some h2.next) er p z m)
  have s5 := s3.put (c := some (.geom 1 ty fl ch (some h2.next) er p z m)) haD hge
  have hc5 : (h3.set a (some (.geom 1 ty fl ch (some h2.next) er p z m))).cells a
      = some (.geom 1 ty fl ch (some h2.next) er p z m) := by simp
  have ht5 : Cell.Typed (h3.set a (some (.geom 1 ty fl ch (some h2.next) er p z m)))
      (.geom 1 ty fl ch (some h2.next) er p z m) := by
    have t := ht3.mono (h' := h3.set a (some (.geom 1 ty fl ch (some h2.next) er p z m)))
      (fun i hi' k hk => is_set_other (hch i hi') hk)
    obtain ⟨_, t2, t3, t4, t5, t6⟩ := t
    refine ⟨fun b hb => ?_, t2, fun e => absurd e hty, t4, t5, t6⟩
    cases hb
    exact is_set_other (Ne.symm hab) ⟨_, hcb3, rfl⟩
  obtain ⟨r6, hi6, hr6⟩ := Inv.attach (c := .geom 1 ty fl ch (some h2.next) er p z m) (E := E)
    (hi5.congr (by simp only [Cell.ptrs, pm_some, pm_none]; abel)) haD hc5 rfl ht5
  have := s2.le
  exact ⟨⟨r6, hi6, fun j hj => (hr6 j (by omega)).trans
      ((hr3 j (by omega)).trans (hr0 j hj))⟩, s5,
    fun b hb => by cases hb; exact ⟨hge, _, hc5, rfl⟩, fun _ => n3⟩

theorem singleNew_ok {r : Addr → Nat} {h : Heap} {D : Finset Addr} {E : Multiset Addr}
    {ty : GType} {ch : Ptr} (coords : List Byte) (fl : Flags) (hi : Inv r h D E)
    (hty : ty = .linestring ∨ ty = .polygon)
    (h1 : ty = .linestring → ∀ a ∈ ch, a ∉ D ∧ Is h a .line)
    (h2 : ty = .polygon → ∀ a ∈ ch, a ∉ D ∧ IsPoly h a) :
    wp (singleNew ty ch coords fl) (fun q h' => Made r D E h
      (fun h' b => h.next ≤ b ∧ Is h' b .geom) q h') h := by
  have hgeom : ∀ a ∈ ch, a ∉ D ∧ IsGeom h a := by
    intro a ha
    rcases hty with e | e
    · exact ⟨(h1 e a ha).1, Or.inl (h1 e a ha).2⟩
    · exact ⟨(h2 e a ha).1, (h2 e a ha).2.geom⟩
  unfold singleNew geomNew
  apply wp_bind
  apply wp_malloc
  · intro _
    exact wp_pure (Made.null hi.skip (fun _ _ => rfl) Step.skip)
  intro hff
  dsimp only
  have haD := hi.next_nmem
  have hi1 := hi.alloc (geomCell ty {} none none)
  have s1 : Step D h (h.alloc (geomCell ty {} none none)) := Step.alloc haD _
  have n1 : NoFail h (h.alloc (geomCell ty {} none none)) := NoFail.alloc hff
  have hlt : ∀ i k, Is h i k → i < h.next := by
    rintro i k ⟨c, hc, hk⟩; exact hi.lt hc
  have k1 : ∀ i k, Is h i k → Is (h.alloc (geomCell ty {} none none)) i k := fun i k hk =>
    is_alloc (by have := hlt _ _ hk; omega) hk
  have hc1 : (h.alloc (geomCell ty {} none none)).cells h.next
      = some (geomCell ty {} none none) := alloc_cells_self _ _
  set a := h.next with ha
  generalize h.alloc (geomCell ty {} none none) = h1' at *
  apply wp_bind
  refine wp_mono (clone_ok hi1 (p := ch) ?_) ?_
  · intro b hb
    obtain ⟨hbD, hbg⟩ := hgeom b hb
    refine ⟨?_, hbg.mono (fun k => k1 b k)⟩
    have : b < a := by
      obtain ⟨c, k, hc, _⟩ := isGeom_rc hbg; exact hi.lt hc
    simp only [Finset.mem_insert, not_or]
    exact ⟨by omega, hbD⟩
  rintro q h2' ⟨rfl, hi2, f2, k2⟩
  have hc2 : h2'.cells a = some (geomCell ty {} none none) := by
    rw [f2.keep a (by simp)]; exact hc1
  have s2 : Step D h h2' := s1.trans (f2.toStep.mono (subset_insert' a D))
  apply wp_bind
  apply wp_store hc2
  have hi3 := hi2.put (a := a) (by simp) (geomCell ty {} q none)
  have s3 := s2.put (c := some (geomCell ty {} q none)) haD (le_of_eq ha)
  have hc3 : (h2'.set a (some (geomCell ty {} q none))).cells a
      = some (geomCell ty {} q none) := by simp
  have n3 : NoFail h (h2'.set a (some (geomCell ty {} q none))) := fun k e1 e2 =>
    n1 k e1 (by rw [← f2.next]; exact e2)
  have k3 : ∀ i k, Is h i k → Is (h2'.set a (some (geomCell ty {} q none))) i k :=
    fun i k hk => is_set_other (by have := hlt _ _ hk; omega) (k2 _ _ (k1 _ _ hk))
  generalize h2'.set a (some (geomCell ty {} q none)) = h3 at *
  obtain ⟨r', hi4, hr'⟩ := Inv.attach (c := geomCell ty {} q none) (E := E)
    (hi3.congr (by simp [Cell.ptrs, geomCell])) haD hc3 rfl (by
      refine ⟨fun b hb => (by cases hb), fun b hb => (by cases hb), ?_, ?_, ?_, ?_⟩
      · intro e; rcases hty with e' | e' <;> rw [e] at e' <;> cases e'
      · intro e b hb; exact k3 _ _ (h1 e b hb).2
      · intro e b hb; exact (h2 e b hb).2.mono (fun k => k3 b k)
      · intro e; rcases hty with e' | e' <;> rw [e'] at e <;> simp [isMulti] at e)
  exact fillExtra_ok coords fl hi4 hc3
    (by rcases hty with e | e <;> rw [e] <;> simp) (le_refl _) s3 n3
    (fun j hj => hr' j (by omega))

/-! ### Collections -/

/-- A collection under construction: the geometry, its `multi` and its array. -/
structure Shell (r0 r : Addr → Nat) (D : Finset Addr) (E : Multiset Addr) (h0 : Heap) (ty : GType)
    (n : Nat) (l : List Ptr) (a m g : Addr) (ix ixg : Ptr) (h : Heap) : Prop where
  ca : h.cells a = some (geomCell ty {} (some m) none)
  cm : h.cells m = some (.multi (some g) n ix ixg)
  cg : h.cells g = some (.geoms l)
  len : l.length = n
  inv : Inv r h (insert g (insert m (insert a D))) (pms l + (pm ix + (pm ixg + E)))
  rank : ∀ j < h0.next, r j = r0 j
  bix : ∀ s ∈ ix, Is h s .block
  bixg : ∀ s ∈ ixg, Is h s .block
  am : a ≠ m
  ag : a ≠ g
  mg : m ≠ g
  aD : a ∉ D
  mD : m ∉ D
  gD : g ∉ D
  age : h0.next ≤ a
  mge : h0.next ≤ m
  gge : h0.next ≤ g
  step : Step D h0 h

/-- A collection whose children are geometries starts to count. -/
theorem Shell.close {r0 r : Addr → Nat} {D : Finset Addr} {E : Multiset Addr} {h0 : Heap}
    {ty : GType} {n : Nat} {l : List Ptr} {a m g : Addr} {ix ixg : Ptr} {h : Heap}
    (sh : Shell r0 r D E h0 ty n l a m g ix ixg h) (hty : isMulti ty = true)
    (hl : ∀ p ∈ l, ∀ b ∈ p, IsGeom h b) :
    ∃ r', Inv r' h D ({a} + E) ∧ ∀ j < h0.next, r' j = r0 j := by
  have h1 := sh.am
  have h2 := sh.ag
  have h3 := sh.mg
  have h4 := sh.age
  have h5 := sh.mge
  have h6 := sh.gge
  obtain ⟨r1, i1, e1⟩ := Inv.attach (c := .geoms l) sh.inv
    (by simp only [Finset.mem_insert, not_or]; exact ⟨h3.symm, h2.symm, sh.gD⟩) sh.cg rfl hl
  obtain ⟨r2, i2, e2⟩ := Inv.attach (c := .multi (some g) n ix ixg) (E := E)
    (i1.congr (by simp only [Cell.ptrs, pm_some]; abel))
    (by simp only [Finset.mem_insert, not_or]; exact ⟨h1.symm, sh.mD⟩) sh.cm rfl
    ⟨fun b hb => by cases hb; exact ⟨_, sh.cg, by simp [Cell.kind, sh.len]⟩, sh.bix, sh.bixg,
      fun e => by cases e⟩
  obtain ⟨r3, i3, e3⟩ := Inv.attach (c := geomCell ty {} (some m) none) (E := E)
    (i2.congr (by simp [Cell.ptrs, geomCell])) sh.aD sh.ca rfl (by
      refine ⟨fun b hb => (by cases hb), fun b hb => (by cases hb), ?_, ?_, ?_, ?_⟩
      · intro e; rw [e] at hty; simp [isMulti] at hty
      · intro e; rw [e] at hty; simp [isMulti] at hty
      · intro e; rw [e] at hty; simp [isMulti] at hty
      · intro _ b hb; cases hb; exact ⟨_, sh.cm, rfl⟩)
  refine ⟨r3, i3, fun j hj => ?_⟩
  rw [e3 j (by omega), e2 j (by omega), e1 j (by omega)]
  exact sh.rank j hj

/-- A successful allocation during construction. -/
theorem grow {r : Addr → Nat} {h0 h : Heap} {D D0 : Finset Addr} {E : Multiset Addr}
    (hi : Inv r h D E) (hsub : D0 ⊆ D) (s : Step D0 h0 h) (n : NoFail h0 h) (c : Cell)
    (hff : h.fails h.next = false) :
    Inv r (h.alloc c) (insert h.next D) E ∧ Step D0 h0 (h.alloc c) ∧ NoFail h0 (h.alloc c) ∧
      h.next ∉ D ∧ h0.next ≤ h.next ∧ (h.alloc c).cells h.next = some c ∧
      (∀ b d, h.cells b = some d → b ≠ h.next ∧ (h.alloc c).cells b = some d) := by
  have hn := hi.next_nmem
  refine ⟨hi.alloc c, s.trans (Step.alloc (fun hm => hn (hsub hm)) c),
    n.trans (NoFail.alloc hff) s.fails, hn, s.le, alloc_cells_self _ _, fun b d hd => ?_⟩
  have : b ≠ h.next := by have := hi.lt hd; omega
  exact ⟨this, by rw [alloc_cells_ne _ _ this]; exact hd⟩

theorem newMulti_ok {r : Addr → Nat} {h : Heap} {D : Finset Addr} {E : Multiset Addr}
    (ty : GType) (n : Nat) (hi : Inv r h D E) :
    wp (newMulti ty n) (fun q h' => (q = none ∧ ∃ r', Inv r' h' D E ∧ Step D h h' ∧
        ∀ j < h.next, r' j = r j) ∨
      ∃ a m g ix ixg r', q = some a ∧
        Shell r r' D E h ty n (List.replicate n none) a m g ix ixg h' ∧ NoFail h h') h := by
  unfold newMulti geomNew
  apply wp_bind
  apply wp_malloc
  · intro _
    exact wp_pure (Or.inl ⟨rfl, r, hi.skip, Step.skip, fun _ _ => rfl⟩)
  intro hff
  dsimp only
  obtain ⟨i1, s1, n1, aD, age, ca1, -⟩ :=
    grow hi (Finset.Subset.refl D) (Step.refl D h) (NoFail.refl _ _ rfl)
      (geomCell ty {} none none) hff
  generalize h.alloc (geomCell ty {} none none) = h1 at *
  generalize ha : h.next = a at *
  apply wp_bind
  apply wp_malloc
  · intro _
    dsimp only
    apply wp_bind
    apply wp_release (h := h1.skip) (c := geomCell ty {} none none) ca1
    exact wp_pure (Or.inl ⟨rfl, r, i1.skip.drop aD, (s1.trans Step.skip).put aD (by omega),
      fun _ _ => rfl⟩)
  intro hff1
  dsimp only
  obtain ⟨i2, s2, n2, mD, mge, cm2, k2⟩ :=
    grow i1 (subset_insert' a D) s1 n1 (.multi none 0 none none) hff1
  generalize h1.alloc (.multi none 0 none none) = h2 at *
  generalize hm : h1.next = m at *
  obtain ⟨am, ca2⟩ := k2 a _ ca1
  apply wp_bind
  apply wp_store ca2
  have i3 := i2.put (a := a) (by simp) (geomCell ty {} (some m) none)
  have s3 := s2.put (c := some (geomCell ty {} (some m) none)) aD (by omega)
  have n3 : NoFail h (h2.set a (some (geomCell ty {} (some m) none))) := n2
  have ca3 : (h2.set a (some (geomCell ty {} (some m) none))).cells a
      = some (geomCell ty {} (some m) none) := by simp
  have cm3 : (h2.set a (some (geomCell ty {} (some m) none))).cells m
      = some (.multi none 0 none none) := by rw [set_cells_ne _ _ am.symm]; exact cm2
  generalize h2.set a (some (geomCell ty {} (some m) none)) = h3 at *
  have mD' : m ∉ D := fun hx => mD (Finset.mem_insert_of_mem hx)
  apply wp_bind
  apply wp_malloc
  · intro _
    dsimp only
    apply wp_bind
    apply wp_release (h := h3.skip) (c := .multi none 0 none none) cm3
    apply wp_bind
    apply wp_release (c := geomCell ty {} (some m) none)
    · rw [set_cells_ne _ _ am]; exact ca3
    exact wp_pure (Or.inl ⟨rfl, r, (i3.skip.drop mD).drop aD,
      ((s3.trans Step.skip).put mD' (by omega)).put aD (by omega), fun _ _ => rfl⟩)
  intro hff3
  dsimp only
  obtain ⟨i4, s4, n4, gD, gge, cg4, k4⟩ :=
    grow i3 (fun x hx => by simp [hx]) s3 n3 (.geoms (List.replicate n none)) hff3
  generalize h3.alloc (.geoms (List.replicate n none)) = h4 at *
  generalize hg : h3.next = g at *
  obtain ⟨ag, ca4⟩ := k4 a _ ca3
  obtain ⟨mg, cm4⟩ := k4 m _ cm3
  apply wp_bind
  apply wp_store cm4
  have gD' : g ∉ D := fun hx => gD (by simp [hx])
  have i5 := i4.put (a := m) (by simp) (.multi (some g) n none none)
  have s5 := s4.put (c := some (.multi (some g) n none none)) mD' (by omega)
  have n5 : NoFail h (h4.set m (some (.multi (some g) n none none))) := n4
  have cm5 : (h4.set m (some (.multi (some g) n none none))).cells m
      = some (.multi (some g) n none none) := by simp
  have ca5 : (h4.set m (some (.multi (some g) n none none))).cells a
      = some (geomCell ty {} (some m) none) := by rw [set_cells_ne _ _ am]; exact ca4
  have cg5 : (h4.set m (some (.multi (some g) n none none))).cells g
      = some (.geoms (List.replicate n none)) := by rw [set_cells_ne _ _ mg.symm]; exact cg4
  generalize h4.set m (some (.multi (some g) n none none)) = h5 at *
  have hrep : pms (List.replicate n none) = 0 := by
    clear * -
    induction n with
    | zero => rfl
    | succ n ih => rw [List.replicate_succ, pms_cons, ih]; rfl
  split
  · -- the index
    apply wp_bind
    refine wp_mono (malloc_ok (c := .block none []) i5 rfl rfl (fun _ => trivial)) ?_
    rintro ix h6 ⟨⟨r6, i6, e6⟩, s6, k6, n6⟩
    apply wp_bind
    refine wp_mono (malloc_ok (c := .block none []) i6 rfl rfl (fun _ => trivial)) ?_
    rintro ixg h7 ⟨⟨r7, i7, e7⟩, s7, k7, n7⟩
    have s7' : Step (insert g (insert m (insert a D))) h5 h7 := s6.trans s7
    have hle6 := s6.le
    have hle7 := s7.le
    have hle5 := s5.le
    have e67 : ∀ j < h.next, r7 j = r j := fun j hj =>
      (e7 j (by omega)).trans (e6 j (by omega))
    have hix7 : ∀ s ∈ ix, Is h7 s .block := by
      intro s hs
      obtain ⟨_, hs6⟩ := k6 s hs
      refine s7.is (i6.lt hs6) (i7.held ?_).2 ⟨_, hs6, rfl⟩
      exact Multiset.mem_add.2 (Or.inr (Multiset.mem_add.2 (Or.inl (by simpa using hs))))
    have hixg7 : ∀ s ∈ ixg, Is h7 s .block := fun s hs => ⟨_, (k7 s hs).2, rfl⟩
    have ca7 : h7.cells a = some (geomCell ty {} (some m) none) := by
      rw [s7'.keep a (by simp)]; exact ca5
    have cm7 : h7.cells m = some (.multi (some g) n none none) := by
      rw [s7'.keep m (by simp)]; exact cm5
    have cg7 : h7.cells g = some (.geoms (List.replicate n none)) := by
      rw [s7'.keep g (by simp)]; exact cg5
    have s7D : Step D h h7 := s5.trans (s7'.mono (fun x hx => by simp [hx]))
    have hfail : wp (do
        releaseOpt ix
        releaseOpt ixg
        release g
        release m
        release a
        pure (none : Ptr) : M Ptr) (fun q h' => (q = none ∧ ∃ r', Inv r' h' D E ∧ Step D h h' ∧
        ∀ j < a, r' j = r j) ∨
      ∃ a m g ix ixg r', q = some a ∧
        Shell r r' D E h ty n (List.replicate n none) a m g ix ixg h' ∧ NoFail h h') h7 := by
      apply wp_bind
      refine wp_mono (releaseOpt_ok (p := ix) (E := pm ixg + E) (i7.congr (by abel)) hix7) ?_
      rintro _ h8 ⟨i8, f8⟩
      apply wp_bind
      refine wp_mono (releaseOpt_ok i8 ?_) ?_
      · intro s hs
        exact f8.isE i8 (Multiset.mem_add.2 (Or.inl (by simpa using hs))) (hixg7 s hs)
      rintro _ h9 ⟨i9, f9⟩
      have f89 := f8.trans f9
      apply wp_bind
      refine wp_mono (drop_ok i9 gD (c := .geoms (List.replicate n none)) ?_) ?_
      · rw [f89.keep g (by simp)]; exact cg7
      rintro _ h10 ⟨i10, f10⟩
      apply wp_bind
      refine wp_mono (drop_ok i10 mD (c := .multi (some g) n none none) ?_) ?_
      · rw [f10.keep m (by simp), f89.keep m (by simp)]; exact cm7
      rintro _ h11 ⟨i11, f11⟩
      apply wp_bind
      refine wp_mono (drop_ok i11 aD (c := geomCell ty {} (some m) none) ?_) ?_
      · rw [f11.keep a (by simp), f10.keep a (by simp), f89.keep a (by simp)]; exact ca7
      rintro _ h12 ⟨i12, f12⟩
      refine wp_pure (Or.inl ⟨rfl, r7, i12, ?_, fun j hj => ?_⟩)
      · refine s7D.trans ((f89.toStep.mono (fun x hx => by simp [hx])).trans
          ((f10.toStep.mono (fun x hx => by simp [hx])).trans
          ((f11.toStep.mono (fun x hx => by simp [hx])).trans f12.toStep)))
      · exact e67 j (by omega)
    cases hixe : ix with
    | none =>
      subst hixe
      exact hfail
    | some i =>
      cases hixge : ixg with
      | none =>
        subst hixe hixge
        exact hfail
      | some j =>
        subst hixe hixge
        dsimp only
        apply wp_bind
        apply wp_store cm7
        have i8 := i7.put (a := m) (by simp) (.multi (some g) n (some i) (some j))
        have s8 := s7D.put (c := some (.multi (some g) n (some i) (some j))) mD' (by omega)
        obtain ⟨di, hci⟩ := hix7 i rfl
        have hik : di.kind = .block := hci.2
        have hidead : i ∉ insert g (insert m (insert a D)) :=
          (i7.held (a := i) (by simp)).1
        have hjdead : j ∉ insert g (insert m (insert a D)) :=
          (i7.held (a := j) (by simp)).1
        have him : i ≠ m := fun e => hidead (by simp [e])
        have hjm : j ≠ m := fun e => hjdead (by simp [e])
        have hia : i ≠ a := fun e => hidead (by simp [e])
        have hig : i ≠ g := fun e => hidead (by simp [e])
        obtain ⟨hige, hci6⟩ := k6 i rfl
        obtain ⟨hjge, hcj⟩ := k7 j rfl
        have hij : i ≠ j := by have := i6.lt hci6; omega
        have hci8 : (h7.set m (some (.multi (some g) n (some i) (some j)))).cells i = some di := by
          rw [set_cells_ne _ _ him]; exact hci.1
        have hcj8 : (h7.set m (some (.multi (some g) n (some i) (some j)))).cells j
            = some (.block none []) := by
          rw [set_cells_ne _ _ hjm]; exact hcj
        have cm8 : (h7.set m (some (.multi (some g) n (some i) (some j)))).cells m
            = some (.multi (some g) n (some i) (some j)) := by simp
        have ca8 : (h7.set m (some (.multi (some g) n (some i) (some j)))).cells a
            = some (geomCell ty {} (some m) none) := by rw [set_cells_ne _ _ am]; exact ca7
        have cg8 : (h7.set m (some (.multi (some g) n (some i) (some j)))).cells g
            = some (.geoms (List.replicate n none)) := by
          rw [set_cells_ne _ _ mg.symm]; exact cg7
        have hn8 : (h7.set m (some (.multi (some g) n (some i) (some j)))).next = h7.next := rfl
        generalize h7.set m (some (.multi (some g) n (some i) (some j))) = h8 at *
        have hdi : di.want = 1 ∧ di.ptrs = 0 := by
          cases di with
          | series _ cl => cases cl <;> simp [Cell.kind] at hik
          | block => exact ⟨rfl, rfl⟩
          | _ => simp [Cell.kind] at hik
        have i9 := (i8.congr (show _ = {i} + ({j} + E) by simp only [pm_some]; abel)).detach
          hci8 hdi.1 (Same.refl _)
        rw [set_self hci8, hdi.2, zero_add] at i9
        apply wp_bind
        apply wp_store hci8
        apply wp_pure
        have i10 := i9.put (a := i) (by simp) (.block (some i) [])
        have iD : i ∉ D := fun hx => hidead (by simp [hx])
        have s10 := s8.put (c := some (.block (some i) [])) iD (by omega)
        obtain ⟨r11, i11, e11⟩ := Inv.attach (c := .block (some i) []) (E := {j} + E)
          (i10.congr (by simp [Cell.ptrs])) hidead (by simp) rfl trivial
        right
        refine ⟨a, m, g, some i, some j, r11, rfl, ?_, ?_⟩
        rotate_left
        · have := (n5.trans (n6 (by simp)) s5.fails).trans (n7 (by simp))
            (by rw [s6.fails, s5.fails])
          exact fun k e1 e2 => this k e1 (by rw [← hn8]; exact e2)
        constructor
        · rw [set_cells_ne _ _ hia.symm]; exact ca8
        · rw [set_cells_ne _ _ him.symm]; exact cm8
        · rw [set_cells_ne _ _ hig.symm]; exact cg8
        · simp
        · exact i11.congr (by simp [hrep])
        · intro x hx
          rw [e11 x (by omega)]; exact e67 x (by omega)
        · rintro s ⟨⟩; exact ⟨.block (some i) [], by simp, rfl⟩
        · rintro s ⟨⟩; exact ⟨_, by rw [set_cells_ne _ _ hij.symm]; exact hcj8, rfl⟩
        · exact am
        · exact ag
        · exact mg
        · exact aD
        · exact mD'
        · exact gD'
        · omega
        · omega
        · omega
        · exact s10
  · apply wp_pure
    right
    refine ⟨a, m, g, none, none, r, rfl, ?_, n5⟩
    exact ⟨ca5, cm5, cg5, by simp, i5.congr (by simp [hrep]), fun _ _ => rfl,
      fun s hs => (by cases hs), fun s hs => (by cases hs), am, ag, mg, aD, mD', gD',
      by omega, by omega, by omega, s5⟩

/-- A block made or retained elsewhere leaves the collection under construction as it is. -/
theorem Shell.other {r0 r r' : Addr → Nat} {D : Finset Addr} {E : Multiset Addr} {h0 : Heap}
    {ty : GType} {n : Nat} {l : List Ptr} {a m g : Addr} {ix ixg q : Ptr} {h h' : Heap}
    (sh : Shell r0 r D E h0 ty n l a m g ix ixg h)
    (hi : Inv r' h' (insert g (insert m (insert a D))) (pm q + (pms l + (pm ix + (pm ixg + E)))))
    (s : Step (insert g (insert m (insert a D))) h h') (hr : ∀ j < h.next, r' j = r j) :
    Shell r0 r' D (pm q + E) h0 ty n l a m g ix ixg h' := by
  have hle := sh.step.le
  have hheld : ∀ i k, Is h i k → i ∈ (pms l + (pm ix + (pm ixg + E))) → Is h' i k := by
    rintro i k ⟨c, hc, hk⟩ hm
    exact s.is (sh.inv.lt hc) (hi.held (Multiset.mem_add.2 (Or.inr hm))).2 ⟨c, hc, hk⟩
  exact ⟨by rw [s.keep a (by simp)]; exact sh.ca, by rw [s.keep m (by simp)]; exact sh.cm,
    by rw [s.keep g (by simp)]; exact sh.cg, sh.len, hi.congr (by abel),
    fun j hj => (hr j (by omega)).trans (sh.rank j hj),
    fun i hi' => hheld i _ (sh.bix i hi') (by
      simp only [Multiset.mem_add, mem_pm]; exact Or.inr (Or.inl hi')),
    fun i hi' => hheld i _ (sh.bixg i hi') (by
      simp only [Multiset.mem_add, mem_pm]; exact Or.inr (Or.inr (Or.inl hi'))),
    sh.am, sh.ag, sh.mg, sh.aD, sh.mD, sh.gD, sh.age, sh.mge, sh.gge,
    sh.step.trans (s.mono (fun x hx => by simp [hx]))⟩

theorem Shell.children {r0 r r' : Addr → Nat} {D D' : Finset Addr} {E E' : Multiset Addr}
    {h0 : Heap} {ty : GType} {n : Nat} {l : List Ptr} {a m g : Addr} {ix ixg : Ptr} {h h' : Heap}
    (sh : Shell r0 r D E h0 ty n l a m g ix ixg h) (hi : Inv r' h' D' E')
    (hE : ∀ i ∈ pms l, i ∈ E') {Ds : Finset Addr} (s : Step Ds h h')
    (hl : ∀ p ∈ l, ∀ b ∈ p, IsGeom h b) : ∀ p ∈ l, ∀ b ∈ p, IsGeom h' b := by
  rintro p hp b hb
  have hb' : some b ∈ l := by rw [← show p = some b from hb]; exact hp
  refine (hl p hp b hb).mono (fun k hk => ?_)
  obtain ⟨c, hc, hk⟩ := hk
  exact s.is (sh.inv.lt hc) (hi.held (hE b (mem_pms.2 hb'))).2 ⟨c, hc, hk⟩

/-- Storing a child. -/
theorem Shell.setGeom {r0 r : Addr → Nat} {D : Finset Addr} {E : Multiset Addr} {h0 : Heap}
    {ty : GType} {n : Nat} {l rest : List Ptr} {a m g : Addr} {ix ixg q : Ptr} {h : Heap}
    (sh : Shell r0 r D (pm q + E) h0 ty n (l ++ none :: rest) a m g ix ixg h)
    (hl : ∀ p ∈ l ++ none :: rest, ∀ b ∈ p, IsGeom h b) (hq : ∀ b ∈ q, IsGeom h b) :
    wp (setGeom g l.length q) (fun _ h' =>
      Shell r0 r D E h0 ty n (l ++ q :: rest) a m g ix ixg h' ∧
      (∀ p ∈ l ++ q :: rest, ∀ b ∈ p, IsGeom h' b) ∧ h'.next = h.next ∧
      (∀ i k, i ≠ g → Is h i k → Is h' i k)) h := by
  unfold Tg.Heap.setGeom
  apply wp_bind
  apply wp_load sh.cg
  dsimp only
  rw [if_pos (by simp)]
  apply wp_store sh.cg
  rw [set_append]
  have hi := sh.inv.put (a := g) (by simp) (.geoms (l ++ q :: rest))
  have hne : ∀ i k, i ≠ g → Is h i k →
      Is (h.set g (some (.geoms (l ++ q :: rest)))) i k := fun i k => is_set_other
  have hgD : ∀ i ∈ pms (l ++ none :: rest) + (pm ix + (pm ixg + (pm q + E))), i ≠ g := by
    intro i hi' e
    exact (sh.inv.held hi').1 (by simp [e])
  refine ⟨⟨?_, ?_, ?_, ?_, ?_, sh.rank, ?_, ?_, sh.am, sh.ag, sh.mg, sh.aD, sh.mD, sh.gD,
    sh.age, sh.mge, sh.gge, sh.step.put sh.gD sh.gge⟩, ?_, rfl, hne⟩
  · rw [set_cells_ne _ _ sh.ag]; exact sh.ca
  · rw [set_cells_ne _ _ sh.mg]; exact sh.cm
  · simp
  · have := sh.len; simpa using this
  · refine hi.congr ?_
    rw [pms_append, pms_append, pms_cons, pms_cons]; simp only [pm_none]; abel
  · intro s hs
    refine hne s _ (hgD s ?_) (sh.bix s hs)
    simp only [Multiset.mem_add, mem_pm]; exact Or.inr (Or.inl hs)
  · intro s hs
    refine hne s _ (hgD s ?_) (sh.bixg s hs)
    simp only [Multiset.mem_add, mem_pm]; exact Or.inr (Or.inr (Or.inl hs))
  · intro p hp b hb
    have hb' : p = some b := hb
    simp only [List.mem_append, List.mem_cons] at hp
    rcases hp with hp | hp | hp
    · refine (hl p (by simp [hp]) b hb).mono (fun k => hne b k (hgD b ?_))
      rw [Multiset.mem_add]
      exact Or.inl (mem_pms.2 (by rw [← hb']; simp [hp]))
    · subst hp
      refine (hq b hb).mono (fun k => hne b k (hgD b ?_))
      simp only [Multiset.mem_add, mem_pm]
      exact Or.inr (Or.inr (Or.inr (Or.inl hb)))
    · refine (hl p (by simp [hp]) b hb).mono (fun k => hne b k (hgD b ?_))
      rw [Multiset.mem_add]
      exact Or.inl (mem_pms.2 (by rw [← hb']; simp [hp]))

theorem cloneGeoms_ok {r0 r : Addr → Nat} {D : Finset Addr} {E : Multiset Addr} {h0 : Heap}
    {ty : GType} {n : Nat} {a m g : Addr} {ix ixg : Ptr} :
    ∀ (ps l : List Ptr) (h : Heap),
    Shell r0 r D E h0 ty n (l ++ List.replicate ps.length none) a m g ix ixg h →
    (∀ p ∈ l, ∀ b ∈ p, IsGeom h b) →
    (∀ p ∈ ps, ∀ b ∈ p, b ∉ insert g (insert m (insert a D)) ∧ IsGeom h b) →
    wp (cloneGeoms g l.length ps) (fun _ h' =>
      Shell r0 r D E h0 ty n (l ++ ps) a m g ix ixg h' ∧
      (∀ p ∈ l ++ ps, ∀ b ∈ p, IsGeom h' b) ∧ h'.next = h.next) h
  | [], l, h, sh, hl, hp => by
    refine wp_pure ⟨by simpa using sh, by simpa using hl, rfl⟩
  | p :: ps, l, h, sh, hl, hp => by
    have hl' : ∀ p ∈ l ++ none :: List.replicate ps.length none, ∀ b ∈ p, IsGeom h b := by
      intro p hp b hb
      simp only [List.mem_append, List.mem_cons, List.mem_replicate] at hp
      rcases hp with hp | hp | hp
      · exact hl p hp b hb
      · subst hp; cases hb
      · rw [hp.2] at hb; cases hb
    have sh' : Shell r0 r D E h0 ty n (l ++ none :: List.replicate ps.length none)
      a m g ix ixg h := sh
    unfold cloneGeoms
    apply wp_bind
    refine wp_mono (clone_ok sh'.inv (hp p (by simp))) ?_
    rintro q h1 ⟨rfl, hi1, f1, k1⟩
    have sh1 := sh'.other (q := q) hi1 f1.toStep (fun _ _ => rfl)
    apply wp_bind
    refine wp_mono (sh1.setGeom ?_ ?_) ?_
    · intro p hp b hb
      exact (hl' p hp b hb).mono (k1 b)
    · intro b hb
      exact (hp q (by simp) b hb).2.mono (k1 b)
    rintro _ h2 ⟨sh2, hl2, hn2, k2⟩
    have hlen : l.length + 1 = (l ++ [q]).length := by simp
    rw [hlen]
    have := cloneGeoms_ok ps (l ++ [q]) h2 (by simpa using sh2)
      (fun p hp b hb => hl2 p (by
        simp only [List.mem_append, List.mem_singleton] at hp
        rcases hp with hp | hp <;> simp [hp]) b hb)
      (fun p' hp' b hb => by
        obtain ⟨hbD, hbg⟩ := hp p' (by simp [hp']) b hb
        refine ⟨hbD, hbg.mono (fun k hk => k2 b k ?_ (k1 b k hk))⟩
        intro e; exact hbD (by simp [e]))
    refine wp_mono this ?_
    rintro _ h3 ⟨sh3, hl3, hn3⟩
    exact ⟨by simpa using sh3, by simpa using hl3, by rw [hn3, hn2]; exact f1.next⟩

theorem fillPoints_ok {r0 : Addr → Nat} {D : Finset Addr} {E : Multiset Addr} {h0 : Heap}
    {ty : GType} {n : Nat} {a m g : Addr} {ix ixg : Ptr} :
    ∀ (ps : List Pt) (l : List Ptr) (h : Heap) (r : Addr → Nat),
    Shell r0 r D E h0 ty n (l ++ List.replicate ps.length none) a m g ix ixg h →
    (∀ p ∈ l, ∀ b ∈ p, IsGeom h b) → NoFail h0 h →
    wp (fillPoints g l.length ps) (fun ok h' => ∃ r' l',
      Shell r0 r' D E h0 ty n l' a m g ix ixg h' ∧
      (∀ p ∈ l', ∀ b ∈ p, IsGeom h' b) ∧ (ok = true → NoFail h0 h')) h
  | [], l, h, r, sh, hl, nf => by
    refine wp_pure ⟨r, l, by simpa using sh, by simpa using hl, fun _ => nf⟩
  | p :: ps, l, h, r, sh, hl, nf => by
    have hl' : ∀ p ∈ l ++ none :: List.replicate ps.length none, ∀ b ∈ p, IsGeom h b := by
      intro p hp b hb
      simp only [List.mem_append, List.mem_cons, List.mem_replicate] at hp
      rcases hp with hp | hp | hp
      · exact hl p hp b hb
      · subst hp; cases hb
      · rw [hp.2] at hb; cases hb
    have sh' : Shell r0 r D E h0 ty n (l ++ none :: List.replicate ps.length none)
      a m g ix ixg h := sh
    unfold fillPoints
    apply wp_bind
    refine wp_mono (pointNew_ok (p := p) sh'.inv) ?_
    rintro q h1 ⟨⟨r1, hi1, e1⟩, s1, k1, n1⟩
    have sh1 := sh'.other (q := q) hi1 s1 e1
    apply wp_bind
    refine wp_mono (sh1.setGeom ?_ ?_) ?_
    · exact sh'.children hi1 (fun i hi' => by
        simp only [Multiset.mem_add]; exact Or.inr (Or.inl hi')) s1 hl'
    · intro b hb
      exact Or.inr (Or.inr (Or.inl (k1 b hb).2))
    rintro _ h2 ⟨sh2, hl2, hn2, k2⟩
    cases hq : q with
    | none =>
      dsimp only
      refine wp_pure ⟨r1, _, sh2, hl2, fun h => by cases h⟩
    | some b =>
      dsimp only
      have hlen : l.length + 1 = (l ++ [q]).length := by simp
      rw [hlen]
      refine fillPoints_ok ps (l ++ [q]) h2 r1 (by simpa using sh2)
        (fun p hp b hb => hl2 p (by
          simp only [List.mem_append, List.mem_singleton] at hp
          rcases hp with hp | hp <;> simp [hp]) b hb) ?_
      have := nf.trans (n1 (by rw [hq]; simp)) sh.step.fails
      exact fun k e1 e2 => this k e1 (by rw [← hn2]; exact e2)

theorem geomsOf_ok {r0 r : Addr → Nat} {D : Finset Addr} {E : Multiset Addr} {h0 : Heap}
    {ty : GType} {n : Nat} {l : List Ptr} {a m g : Addr} {ix ixg : Ptr} {h : Heap}
    (sh : Shell r0 r D E h0 ty n l a m g ix ixg h) :
    wp (geomsOf a) (fun b h' => b = g ∧ h' = h) h := by
  unfold geomsOf
  apply wp_bind
  apply wp_load sh.ca
  unfold geomCell
  dsimp only
  apply wp_bind
  apply wp_load sh.cm
  exact wp_pure ⟨rfl, rfl⟩

/-! ### Reading the rectangles of the children -/

theorem ringRect_ok {h : Heap} {p : Ptr} (hk : ∀ a ∈ p, Is h a .ring ∨ Is h a .line) :
    wp (ringRect p) (fun _ h' => h' = h) h := by
  cases p with
  | none => exact wp_pure rfl
  | some a =>
    obtain ⟨rc, cl, ix, st, pts, hc⟩ := Is.series (hk a rfl)
    unfold ringRect
    apply wp_bind
    apply wp_load hc
    exact wp_pure rfl

theorem polyRect_ok {r : Addr → Nat} {h : Heap} {D : Finset Addr} {E : Multiset Addr} {p : Ptr}
    (hi : Inv r h D E) (hk : ∀ a ∈ p, a ∉ D ∧ IsPoly h a) :
    wp (polyRect p) (fun _ h' => h' = h) h := by
  cases p with
  | none => exact wp_pure rfl
  | some a =>
    obtain ⟨haD, hk⟩ := hk a rfl
    unfold polyRect
    apply wp_bind
    rcases hk with hk | hk
    · obtain ⟨rc, ix, st, pts, hc⟩ := hk.ring
      apply wp_load hc
      exact wp_pure rfl
    · obtain ⟨rc, e, k, hs, hc⟩ := hk.poly
      apply wp_load hc
      exact ringRect_ok (fun b hb => Or.inl ((hi.typed a _ haD hc).1 b hb))

theorem geomRect_ok {r : Addr → Nat} {h : Heap} {D : Finset Addr} {E : Multiset Addr} {p : Ptr}
    (hi : Inv r h D E) (hk : ∀ a ∈ p, a ∉ D ∧ IsGeom h a) :
    wp (geomRect p) (fun _ h' => h' = h) h := by
  cases p with
  | none => exact wp_pure rfl
  | some a =>
    obtain ⟨haD, hg⟩ := hk a rfl
    unfold geomRect
    apply wp_bind
    rcases hg with hg | hg | hg | hg | hg
    · obtain ⟨rc, ix, st, pts, hc⟩ := hg.line
      apply wp_load hc
      exact wp_pure rfl
    · obtain ⟨rc, ix, st, pts, hc⟩ := hg.ring
      apply wp_load hc
      exact wp_pure rfl
    · obtain ⟨rc, p, hc⟩ := hg.bpoint
      apply wp_load hc
      exact wp_pure rfl
    · have hg' := hg
      obtain ⟨rc, e, k, hs, hc⟩ := hg.poly
      apply wp_load hc
      exact polyRect_ok hi (fun b hb => by cases hb; exact ⟨haD, Or.inr hg'⟩)
    · obtain ⟨rc, ty, fl, ch, co, er, p, z, m, hc⟩ := hg.geom
      apply wp_load hc
      have ht := hi.typed a _ haD hc
      obtain ⟨_, _, t3, t4, t5, t6⟩ := ht
      have hchild : ∀ b ∈ ch, b ∉ D := fun b hb => (hi.child haD hc (by
        simp only [Cell.ptrs, Multiset.mem_add, mem_pm]; tauto)).1
      have hmul : isMulti ty = true → wp (match ch with
          | none => (pure () : M Unit)
          | some m => do
            match ← load m with
            | .multi .. => pure ()
            | _ => fault) (fun _ h' => h' = h) h := by
        intro e
        cases ch with
        | none => exact wp_pure rfl
        | some b =>
          obtain ⟨g, n, ix, ixg, hcb⟩ := (t6 e b rfl).multi
          dsimp only
          apply wp_bind
          apply wp_load hcb
          exact wp_pure rfl
      cases ty with
      | point => exact wp_pure rfl
      | linestring => exact ringRect_ok (fun b hb => Or.inr (t4 rfl b hb))
      | polygon => exact polyRect_ok hi (fun b hb => ⟨hchild b hb, t5 rfl b hb⟩)
      | _ => exact hmul rfl

theorem readRects_ok {r : Addr → Nat} {D : Finset Addr} {E : Multiset Addr} {h : Heap}
    (hi : Inv r h D E) : ∀ (l : List Ptr), (∀ p ∈ l, ∀ a ∈ p, a ∉ D ∧ IsGeom h a) →
    wp (readRects l) (fun _ h' => h' = h) h
  | [], _ => wp_pure rfl
  | p :: ps, hk => by
    unfold readRects
    apply wp_bind
    refine wp_mono (geomRect_ok hi (hk p (by simp))) ?_
    rintro _ h' rfl
    exact readRects_ok hi ps (fun p hp => hk p (by simp [hp]))

theorem inflateRect_ok {r r0 : Addr → Nat} {h0 h : Heap} {D : Finset Addr} {E : Multiset Addr}
    {a m g : Addr} {n : Nat} {ix ixg : Ptr} {ty : GType} {fl : Flags}
    (hi : Inv r h D ({a} + E)) (hc : h.cells a = some (geomCell ty fl (some m) none))
    (hm : h.cells m = some (.multi (some g) n ix ixg)) (s : Step D h0 h) (nf : NoFail h0 h)
    (hr : ∀ j < h0.next, r j = r0 j) :
    wp (inflateRect a) (fun q h' => Made r0 D E h0 (fun h' b => b = a ∧
      h'.cells a = h.cells a) q h') h := by
  obtain ⟨haD, _⟩ := hi.held (a := a) (by simp)
  have hmD : m ∉ D := (hi.child haD hc (by simp [Cell.ptrs, geomCell])).1
  have tm := hi.typed m _ hmD hm
  have hgD : g ∉ D := (hi.child hmD hm (by simp [Cell.ptrs])).1
  have hmade : Made r0 D E h0 (fun h' b => b = a ∧ h'.cells a = h.cells a) (some a) h :=
    ⟨⟨r, hi, hr⟩, s, fun b hb => by cases hb; exact ⟨rfl, rfl⟩, fun _ => nf⟩
  unfold inflateRect
  apply wp_bind
  apply wp_load hc
  unfold geomCell
  dsimp only
  apply wp_bind
  apply wp_load hm
  dsimp only
  split
  · exact wp_pure hmade
  obtain ⟨l, hgc, hlen⟩ := (tm.1 g rfl).geoms
  apply wp_bind
  apply wp_load hgc
  dsimp only
  have hl : ∀ p ∈ l, ∀ b ∈ p, b ∉ D ∧ IsGeom h b := by
    intro p hp b hb
    refine ⟨(hi.child hgD hgc ?_).1, hi.typed g _ hgD hgc p hp b hb⟩
    simp only [Cell.ptrs]
    exact mem_pms.2 (by rw [← show p = some b from hb]; exact hp)
  apply wp_bind
  refine wp_mono (readRects_ok hi l hl) ?_
  rintro _ h' rfl
  cases ix with
  | none => exact wp_pure hmade
  | some i =>
    dsimp only
    apply wp_bind
    apply wp_malloc
    · intro _
      dsimp only
      apply wp_bind
      refine wp_mono (tgGeomFree_ok (p := some a) hi.skip ?_) ?_
      · rintro b ⟨⟩
        exact Or.inr (Or.inr (Or.inr (Or.inr ⟨_, hc, rfl⟩)))
      · rintro _ h3 ⟨hi4, f4⟩
        exact wp_pure (Made.null hi4 hr ((s.trans Step.skip).trans f4.toStep))
    intro hff
    dsimp only
    obtain ⟨i1, s1, n1, tD, tge, ct, k1⟩ :=
      grow hi (Finset.Subset.refl D) s nf (.block none []) hff
    have hk1 : ∀ p ∈ l, ∀ b ∈ p, b ∉ insert h'.next D ∧
        IsGeom (h'.alloc (.block none [])) b := by
      intro p hp b hb
      obtain ⟨hbD, hbg⟩ := hl p hp b hb
      obtain ⟨c, k, hcb, _⟩ := isGeom_rc hbg
      have := hi.lt hcb
      refine ⟨?_, hbg.mono (fun k hk => is_alloc (by omega) hk)⟩
      simp only [Finset.mem_insert, not_or]
      exact ⟨by omega, hbD⟩
    apply wp_bind
    refine wp_mono (readRects_ok i1 l hk1) ?_
    rintro _ h2 rfl
    apply wp_bind
    apply wp_release ct
    apply wp_pure
    have hne := (k1 a _ hc).1
    refine ⟨⟨r, i1.drop tD, hr⟩, s1.put tD tge, fun b hb => ?_, fun _ => n1⟩
    cases hb
    refine ⟨rfl, ?_⟩
    rw [set_cells_ne _ _ hne, (k1 a _ hc).2, hc]

/-! ### The constructors of collections -/

/-- What a constructor of collections returns: a new geometry without extra coordinates. -/
def IsNewMulti (h0 : Heap) (ty : GType) (h : Heap) (a : Addr) : Prop :=
  h0.next ≤ a ∧ ∃ m, h.cells a = some (geomCell ty {} (some m) none)

theorem multipointNew_ok {r : Addr → Nat} {h : Heap} {D : Finset Addr} {E : Multiset Addr}
    (pts : List Pt) (hi : Inv r h D E) :
    wp (multipointNew pts) (fun q h' => Made r D E h (IsNewMulti h .multipoint) q h') h := by
  unfold multipointNew
  apply wp_bind
  refine wp_mono (newMulti_ok .multipoint pts.length hi) ?_
  rintro q h1 (⟨rfl, r', i1, s1, e1⟩ | ⟨a, m, g, ix, ixg, r', rfl, sh, nf⟩)
  · exact wp_pure (Made.null i1 e1 s1)
  dsimp only
  apply wp_bind
  refine wp_mono (geomsOf_ok sh) ?_
  rintro _ h2 ⟨rfl, rfl⟩
  apply wp_bind
  have := fillPoints_ok pts [] h2 r' (by simpa using sh) (by simp) nf
  refine wp_mono this ?_
  rintro ok h3 ⟨r3, l3, sh3, hl3, nf3⟩
  obtain ⟨r4, i4, e4⟩ := sh3.close rfl hl3
  split
  · rename_i hok
    refine wp_mono (inflateRect_ok i4 sh3.ca sh3.cm sh3.step (nf3 hok) e4) ?_
    rintro q h5 md
    refine ⟨md.inv, md.step, fun b hb => ?_, md.nofail⟩
    obtain ⟨rfl, hcb⟩ := md.kind b hb
    exact ⟨sh3.age, m, by rw [hcb]; exact sh3.ca⟩
  · apply wp_bind
    refine wp_mono (tgGeomFree_ok (p := some a) i4 ?_) ?_
    · rintro b ⟨⟩
      exact Or.inr (Or.inr (Or.inr (Or.inr ⟨_, sh3.ca, rfl⟩)))
    · rintro _ h5 ⟨i5, f5⟩
      exact wp_pure (Made.null i5 e4 (sh3.step.trans f5.toStep))

theorem multiNew_ok {r : Addr → Nat} {h : Heap} {D : Finset Addr} {E : Multiset Addr}
    {ty : GType} (hty : isMulti ty = true) (ps : List Ptr) (hi : Inv r h D E)
    (hk : ∀ p ∈ ps, ∀ b ∈ p, b ∉ D ∧ IsGeom h b) :
    wp (multiNew ty ps) (fun q h' => Made r D E h (IsNewMulti h ty) q h') h := by
  unfold multiNew
  apply wp_bind
  refine wp_mono (newMulti_ok ty ps.length hi) ?_
  rintro q h1 (⟨rfl, r', i1, s1, e1⟩ | ⟨a, m, g, ix, ixg, r', rfl, sh, nf⟩)
  · exact wp_pure (Made.null i1 e1 s1)
  dsimp only
  apply wp_bind
  refine wp_mono (geomsOf_ok sh) ?_
  rintro g' h2 ⟨hg', rfl⟩
  subst g'
  apply wp_bind
  have hx : ∀ p ∈ ps, ∀ b ∈ p, b ∉ insert g (insert m (insert a D)) ∧ IsGeom h2 b := by
    intro p hp b hb
    obtain ⟨hbD, hbg⟩ := hk p hp b hb
    obtain ⟨c, k, hcb, _⟩ := isGeom_rc hbg
    have hlt := hi.lt hcb
    have h1 := sh.age
    have h2 := sh.mge
    have h3 := sh.gge
    refine ⟨?_, hbg.mono (fun k hk => ?_)⟩
    · simp only [Finset.mem_insert, not_or]
      exact ⟨by omega, by omega, by omega, hbD⟩
    · obtain ⟨c', hc', _⟩ := hi.alive sh.inv sh.step
        (fun i hi' => by simp only [Multiset.mem_add]; tauto)
        (fun i hl hi' => by
          simp only [Finset.mem_insert] at hi'
          rcases hi' with e | e | e | e
          · omega
          · omega
          · omega
          · exact e) b c hbD hcb
      exact sh.step.is hlt ⟨c', hc'⟩ hk
  have := cloneGeoms_ok ps [] h2 (by simpa using sh) (by simp) hx
  refine wp_mono this ?_
  rintro _ h3 ⟨sh3, hl3, hn3⟩
  obtain ⟨r4, i4, e4⟩ := sh3.close hty hl3
  refine wp_mono (inflateRect_ok i4 sh3.ca sh3.cm sh3.step ?_ e4) ?_
  · exact fun k e1 e2 => nf k e1 (by rw [← hn3]; exact e2)
  rintro q h5 md
  refine ⟨md.inv, md.step, fun b hb => ?_, md.nofail⟩
  obtain ⟨rfl, hcb⟩ := md.kind b hb
  exact ⟨sh3.age, m, by rw [hcb]; exact sh3.ca⟩

theorem withExtra_ok {r : Addr → Nat} {h : Heap} {D : Finset Addr} {E : Multiset Addr}
    {ty : GType} (hty : isMulti ty = true) {mk : M Ptr} (coords : List Byte) (fl : Flags)
    (hm : wp mk (fun q h' => Made r D E h (IsNewMulti h ty) q h') h) :
    wp (withExtra mk coords fl)
      (fun q h' => Made r D E h (fun h' b => h.next ≤ b ∧ Is h' b .geom) q h') h := by
  unfold withExtra
  apply wp_bind
  refine wp_mono hm ?_
  rintro q h1 ⟨⟨r1, i1, e1⟩, s1, k1, n1⟩
  cases q with
  | none => exact wp_pure (Made.null (i1.congr (by simp)) e1 s1)
  | some a =>
    obtain ⟨hge, m, hc⟩ := k1 a rfl
    exact fillExtra_ok coords fl i1 hc
      (by intro e; rw [e] at hty; simp [isMulti] at hty) hge s1 (n1 (by simp)) e1

end Tg.Heap
