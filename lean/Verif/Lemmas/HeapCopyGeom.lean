import Verif.Lemmas.HeapCopy
/-! Deep copies of geometries and collections. -/
set_option linter.unusedSectionVars false
set_option linter.dupNamespace false
namespace Tg.Heap

/-- Copy of a block of the heap `h0`, made later. -/
theorem blockCopy_from {r r0 : Addr → Nat} {D D0 : Finset Addr} {E E0 : Multiset Addr}
    {h0 h : Heap} {p : Ptr} (hi : Inv r h D E) (hi0 : Inv r0 h0 D0 E0)
    (hp : ∀ a ∈ p, a ∉ D0 ∧ Is h0 a .block) (ag : Agree ∅ h0 h) :
    wp (blockCopy p) (fun x h' => Made r D E h (fun h' b => Is h' b .block) x.1 h' ∧
      (p = none → x.1 = none) ∧
      (x.2 = true → Agree ∅ h h' ∧ NoFail h h' ∧ Cp h0 p h' x.1) ∧
      (x.2 = false → ¬ NoFail h h')) h := by
  have hp' : ∀ a ∈ p, a ∉ D0 ∧ ∃ c, h0.cells a = some c := fun a ha => by
    obtain ⟨h1, c, hc, _⟩ := hp a ha
    exact ⟨h1, c, hc⟩
  refine wp_mono (blockCopy_ok hi (p := p) ?_) ?_
  · intro a ha
    obtain ⟨h1, c, hc, hk⟩ := hp a ha
    exact ag.is (hi0.lt hc) (by simp) ⟨c, hc, hk⟩
  rintro ⟨q, ok⟩ h' ⟨cp, hok, hnil, hblk⟩
  refine ⟨⟨cp.made.inv, cp.made.step, hblk, cp.made.nofail⟩, fun e => (hnil e).1, ?_, ?_⟩
  · intro e
    rcases hok.1 e with ep | e
    · obtain ⟨e1, rfl⟩ := hnil ep
      dsimp only at e1 ⊢
      subst e1
      exact ⟨fun _ _ _ => rfl, NoFail.refl _ _ rfl, by rw [ep]; exact Cp.null⟩
    · exact ⟨cp.old e, cp.made.nofail e, cp.cp e hi0 hp' (ag.mono (by simp))⟩
  · intro e
    dsimp only at e hok hnil
    rw [e] at hok
    have hne : ¬ (p = none ∨ q ≠ none) := fun hx => by simpa using hok.2 hx
    rw [not_or, not_not] at hne
    have hso : Solid h p := by
      intro i hr
      have : ∀ a ∈ p, Is h a .block := fun a ha => by
        obtain ⟨h1, c, hc, hk⟩ := hp a ha
        exact ag.is (hi0.lt hc) (by simp) ⟨c, hc, hk⟩
      have hb : Is h i .block := by
        induction hr with
        | root e => exact this _ e
        | step _ hc' hk ih =>
          obtain ⟨inner, d, hcb⟩ := ih.block
          rw [hcb] at hc'; cases hc'
          simp [Cell.kids] at hk
      obtain ⟨inner, d, hcb⟩ := hb.block
      intro c hc
      rw [hcb] at hc; cases hc
      trivial
    rcases cp.null hne.2 hso with e | e
    · exact absurd e hne.1
    · exact e

theorem coordsCopy_eq {ty : GType} {co : Ptr} (h : ty = .point → co = none) :
    coordsCopy ty co = blockCopy co := by
  unfold coordsCopy
  split
  · rename_i e
    rw [h e]; rfl
  · rfl

theorem copyFail_ok {r r' : Addr → Nat} {D : Finset Addr} {E : Multiset Addr} {h h' : Heap}
    {p : Ptr} {b : Addr} {ty : GType} {fl : Flags} {ch co er : Ptr} {pt : Pt} {z m : F64}
    (hf : Half r r' D E h b (.geom 1 ty fl ch co er pt z m) h')
    (hn : Solid h p → ¬ NoFail h h') : wp (copyFail b) (CopyPost r D E h p) h' := by
  unfold copyFail
  apply wp_bind
  obtain ⟨r1, i1, e1⟩ := hf.close
  refine wp_mono (tgGeomFree_ok (p := some b) i1 ?_) ?_
  · intro x hx; cases hx
    exact Or.inr (Or.inr (Or.inr (Or.inr ⟨_, hf.cell, rfl⟩)))
  rintro _ h4 ⟨i5, f5⟩
  refine wp_pure (CopyPost.failed i5 e1 (hf.step.trans f5.toStep) (fun hso => Or.inr ?_))
  exact not_noFail (hn hso) (le_refl _) rfl (by rw [f5.next])

theorem copyTail_ok {r r1 : Addr → Nat} {D : Finset Addr} {E : Multiset Addr} {h h1 : Heap}
    {a b : Addr} {rc : Int} {ty : GType} {fl : Flags} {ch co er q : Ptr} {p : Pt} {z m : F64}
    (hi : Inv r h D E) (haD : a ∉ D) (hc : h.cells a = some (.geom rc ty fl ch co er p z m))
    (hf : Half r r1 D E h b (.geom 1 ty fl q none none p z m) h1) (ag : Agree ∅ h h1)
    (nf : NoFail h h1) (cpq : Cp h ch h1 q) :
    wp (copyTail ty fl q co er p z m b) (CopyPost r D E h (some a)) h1 := by
  obtain ⟨t1, t2, t3, t4, t5, t6⟩ := hi.typed a _ haD hc
  have hcoD : ∀ x ∈ co, x ∉ D ∧ Is h x .block := fun x hx => ⟨(hi.child haD hc (by
    simp only [Cell.ptrs, Multiset.mem_add, mem_pm]; tauto)).1, t1 x hx⟩
  have herD : ∀ x ∈ er, x ∉ D ∧ Is h x .block := fun x hx => ⟨(hi.child haD hc (by
    simp only [Cell.ptrs, Multiset.mem_add, mem_pm]; tauto)).1, t2 x hx⟩
  unfold copyTail
  rw [coordsCopy_eq (fun e => (t3 e).2)]
  apply wp_bind
  refine wp_mono (blockCopy_from hf.inv hi hcoD ag) ?_
  rintro ⟨co', ok⟩ h2 ⟨md, hnil, hok, hno⟩
  dsimp only at md hnil hok hno ⊢
  obtain ⟨r2, i2, e2⟩ := md.inv
  have hcb2 : h2.cells b = some (.geom 1 ty fl q none none p z m) := by
    rw [md.step.keep b (by simp)]; exact hf.cell
  apply wp_bind
  apply wp_store hcb2
  obtain ⟨u1, u2, u3, u4, u5, u6⟩ := hf.typed
  have hqE : ∀ x ∈ q, ∀ k, Is h1 x k → Is h2 x k := fun x hx k hk =>
    isE hf.inv i2 md.step
      (Multiset.mem_add.2 (Or.inl (by
        simp only [Cell.ptrs, Multiset.mem_add, mem_pm]; exact Or.inl hx)))
      (Multiset.mem_add.2 (Or.inr (Multiset.mem_add.2 (Or.inl (by
        simp only [Cell.ptrs, Multiset.mem_add, mem_pm]; exact Or.inl hx))))) hk
  have hf2 := hf.put (c' := .geom 1 ty fl q co' none p z m) (i2.congr (by
      simp only [Cell.ptrs, pm_none]; abel)) e2 md.step rfl
    ⟨md.kind, fun _ hx => (by cases hx), fun e => ⟨(u3 e).1, hnil (t3 e).2⟩,
      fun e x hx => hqE x hx _ (u4 e x hx), fun e x hx => (u5 e x hx).mono (hqE x hx),
      fun e x hx => hqE x hx _ (u6 e x hx)⟩
  have agx : Agree (insert b D) h2 (h2.set b (some (.geom 1 ty fl q co' none p z m))) :=
    Agree.set (fun _ _ _ => rfl) (Or.inl (by simp))
  have hagd : Agree ∅ h h2 → Agree ∅ h (h2.set b (some (.geom 1 ty fl q co' none p z m))) :=
    fun ag => ag.set (Or.inr hf.ge)
  have hnx : (h2.set b (some (.geom 1 ty fl q co' none p z m))).next = h2.next := rfl
  generalize h2.set b (some (.geom 1 ty fl q co' none p z m)) = h3 at *
  cases ok with
  | false =>
    simp only [Bool.not_false, if_true]
    refine copyFail_ok hf2 (fun _ => ?_)
    exact not_noFail (hno rfl) hf.step.le hf.step.fails (by rw [hnx])
  | true =>
  simp only [Bool.not_true, Bool.false_eq_true, if_false]
  obtain ⟨ag2, n2, cp2⟩ := hok rfl
  have ag3 : Agree ∅ h h3 := hagd (ag.trans ag2 hf.step.le (fun _ _ h => h))
  have n3 : NoFail h h3 := fun k x1 x2 =>
    nf.trans n2 hf.step.fails k x1 (by rw [← hnx]; exact x2)
  have cpq3 : Cp h ch h3 q := by
    refine cpq.mono hf.inv (fun x hx => hf.inv.held (Multiset.mem_add.2 (Or.inl (by
        simp only [Cell.ptrs, Multiset.mem_add, mem_pm]; exact Or.inl hx)))) ?_
    exact (ag2.mono (by simp)).trans agx md.step.le (fun _ _ h => h)
  have cpco3 : Cp h co h3 co' := by
    refine cp2.mono i2 (fun x hx => i2.held (Multiset.mem_add.2 (Or.inl (by simpa using hx)))) agx
  apply wp_bind
  refine wp_mono (blockCopy_from hf2.inv hi herD ag3) ?_
  clear hok hno hnil
  rintro ⟨er', ok⟩ h4 ⟨md4, hnil, hok, hno⟩
  dsimp only at md4 hnil hok hno ⊢
  obtain ⟨r4, i4, e4⟩ := md4.inv
  have hcb4 : h4.cells b = some (.geom 1 ty fl q co' none p z m) := by
    rw [md4.step.keep b (by simp)]; exact hf2.cell
  apply wp_bind
  apply wp_store hcb4
  obtain ⟨u1, u2, u3, u4, u5, u6⟩ := hf2.typed
  have hqE : ∀ x ∈ (Cell.geom 1 ty fl q co' none p z m).ptrs, ∀ k, Is h3 x k → Is h4 x k :=
    fun x hx k hk => isE hf2.inv i4 md4.step (Multiset.mem_add.2 (Or.inl hx))
      (Multiset.mem_add.2 (Or.inr (Multiset.mem_add.2 (Or.inl hx)))) hk
  have hq' : ∀ x ∈ q, x ∈ (Cell.geom 1 ty fl q co' none p z m).ptrs := fun x hx => by
    simp only [Cell.ptrs, Multiset.mem_add, mem_pm]; exact Or.inl hx
  have hco' : ∀ x ∈ co', x ∈ (Cell.geom 1 ty fl q co' none p z m).ptrs := fun x hx => by
    simp only [Cell.ptrs, Multiset.mem_add, mem_pm]; exact Or.inr (Or.inl hx)
  have hf4 := hf2.put (c' := .geom 1 ty fl q co' er' p z m) (i4.congr (by
      simp only [Cell.ptrs, pm_none]; abel)) e4 md4.step rfl
    ⟨fun x hx => hqE x (hco' x hx) _ (u1 x hx), md4.kind, u3,
      fun e x hx => hqE x (hq' x hx) _ (u4 e x hx),
      fun e x hx => (u5 e x hx).mono (hqE x (hq' x hx)),
      fun e x hx => hqE x (hq' x hx) _ (u6 e x hx)⟩
  have agy : Agree (insert b D) h4 (h4.set b (some (.geom 1 ty fl q co' er' p z m))) :=
    Agree.set (fun _ _ _ => rfl) (Or.inl (by simp))
  have hagd4 : Agree ∅ h h4 → Agree ∅ h (h4.set b (some (.geom 1 ty fl q co' er' p z m))) :=
    fun ag => ag.set (Or.inr hf.ge)
  have hnx4 : (h4.set b (some (.geom 1 ty fl q co' er' p z m))).next = h4.next := rfl
  generalize h4.set b (some (.geom 1 ty fl q co' er' p z m)) = h5 at *
  cases ok with
  | false =>
    simp only [Bool.not_false, if_true]
    refine copyFail_ok hf4 (fun _ => ?_)
    exact not_noFail (hno rfl) hf2.step.le hf2.step.fails (by rw [hnx4])
  | true =>
  simp only [Bool.not_true, Bool.false_eq_true, if_false]
  obtain ⟨ag4, n4, cp4⟩ := hok rfl
  have ag35 : Agree (insert b D) h3 h5 :=
    (ag4.mono (by simp)).trans agy md4.step.le (fun _ _ h => h)
  refine wp_pure (hf4.post hc (hagd4 (ag3.trans ag4 hf2.step.le (fun _ _ h => h))) ?_ rfl ?_)
  · exact fun k x1 x2 => n3.trans n4 hf2.step.fails k x1 (by rw [← hnx4]; exact x2)
  · intro hpl n
    have x1 := (cpq3.mono hf2.inv (fun x hx => hf2.inv.held (Multiset.mem_add.2 (Or.inl
      (hq' x hx)))) ag35) (hpl.child hc (by simp [Cell.kids])) n
    have x2 := (cpco3.mono hf2.inv (fun x hx => hf2.inv.held (Multiset.mem_add.2 (Or.inl
      (hco' x hx)))) ag35) (hpl.child hc (by simp [Cell.kids])) n
    have x3 := (cp4.mono i4 (fun x hx => i4.held (Multiset.mem_add.2 (Or.inl (by
      simpa using hx)))) agy) (hpl.child hc (by simp [Cell.kids])) n
    simp only [Cell.view, x1, x2, x3]

theorem pms_replicate (n : Nat) : pms (List.replicate n none) = 0 := by
  induction n with
  | zero => rfl
  | succ n ih => rw [List.replicate_succ, pms_cons, ih]; rfl

/-! ### Collections -/

theorem copyArray_ok {copy : Ptr → M Ptr} {bd : Nat} (hcopy : CopyOk bd copy)
    {r0 r rr : Addr → Nat} {D : Finset Addr} {E E0 : Multiset Addr} {h0 h : Heap}
    {mu mu2 : Addr} {geoms ix ixg : Ptr} {n : Nat} (hi0 : Inv rr h0 D E0) (hmD : mu ∉ D)
    (hmu : h0.cells mu = some (.multi geoms n ix ixg))
    (hbd : ∀ g ∈ geoms, ∀ l, h0.cells g = some (.geoms l) → ∀ p ∈ l, ∀ a ∈ p, r0 a < bd)
    (hf : Half r0 r D E h0 mu2 (.multi none 0 none none) h) (ag : Agree ∅ h0 h)
    (nf : NoFail h0 h) :
    wp (copyArray copy geoms n mu2) (fun x h' => ∃ r',
      Half r0 r' D E h0 mu2 (.multi x.1 x.2.1 none none) h' ∧
      (x.2.2 = true → Agree ∅ h0 h' ∧ NoFail h0 h' ∧ x.2.1 = n ∧ Cp h0 geoms h' x.1) ∧
      (x.2.2 = false → Solid h0 (some mu) → ¬ NoFail h0 h')) h := by
  obtain ⟨t1, t2, t3, t4⟩ := hi0.typed mu _ hmD hmu
  unfold copyArray
  cases geoms with
  | none =>
    dsimp only
    refine wp_pure ⟨r, hf, fun _ => ⟨ag, nf, (t4 rfl).symm, Cp.null⟩, fun e => (by cases e)⟩
  | some g =>
    dsimp only
    obtain ⟨hgD, _⟩ := hi0.child hmD hmu (i := g) (by simp [Cell.ptrs])
    obtain ⟨l, hcl, hll⟩ := (t1 g rfl).geoms
    apply wp_bind
    apply wp_malloc
    · intro hff
      dsimp only
      refine wp_pure ⟨r, ?_, fun e => (by cases e), fun _ _ => ?_⟩
      · exact ⟨hf.nmem, hf.ge, hf.cell, hf.inv.skip, hf.rank, hf.step.trans Step.skip, rfl,
          hf.typed⟩
      · exact not_noFail (fail_skip hff) hf.step.le hf.step.fails (le_refl _)
    intro hff
    dsimp only
    have hb3 : mu2 ≠ h.next := by have := hf.inv.lt hf.cell; omega
    have hca : (h.alloc (.geoms (List.replicate n none))).cells mu2
        = some (.multi none 0 none none) := by rw [alloc_cells_ne _ _ hb3]; exact hf.cell
    apply wp_bind
    apply wp_store hca
    rw [alloc_set hb3]
    generalize hgp : h.next = g2
    have hgl := hi0.lt hcl
    have hge := hf.ge
    have i4 := hf.inv.put (a := mu2) (by simp) (.multi (some g2) n none none)
    have ag4 : Agree ∅ h0 (h.set mu2 (some (.multi (some g2) n none none))) :=
      ag.set (Or.inr hf.ge)
    have s4 : Step D h0 (h.set mu2 (some (.multi (some g2) n none none))) :=
      hf.step.put hf.nmem hf.ge
    have hcb4 : (h.set mu2 (some (.multi (some g2) n none none))).cells mu2
      = some (.multi (some g2) n none none) := by simp
    have hn4 : (h.set mu2 (some (.multi (some g2) n none none))).next = g2 := hgp
    have hcs4 : (h.set mu2 (some (.multi (some g2) n none none))).cells g = some (.geoms l) := by
      rw [ag4 g hgl (by simp)]; exact hcl
    have hn4' : NoFail h0 (h.set mu2 (some (.multi (some g2) n none none))) := nf
    have hff4 : (h.set mu2 (some (.multi (some g2) n none none))).fails
      (h.set mu2 (some (.multi (some g2) n none none))).next = false := hff
    generalize h.set mu2 (some (.multi (some g2) n none none)) = h4 at *
    have i4' : Inv r h4 (insert mu2 D) E := i4.congr (by simp [Cell.ptrs])
    have hfh := Half.new (c := .geoms (List.replicate n none)) i4' (pms_replicate n) rfl
      (fun _ => fun p hp' a ha => by
        rw [(List.mem_replicate.1 hp').2] at ha; cases ha)
    have ag5 : Agree ∅ h4 (h4.alloc (.geoms (List.replicate n none))) :=
      Agree.alloc (fun _ _ _ => rfl) (le_refl _) _
    have n5 : NoFail h4 (h4.alloc (.geoms (List.replicate n none))) := NoFail.alloc hff4
    rw [hn4] at hfh
    generalize h4.alloc (.geoms (List.replicate n none)) = h5 at *
    have hgD2 : g ∉ insert mu2 D := by
      simp only [Finset.mem_insert, not_or]
      exact ⟨by omega, hgD⟩
    have hbd2 : ∀ p ∈ l, ∀ a ∈ p, r a < bd := by
      intro p hp a ha
      obtain ⟨_, c, hca⟩ := hi0.child hgD hcl (i := a)
        (mem_pms.2 (by rw [← show p = some a from ha]; exact hp))
      rw [hf.rank a (hi0.lt hca)]
      exact hbd g rfl l hcl p hp a ha
    apply wp_bind
    have hloop := copyGeoms_ok hcopy hbd2 i4' hgD2 hcs4 n [] h5 r
      (by simpa using hll.symm) (by simpa using hfh) ag5 n5 (fun _ _ => rfl)
    refine wp_mono hloop ?_
    rintro ok h6 ⟨r6, l', hl', hf6, hok, hno⟩
    obtain ⟨r7, i7, e7⟩ := hf6.close
    have hcb6 : h6.cells mu2 = some (.multi (some g2) n none none) := by
      rw [hf6.step.keep mu2 (by simp)]; exact hcb4
    have hs3 := s4.le
    refine wp_pure ⟨r7, ?_, ?_, ?_⟩
    · refine ⟨hf.nmem, hf.ge, hcb6, i7.congr (by
        simp only [Cell.ptrs, pm_some, pm_none]; abel), fun j hj => ?_,
        s4.trans (hf6.step.mono (subset_insert' mu2 D)), rfl, ?_, fun _ hx => (by cases hx),
        fun _ hx => (by cases hx), fun e => (by cases e)⟩
      · rw [e7 j (by omega)]; exact hf.rank j hj
      · intro y hy
        cases hy
        exact ⟨_, hf6.cell, by simp [Cell.kind]; omega⟩
    · intro e
      obtain ⟨ag6, n6, tr6⟩ := hok e
      refine ⟨ag4.trans ag6 s4.le (fun _ _ h => h), hn4'.trans n6 s4.fails, rfl, ?_⟩
      intro hpl m
      have hplx : Plain h4 (some g) := (ag4.mono (by simp)).plain hi0
        (fun y hy => by cases hy; exact ⟨hgD, _, hcl⟩) hpl
      cases m with
      | zero => rfl
      | succ m =>
        simp only [tree, hf6.cell, hcl, Option.elim, Cell.view]
        rw [tr6 hplx m]
        congr 1
        apply List.map_congr_left
        intro p' hp'
        refine (ag4.mono (by simp)).tree hi0 m p' (fun y hy => ?_)
        exact hi0.child hgD hcl (mem_pms.2 (by rw [← show p' = some y from hy]; exact hp'))
    · intro e hso
      refine not_noFail (hno e ?_) s4.le s4.fails (le_refl _)
      exact (ag4.mono (by simp)).solid hi0
        (fun y hy => by cases hy; exact ⟨hgD, _, hcl⟩) (hso.child hmu (by simp [Cell.kids]))

theorem copyMulti_ok {copy : Ptr → M Ptr} {bd : Nat} (hcopy : CopyOk bd copy)
    {r0 r rr : Addr → Nat} {D : Finset Addr} {E E0 : Multiset Addr} {h0 h : Heap}
    {mu mu2 : Addr} {geoms ix ixg : Ptr} {n : Nat} (hi0 : Inv rr h0 D E0) (hmD : mu ∉ D)
    (hmu : h0.cells mu = some (.multi geoms n ix ixg))
    (hbd : ∀ g ∈ geoms, ∀ l, h0.cells g = some (.geoms l) → ∀ p ∈ l, ∀ a ∈ p, r0 a < bd)
    (hf : Half r0 r D E h0 mu2 (.multi none 0 none none) h) (ag : Agree ∅ h0 h)
    (nf : NoFail h0 h) :
    wp (copyMulti copy geoms n ix ixg mu2) (fun ok h' => ∃ r' c',
      Half r0 r' D E h0 mu2 c' h' ∧ c'.kind = .multi ∧
      (ok = true → Agree ∅ h0 h' ∧ NoFail h0 h' ∧ Cp h0 (some mu) h' (some mu2)) ∧
      (ok = false → Solid h0 (some mu) → ¬ NoFail h0 h')) h := by
  obtain ⟨t1, t2, t3, t4⟩ := hi0.typed mu _ hmD hmu
  have hixD : ∀ x ∈ ix, x ∉ D ∧ Is h0 x .block := fun x hx => ⟨(hi0.child hmD hmu (by
    simp only [Cell.ptrs, Multiset.mem_add, mem_pm]; tauto)).1, t2 x hx⟩
  have hixgD : ∀ x ∈ ixg, x ∉ D ∧ Is h0 x .block := fun x hx => ⟨(hi0.child hmD hmu (by
    simp only [Cell.ptrs, Multiset.mem_add, mem_pm]; tauto)).1, t3 x hx⟩
  unfold copyMulti
  apply wp_bind
  refine wp_mono (copyArray_ok hcopy hi0 hmD hmu hbd hf ag nf) ?_
  rintro ⟨g2, n2, ok⟩ h1 ⟨r1, hf1, hok, hno⟩
  dsimp only at hf1 hok hno ⊢
  cases ok with
  | false =>
    simp only [Bool.not_false, if_true]
    exact wp_pure ⟨r1, _, hf1, rfl, fun e => (by cases e), fun _ => hno rfl⟩
  | true =>
  simp only [Bool.not_true, Bool.false_eq_true, if_false]
  obtain ⟨ag1, n1, rfl, cp1⟩ := hok rfl
  clear hok hno
  apply wp_bind
  refine wp_mono (blockCopy_from hf1.inv hi0 hixD ag1) ?_
  rintro ⟨i2, ok⟩ h2 ⟨md, hnil, hok, hno⟩
  dsimp only at md hnil hok hno ⊢
  obtain ⟨r2, i2v, e2⟩ := md.inv
  have hcb2 : h2.cells mu2 = some (.multi g2 n2 none none) := by
    rw [md.step.keep mu2 (by simp)]; exact hf1.cell
  apply wp_bind
  apply wp_store hcb2
  have hqE : ∀ x ∈ g2, x ∈ (Cell.multi g2 n2 none none).ptrs := fun x hx => by
    simp only [Cell.ptrs, Multiset.mem_add, mem_pm]; exact Or.inl hx
  have hf2 := hf1.put (c' := .multi g2 n2 i2 none) (i2v.congr (by
      simp only [Cell.ptrs, pm_none]; abel)) e2 md.step rfl
    ⟨fun x hx => isE hf1.inv i2v md.step (Multiset.mem_add.2 (Or.inl (hqE x hx)))
        (Multiset.mem_add.2 (Or.inr (Multiset.mem_add.2 (Or.inl (hqE x hx)))))
        (hf1.typed.1 x hx), md.kind, fun _ hx => (by cases hx), hf1.typed.2.2.2⟩
  have agx : Agree (insert mu2 D) h2 (h2.set mu2 (some (.multi g2 n2 i2 none))) :=
    Agree.set (fun _ _ _ => rfl) (Or.inl (by simp))
  have hagd : Agree ∅ h0 h2 → Agree ∅ h0 (h2.set mu2 (some (.multi g2 n2 i2 none))) :=
    fun ag => ag.set (Or.inr hf.ge)
  have hnx : (h2.set mu2 (some (.multi g2 n2 i2 none))).next = h2.next := rfl
  generalize h2.set mu2 (some (.multi g2 n2 i2 none)) = h3 at *
  cases ok with
  | false =>
    simp only [Bool.not_false, if_true]
    refine wp_pure ⟨r2, _, hf2, rfl, fun e => (by cases e), fun _ _ => ?_⟩
    exact not_noFail (hno rfl) hf1.step.le hf1.step.fails (by rw [hnx])
  | true =>
  simp only [Bool.not_true, Bool.false_eq_true, if_false]
  obtain ⟨ag2, n2', cp2⟩ := hok rfl
  have ag3 : Agree ∅ h0 h3 := hagd (ag1.trans ag2 hf1.step.le (fun _ _ h => h))
  have n3 : NoFail h0 h3 := fun k x1 x2 =>
    n1.trans n2' hf1.step.fails k x1 (by rw [← hnx]; exact x2)
  have cpg3 : Cp h0 geoms h3 g2 :=
    cp1.mono hf1.inv (fun x hx => hf1.inv.held (Multiset.mem_add.2 (Or.inl (hqE x hx))))
      ((ag2.mono (by simp)).trans agx md.step.le (fun _ _ h => h))
  have cpi3 : Cp h0 ix h3 i2 :=
    cp2.mono i2v (fun x hx => i2v.held (Multiset.mem_add.2 (Or.inl (by simpa using hx)))) agx
  apply wp_bind
  refine wp_mono (blockCopy_from hf2.inv hi0 hixgD ag3) ?_
  clear hok hno hnil
  rintro ⟨j2, ok⟩ h4 ⟨md4, hnil, hok, hno⟩
  dsimp only at md4 hnil hok hno ⊢
  obtain ⟨r4, i4, e4⟩ := md4.inv
  have hcb4 : h4.cells mu2 = some (.multi g2 n2 i2 none) := by
    rw [md4.step.keep mu2 (by simp)]; exact hf2.cell
  apply wp_bind
  apply wp_store hcb4
  have hqE : ∀ x ∈ (Cell.multi g2 n2 i2 none).ptrs, ∀ k, Is h3 x k → Is h4 x k :=
    fun x hx k hk => isE hf2.inv i4 md4.step (Multiset.mem_add.2 (Or.inl hx))
      (Multiset.mem_add.2 (Or.inr (Multiset.mem_add.2 (Or.inl hx)))) hk
  have hq' : ∀ x ∈ g2, x ∈ (Cell.multi g2 n2 i2 none).ptrs := fun x hx => by
    simp only [Cell.ptrs, Multiset.mem_add, mem_pm]; exact Or.inl hx
  have hi' : ∀ x ∈ i2, x ∈ (Cell.multi g2 n2 i2 none).ptrs := fun x hx => by
    simp only [Cell.ptrs, Multiset.mem_add, mem_pm]; exact Or.inr (Or.inl hx)
  have hf4 := hf2.put (c' := .multi g2 n2 i2 j2) (i4.congr (by
      simp only [Cell.ptrs, pm_none]; abel)) e4 md4.step rfl
    ⟨fun x hx => hqE x (hq' x hx) _ (hf2.typed.1 x hx),
      fun x hx => hqE x (hi' x hx) _ (hf2.typed.2.1 x hx), md4.kind, hf2.typed.2.2.2⟩
  have agy : Agree (insert mu2 D) h4 (h4.set mu2 (some (.multi g2 n2 i2 j2))) :=
    Agree.set (fun _ _ _ => rfl) (Or.inl (by simp))
  have hagd4 : Agree ∅ h0 h4 → Agree ∅ h0 (h4.set mu2 (some (.multi g2 n2 i2 j2))) :=
    fun ag => ag.set (Or.inr hf.ge)
  have hnx4 : (h4.set mu2 (some (.multi g2 n2 i2 j2))).next = h4.next := rfl
  generalize h4.set mu2 (some (.multi g2 n2 i2 j2)) = h5 at *
  refine wp_pure ⟨r4, _, hf4, rfl, ?_, fun e _ => ?_⟩
  · intro e
    obtain ⟨ag4, n4, cp4⟩ := hok e
    have ag35 : Agree (insert mu2 D) h3 h5 :=
      (ag4.mono (by simp)).trans agy md4.step.le (fun _ _ h => h)
    refine ⟨hagd4 (ag3.trans ag4 hf2.step.le (fun _ _ h => h)),
      fun k x1 x2 => n3.trans n4 hf2.step.fails k x1 (by rw [← hnx4]; exact x2), ?_⟩
    intro hpl m
    cases m with
    | zero => rfl
    | succ m =>
      have x1 := (cpg3.mono hf2.inv (fun x hx => hf2.inv.held (Multiset.mem_add.2 (Or.inl
        (hq' x hx)))) ag35) (hpl.child hmu (by simp [Cell.kids])) m
      have x2 := (cpi3.mono hf2.inv (fun x hx => hf2.inv.held (Multiset.mem_add.2 (Or.inl
        (hi' x hx)))) ag35) (hpl.child hmu (by simp [Cell.kids])) m
      have x3 := (cp4.mono i4 (fun x hx => i4.held (Multiset.mem_add.2 (Or.inl (by
        simpa using hx)))) agy) (hpl.child hmu (by simp [Cell.kids])) m
      simp only [tree, hf4.cell, hmu, Option.elim, Cell.view, x1, x2, x3]
  · exact not_noFail (hno e) hf2.step.le hf2.step.fails (by rw [hnx4])

/-! ### The child of a geometry -/

/-- The outcome of the switch of `geom_copy`. -/
def ChildPost (r : Addr → Nat) (D : Finset Addr) (E : Multiset Addr) (h : Heap) (a b : Addr)
    (ty : GType) (fl : Flags) (p : Pt) (z m : F64) (ch : Ptr) (x : Ptr × Bool) (h' : Heap) : Prop :=
  ∃ r', Half r r' D E h b (.geom 1 ty fl x.1 none none p z m) h' ∧
    (x.2 = true → Agree ∅ h h' ∧ NoFail h h' ∧ Cp h ch h' x.1) ∧
    (x.2 = false → Solid h (some a) → ¬ NoFail h h')

theorem copyChildMulti_ok {copy : Ptr → M Ptr} {bd : Nat} (hcopy : CopyOk bd copy)
    {r r1 : Addr → Nat} {D : Finset Addr} {E : Multiset Addr} {h h1 : Heap} {a b : Addr} {rc : Int}
    {ty : GType} {fl : Flags} {ch co er : Ptr} {p : Pt} {z m : F64} (hty : isMulti ty = true)
    (hi : Inv r h D E) (haD : a ∉ D) (hc : h.cells a = some (.geom rc ty fl ch co er p z m))
    (hbd : r a ≤ bd) (hf : Half r r1 D E h b (.geom 1 ty fl none none none p z m) h1)
    (ag : Agree ∅ h h1) (nf : NoFail h h1) :
    wp (copyChildMulti copy ty fl p z m ch b) (ChildPost r D E h a b ty fl p z m ch) h1 := by
  obtain ⟨t1, t2, t3, t4, t5, t6⟩ := hi.typed a _ haD hc
  unfold copyChildMulti
  cases ch with
  | none =>
    exact wp_pure ⟨r1, hf, fun _ => ⟨ag, nf, Cp.null⟩, fun e => (by cases e)⟩
  | some mu =>
    dsimp only
    have hmuptr : mu ∈ (Cell.geom rc ty fl (some mu) co er p z m).ptrs := by simp [Cell.ptrs]
    obtain ⟨hmD, _⟩ := hi.child haD hc hmuptr
    obtain ⟨geoms, n, ix, ixg, hcm⟩ := (t6 hty mu rfl).multi
    have hml := hi.lt hcm
    have hge := hf.ge
    have hcm1 : h1.cells mu = some (.multi geoms n ix ixg) := by
      rw [ag mu hml (by simp)]; exact hcm
    apply wp_bind
    apply wp_load hcm1
    dsimp only
    apply wp_bind
    apply wp_malloc
    · intro hff
      dsimp only
      refine wp_pure ⟨r1, ?_, fun e => (by cases e), fun _ _ => ?_⟩
      · exact ⟨hf.nmem, hf.ge, hf.cell, hf.inv.skip, hf.rank, hf.step.trans Step.skip, rfl,
          hf.typed⟩
      · exact not_noFail (fail_skip hff) hf.step.le hf.step.fails (le_refl _)
    intro hff
    dsimp only
    have hb3 : b ≠ h1.next := by have := hf.inv.lt hf.cell; omega
    have hca : (h1.alloc (.multi none 0 none none)).cells b
        = some (.geom 1 ty fl none none none p z m) := by
      rw [alloc_cells_ne _ _ hb3]; exact hf.cell
    apply wp_bind
    apply wp_store hca
    rw [alloc_set hb3]
    generalize hgp : h1.next = mu2
    have i4 := hf.inv.put (a := b) (by simp) (.geom 1 ty fl (some mu2) none none p z m)
    have ag4 : Agree ∅ h (h1.set b (some (.geom 1 ty fl (some mu2) none none p z m))) :=
      ag.set (Or.inr hf.ge)
    have s4 : Step D h (h1.set b (some (.geom 1 ty fl (some mu2) none none p z m))) :=
      hf.step.put hf.nmem hf.ge
    have hcb4 : (h1.set b (some (.geom 1 ty fl (some mu2) none none p z m))).cells b
      = some (.geom 1 ty fl (some mu2) none none p z m) := by simp
    have hn4 : (h1.set b (some (.geom 1 ty fl (some mu2) none none p z m))).next = mu2 := hgp
    have hcs4 : (h1.set b (some (.geom 1 ty fl (some mu2) none none p z m))).cells mu
        = some (.multi geoms n ix ixg) := by
      rw [ag4 mu hml (by simp)]; exact hcm
    have hn4' : NoFail h (h1.set b (some (.geom 1 ty fl (some mu2) none none p z m))) := nf
    have hff4 : (h1.set b (some (.geom 1 ty fl (some mu2) none none p z m))).fails
      (h1.set b (some (.geom 1 ty fl (some mu2) none none p z m))).next = false := hff
    generalize h1.set b (some (.geom 1 ty fl (some mu2) none none p z m)) = h4 at *
    have i4' : Inv r1 h4 (insert b D) E := i4.congr (by simp [Cell.ptrs])
    have hfh := Half.new (c := .multi none 0 none none) i4' rfl rfl
      (fun _ => ⟨fun _ hx => (by cases hx), fun _ hx => (by cases hx), fun _ hx => (by cases hx),
        fun _ => rfl⟩)
    have ag5 : Agree ∅ h4 (h4.alloc (.multi none 0 none none)) :=
      Agree.alloc (fun _ _ _ => rfl) (le_refl _) _
    have n5 : NoFail h4 (h4.alloc (.multi none 0 none none)) := NoFail.alloc hff4
    rw [hn4] at hfh
    generalize h4.alloc (.multi none 0 none none) = h5 at *
    have hmD2 : mu ∉ insert b D := by
      simp only [Finset.mem_insert, not_or]
      exact ⟨by omega, hmD⟩
    have hbd2 : ∀ g ∈ geoms, ∀ l, h4.cells g = some (.geoms l) → ∀ p ∈ l, ∀ x ∈ p, r1 x < bd := by
      intro g hg l hl p' hp' x hx
      have hgp : g ∈ (Cell.multi geoms n ix ixg).ptrs := by
        simp only [Cell.ptrs, Multiset.mem_add, mem_pm]; exact Or.inl hg
      obtain ⟨hgD, cg, hcg⟩ := hi.child hmD hcm hgp
      rw [ag4 g (hi.lt hcg) (by simp)] at hl
      have hxp : x ∈ (Cell.geoms l).ptrs :=
        mem_pms.2 (by rw [← show p' = some x from hx]; exact hp')
      obtain ⟨_, cx, hcx⟩ := hi.child hgD hl hxp
      rw [hf.rank x (hi.lt hcx)]
      have q1 := hi.rank g _ hgD hl x hxp
      have q2 := hi.rank mu _ hmD hcm g hgp
      have q3 := hi.rank a _ haD hc mu hmuptr
      omega
    apply wp_bind
    refine wp_mono (copyMulti_ok hcopy i4' hmD2 hcs4 hbd2 hfh ag5 n5) ?_
    rintro ok h6 ⟨r6, c6, hf6, hk6, hok, hno⟩
    obtain ⟨r7, i7, e7⟩ := hf6.close
    have hcb6 : h6.cells b = some (.geom 1 ty fl (some mu2) none none p z m) := by
      rw [hf6.step.keep b (by simp)]; exact hcb4
    have hs3 := s4.le
    refine wp_pure ⟨r7, ?_, ?_, ?_⟩
    · refine ⟨hf.nmem, hf.ge, hcb6, i7.congr (by
        simp only [Cell.ptrs, pm_some, pm_none]; abel), fun j hj => ?_,
        s4.trans (hf6.step.mono (subset_insert' b D)), rfl, fun _ hx => (by cases hx),
        fun _ hx => (by cases hx), ?_, ?_, ?_, ?_⟩
      · rw [e7 j (by omega)]; exact hf.rank j hj
      · intro e; rw [e] at hty; simp [isMulti] at hty
      · intro e; rw [e] at hty; simp [isMulti] at hty
      · intro e; rw [e] at hty; simp [isMulti] at hty
      · intro _ y hy; cases hy; exact ⟨_, hf6.cell, hk6⟩
    · intro e
      obtain ⟨ag6, n6, tr6⟩ := hok e
      refine ⟨ag4.trans ag6 s4.le (fun _ _ h => h), hn4'.trans n6 s4.fails, ?_⟩
      intro hpl k
      rw [tr6 ((ag4.mono (by simp)).plain hi (fun y hy => by cases hy; exact ⟨hmD, _, hcm⟩) hpl) k]
      exact (ag4.mono (by simp)).tree hi k (some mu)
        (fun y hy => by cases hy; exact ⟨hmD, _, hcm⟩)
    · intro e hso
      refine not_noFail (hno e ?_) s4.le s4.fails (le_refl _)
      exact (ag4.mono (by simp)).solid hi
        (fun y hy => by cases hy; exact ⟨hmD, _, hcm⟩) (hso.child hc (by simp [Cell.kids]))

/-- A line or polygon, copied into the geometry under construction. -/
theorem copySimple_ok {copy : Ptr → M Ptr} {r r1 : Addr → Nat} {D : Finset Addr}
    {E : Multiset Addr} {h h1 : Heap} {a b : Addr} {rc : Int} {ty : GType} {fl : Flags}
    {ch co er : Ptr} {p : Pt} {z m : F64} (hi : Inv r h D E) (haD : a ∉ D)
    (hc : h.cells a = some (.geom rc ty fl ch co er p z m))
    (hf : Half r r1 D E h b (.geom 1 ty fl none none none p z m) h1)
    (ag : Agree ∅ h h1) (nf : NoFail h h1) (hs : ty = .linestring ∨ ty = .polygon)
    (hcp : wp (copy ch) (CopyPost r1 (insert b D) E h1 ch) h1) :
    wp (do
      let q ← copy ch
      store b (.geom 1 ty fl q none none p z m)
      pure (q, q.isSome)) (ChildPost r D E h a b ty fl p z m ch) h1 := by
  obtain ⟨t1, t2, t3, t4, t5, t6⟩ := hi.typed a _ haD hc
  have hch : ∀ x ∈ ch, x ∉ D ∧ ∃ c, h.cells x = some c := fun x hx =>
    hi.child haD hc (by simp only [Cell.ptrs, Multiset.mem_add, mem_pm]; exact Or.inl hx)
  apply wp_bind
  refine wp_mono hcp ?_
  intro q h2 cp
  obtain ⟨r2, i2, e2⟩ := cp.made.inv
  have hcb2 : h2.cells b = some (.geom 1 ty fl none none none p z m) := by
    rw [cp.made.step.keep b (by simp)]; exact hf.cell
  apply wp_bind
  apply wp_store hcb2
  have hk : ∀ y ∈ q, ∃ x ∈ ch, ∀ k, Is h x k → Is h2 y k := by
    intro y hy
    cases hxe : ch with
    | none => have := cp.nonnull hxe; rw [this] at hy; cases hy
    | some x =>
      obtain ⟨_, c, hcx⟩ := hch x hxe
      exact ⟨x, rfl, fun k hk => cp.kind x hxe y hy k (ag.is (hi.lt hcx) (by simp) hk)⟩
  have hf2 := hf.put (c' := .geom 1 ty fl q none none p z m) (i2.congr (by
      simp only [Cell.ptrs, pm_none]; abel)) e2 cp.made.step rfl
    ⟨fun _ hx => (by cases hx), fun _ hx => (by cases hx),
      fun e => (by rcases hs with e' | e' <;> rw [e] at e' <;> cases e'),
      fun e y hy => (by obtain ⟨x, hx, hk⟩ := hk y hy; exact hk _ (t4 e x hx)),
      fun e y hy => (by obtain ⟨x, hx, hk⟩ := hk y hy; exact (t5 e x hx).map hk),
      fun e => (by rcases hs with e' | e' <;> rw [e'] at e <;> simp [isMulti] at e)⟩
  have agx : Agree (insert b D) h2 (h2.set b (some (.geom 1 ty fl q none none p z m))) :=
    Agree.set (fun _ _ _ => rfl) (Or.inl (by simp))
  refine wp_pure ⟨r2, hf2, ?_, ?_⟩
  · intro e
    have hqn : q ≠ none := by rintro rfl; cases e
    refine ⟨(ag.trans (cp.old hqn) hf.step.le (fun _ _ h => h)).set (Or.inr hf.ge),
      nf.trans (cp.made.nofail hqn) hf.step.fails, ?_⟩
    exact (cp.cp hqn hi hch (ag.mono (by simp))).mono i2 (fun y hy => i2.held
      (Multiset.mem_add.2 (Or.inl (by simpa using hy)))) agx
  · intro e hso
    have hqn : q = none := by cases q <;> simp_all
    rcases cp.null hqn ((ag.mono (by simp)).solid hi hch (hso.child hc (by simp [Cell.kids])))
      with e | e
    · exact absurd e (hso a (.root rfl) _ hc hs)
    · exact not_noFail e hf.step.le hf.step.fails (le_refl _)

theorem copyChild_ok {copy : Ptr → M Ptr} {bd : Nat} (hcopy : CopyOk bd copy)
    {r r1 : Addr → Nat} {D : Finset Addr} {E : Multiset Addr} {h h1 : Heap} {a b : Addr} {rc : Int}
    {ty : GType} {fl : Flags} {ch co er : Ptr} {p : Pt} {z m : F64}
    (hi : Inv r h D E) (haD : a ∉ D) (hc : h.cells a = some (.geom rc ty fl ch co er p z m))
    (hbd : r a ≤ bd) (hf : Half r r1 D E h b (.geom 1 ty fl none none none p z m) h1)
    (ag : Agree ∅ h h1) (nf : NoFail h h1) :
    wp (copyChild copy ty fl p z m ch b) (ChildPost r D E h a b ty fl p z m ch) h1 := by
  obtain ⟨t1, t2, t3, t4, t5, t6⟩ := hi.typed a _ haD hc
  have hge := hf.ge
  have hch : ∀ x ∈ ch, x ∉ insert b D ∧ ∀ k, Is h x k → Is h1 x k := fun x hx => by
    obtain ⟨hxD, c, hcx⟩ := hi.child haD hc (i := x) (by
      simp only [Cell.ptrs, Multiset.mem_add, mem_pm]; exact Or.inl hx)
    have := hi.lt hcx
    refine ⟨?_, fun k hk => ag.is this (by simp) hk⟩
    simp only [Finset.mem_insert, not_or]
    exact ⟨by omega, hxD⟩
  have hi1 : Inv r1 h1 (insert b D) E := hf.inv.congr (by simp [Cell.ptrs])
  unfold copyChild
  cases ty with
  | point =>
    dsimp only
    refine wp_pure ⟨r1, hf, fun _ => ⟨ag, nf, ?_⟩, fun e => (by cases e)⟩
    rw [(t3 rfl).1]; exact Cp.null
  | linestring =>
    exact copySimple_ok hi haD hc hf ag nf (Or.inl rfl) (ringCopy_ok hi1 (fun x hx =>
      ⟨(hch x hx).1, Or.inr ((hch x hx).2 _ (t4 rfl x hx))⟩))
  | polygon =>
    exact copySimple_ok hi haD hc hf ag nf (Or.inr rfl) (polyCopy_ok hi1 (fun x hx =>
      ⟨(hch x hx).1, (t5 rfl x hx).mono ((hch x hx).2)⟩))
  | _ => exact copyChildMulti_ok hcopy rfl hi haD hc hbd hf ag nf

theorem geomCopyGeom_ok {copy : Ptr → M Ptr} {bd : Nat} (hcopy : CopyOk bd copy)
    {r : Addr → Nat} {D : Finset Addr} {E : Multiset Addr} {h : Heap} {a : Addr}
    (hi : Inv r h D E) (haD : a ∉ D) (hk : Is h a .geom) (hbd : r a ≤ bd) :
    wp (geomCopyGeom copy a) (CopyPost r D E h (some a)) h := by
  obtain ⟨rc, ty, fl, ch, co, er, p, z, m, hc⟩ := hk.geom
  unfold geomCopyGeom
  apply wp_bind
  apply wp_load hc
  dsimp only
  apply wp_bind
  apply wp_malloc
  · intro hff
    exact wp_pure (CopyPost.failed hi.skip (fun _ _ => rfl) Step.skip
      (fun _ => Or.inr (fail_skip hff)))
  intro hff
  dsimp only
  have hf := Half.new (c := .geom 1 ty fl none none none p z m) hi rfl rfl (fun _ =>
    ⟨fun _ hx => (by cases hx), fun _ hx => (by cases hx), fun _ => ⟨rfl, rfl⟩,
      fun _ _ hx => (by cases hx), fun _ _ hx => (by cases hx), fun _ _ hx => (by cases hx)⟩)
  have ag : Agree ∅ h (h.alloc (.geom 1 ty fl none none none p z m)) :=
    Agree.alloc (fun _ _ _ => rfl) (le_refl _) _
  have nf : NoFail h (h.alloc (.geom 1 ty fl none none none p z m)) := NoFail.alloc hff
  apply wp_bind
  refine wp_mono (copyChild_ok hcopy hi haD hc hbd hf ag nf) ?_
  rintro ⟨q, ok⟩ h2 ⟨r2, hf2, hok, hno⟩
  dsimp only at hf2 hok hno ⊢
  cases ok with
  | false =>
    simp only [Bool.not_false, if_true]
    exact copyFail_ok hf2 (hno rfl)
  | true =>
    simp only [Bool.not_true, Bool.false_eq_true, if_false]
    obtain ⟨ag2, n2, cp2⟩ := hok rfl
    exact copyTail_ok hi haD hc hf2 ag2 n2 cp2

theorem geomCopy_ok (n : Nat) : CopyOk n (geomCopy n) := by
    induction n with
    | zero =>
      intro r h D E p hi hk
      cases p with
      | none => exact wp_pure (CopyPost.nil hi)
      | some a => have := (hk a rfl).2.2; omega
    | succ n ih =>
      intro r h D E p hi hk
      cases p with
      | none => exact wp_pure (CopyPost.nil hi)
      | some a =>
        obtain ⟨haD, hg, hr⟩ := hk a rfl
        unfold geomCopy
        apply wp_bind
        rcases hg with hg | hg | hg | hg | hg
        · obtain ⟨rc, ix, st, pts, hc⟩ := hg.line
          apply wp_load hc
          exact ringCopy_ok hi (fun b hb => by cases hb; exact ⟨haD, Or.inr hg⟩)
        · obtain ⟨rc, ix, st, pts, hc⟩ := hg.ring
          apply wp_load hc
          exact ringCopy_ok hi (fun b hb => by cases hb; exact ⟨haD, Or.inl hg⟩)
        · obtain ⟨rc, p, hc⟩ := hg.bpoint
          apply wp_load hc
          dsimp only
          unfold bpointCopy
          apply wp_bind
          apply wp_load hc
          dsimp only
          apply wp_malloc
          · intro hff
            exact CopyPost.failed hi.skip (fun _ _ => rfl) Step.skip
              (fun _ => Or.inr (fail_skip hff))
          · intro hff
            have hf := Half.new (c := .bpoint 1 p) hi rfl rfl (fun _ => trivial)
            exact hf.post hc (Agree.alloc (fun _ _ _ => rfl) (le_refl _) _) (NoFail.alloc hff) rfl
              (fun _ _ => rfl)
        · obtain ⟨rc, e, k, hs, hc⟩ := hg.poly
          apply wp_load hc
          exact polyCopy_ok hi (fun b hb => by cases hb; exact ⟨haD, Or.inr hg⟩)
        · have hg' := hg
          obtain ⟨rc, ty, fl, ch, co, er, p, z, m, hc⟩ := hg.geom
          apply wp_load hc
          exact geomCopyGeom_ok ih hi haD hg' (by omega)

theorem tgGeomCopy_ok {r : Addr → Nat} {h : Heap} {D : Finset Addr} {E : Multiset Addr} {p : Ptr}
    (hi : Inv r h D E) (hk : ∀ a ∈ p, a ∉ D ∧ IsGeom h a) :
    wp (tgGeomCopy p) (fun q h' => ∃ r', CopyPost r' D E h p q h') h := by
  have hi' := hi.compress
  have : wp (geomCopy (h.next + 1) p) (CopyPost (compress r h.next) D E h p) h := by
    refine geomCopy_ok _ _ h D E p hi' (fun a ha => ⟨(hk a ha).1, (hk a ha).2, ?_⟩)
    obtain ⟨c, k, hc, _⟩ := isGeom_rc (hk a ha).2
    have := compress_lt (r := r) (hi.lt hc)
    omega
  obtain ⟨u, h', e, cp⟩ := this
  exact ⟨u, h', e, _, cp⟩

end Tg.Heap
