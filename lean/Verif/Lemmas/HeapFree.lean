import Verif.Lemmas.Heap
/-! Releasing references: `*_free` keep the counting invariant. -/
set_option linter.unusedSectionVars false
set_option linter.dupNamespace false
namespace Tg.Heap

/-- What a function may do to the heap it was given: add blocks, change counters, release. -/
structure Step (D : Finset Addr) (h h' : Heap) : Prop where
  le : h.next ≤ h'.next
  fails : h'.fails = h.fails
  keep : ∀ j ∈ D, h'.cells j = h.cells j
  old : ∀ j < h.next, ∀ c', h'.cells j = some c' → ∃ c, h.cells j = some c ∧ Same c' c

theorem Step.refl (D : Finset Addr) (h : Heap) : Step D h h :=
  ⟨le_refl _, rfl, fun _ _ => rfl, fun _ _ c hc => ⟨c, hc, Same.refl c⟩⟩

theorem Step.trans {D : Finset Addr} {h h' h'' : Heap} (s : Step D h h') (t : Step D h' h'') :
    Step D h h'' := by
  refine ⟨le_trans s.le t.le, t.fails.trans s.fails,
    fun j hj => (t.keep j hj).trans (s.keep j hj), fun j hj c hc => ?_⟩
  obtain ⟨c', hc', hs'⟩ := t.old j (lt_of_lt_of_le hj s.le) c hc
  obtain ⟨c'', hc'', hs''⟩ := s.old j hj c' hc'
  exact ⟨c'', hc'', hs'.trans hs''⟩

theorem Step.mono {D D' : Finset Addr} {h h' : Heap} (s : Step D h h') (hd : D' ⊆ D) :
    Step D' h h' := ⟨s.le, s.fails, fun j hj => s.keep j (hd hj), s.old⟩

theorem Step.is {D : Finset Addr} {h h' : Heap} (s : Step D h h') {i : Addr} {k : Kind}
    (hl : i < h.next) (ha : ∃ c, h'.cells i = some c) (hk : Is h i k) : Is h' i k := by
  obtain ⟨c', hc'⟩ := ha
  obtain ⟨c, hc, hs⟩ := s.old i hl c' hc'
  obtain ⟨d, hd, hdk⟩ := hk
  rw [hc] at hd; cases hd
  exact ⟨c', hc', by rw [hs.kind, hdk]⟩

theorem Step.setSame {D : Finset Addr} {h : Heap} {a : Addr} {c c' : Cell} (ha : a ∉ D)
    (hc : h.cells a = some c) (hs : Same c' c) : Step D h (h.set a (some c')) := by
  refine ⟨le_refl _, rfl, fun j hj => ?_, fun j _ d hd => ?_⟩
  · exact set_cells_ne _ _ (fun e => by subst e; contradiction)
  · by_cases hja : j = a
    · subst hja; simp at hd; subst hd; exact ⟨c, hc, hs⟩
    · rw [set_cells_ne _ _ hja] at hd; exact ⟨d, hd, Same.refl d⟩

theorem Step.drop {D : Finset Addr} {h : Heap} {a : Addr} (ha : a ∉ D) :
    Step D h (h.set a none) := by
  refine ⟨le_refl _, rfl, fun j hj => ?_, fun j _ d hd => ?_⟩
  · exact set_cells_ne _ _ (fun e => by subst e; contradiction)
  · by_cases hja : j = a
    · subst hja; simp at hd
    · rw [set_cells_ne _ _ hja] at hd; exact ⟨d, hd, Same.refl d⟩

/-- Writing a block that is not of the old heap. -/
theorem Step.put {D : Finset Addr} {h h' : Heap} (s : Step D h h') {a : Addr}
    {c : Option Cell} (ha : a ∉ D) (hl : h.next ≤ a) : Step D h (h'.set a c) := by
  refine ⟨s.le, s.fails, fun j hj => ?_, fun j hj d hd => ?_⟩
  · rw [set_cells_ne _ _ (fun e => by subst e; contradiction)]; exact s.keep j hj
  · rw [set_cells_ne _ _ (fun e => by omega)] at hd; exact s.old j hj d hd

theorem Step.alloc {D : Finset Addr} {h : Heap} (hn : h.next ∉ D) (c : Cell) :
    Step D h (h.alloc c) := by
  refine ⟨by simp, rfl, fun j hj => ?_, fun j hj d hd => ?_⟩
  · exact alloc_cells_ne _ _ (fun e => by subst e; contradiction)
  · rw [alloc_cells_ne _ _ (by omega)] at hd; exact ⟨d, hd, Same.refl d⟩

theorem Step.skip {D : Finset Addr} {h : Heap} : Step D h h.skip :=
  ⟨by simp, rfl, fun _ _ => rfl, fun _ _ c hc => ⟨c, hc, Same.refl c⟩⟩

/-- A step that allocates nothing. -/
structure Frees (D : Finset Addr) (h h' : Heap) : Prop extends Step D h h' where
  next : h'.next = h.next

theorem Frees.refl (D : Finset Addr) (h : Heap) : Frees D h h := ⟨Step.refl D h, rfl⟩
theorem Frees.trans {D : Finset Addr} {h h' h'' : Heap} (s : Frees D h h') (t : Frees D h' h'') :
    Frees D h h'' := ⟨s.toStep.trans t.toStep, t.next.trans s.next⟩
theorem Frees.mono {D D' : Finset Addr} {h h' : Heap} (s : Frees D h h') (hd : D' ⊆ D) :
    Frees D' h h' := ⟨s.toStep.mono hd, s.next⟩
theorem Frees.setSame {D : Finset Addr} {h : Heap} {a : Addr} {c c' : Cell} (ha : a ∉ D)
    (hc : h.cells a = some c) (hs : Same c' c) : Frees D h (h.set a (some c')) :=
  ⟨Step.setSame ha hc hs, rfl⟩
theorem Frees.drop {D : Finset Addr} {h : Heap} {a : Addr} (ha : a ∉ D) :
    Frees D h (h.set a none) := ⟨Step.drop ha, rfl⟩

/-- After a function that releases references: the rest still counts. -/
def Freed (r : Addr → Nat) (D : Finset Addr) (E : Multiset Addr) (h : Heap) :
    Unit → Heap → Prop := fun _ h' => Inv r h' D E ∧ Frees D h h'

theorem Frees.isE {r : Addr → Nat} {D : Finset Addr} {E : Multiset Addr} {h h' : Heap}
    (s : Frees D h h') (hi : Inv r h' D E) {i : Addr} {k : Kind} (hm : i ∈ E) (hk : Is h i k) :
    Is h' i k := by
  have hl : i < h.next := by
    obtain ⟨c, hc⟩ := (hi.held hm).2
    rw [← s.next]; exact hi.lt hc
  exact s.is hl (hi.held hm).2 hk

theorem Frees.isGeomE {r : Addr → Nat} {D : Finset Addr} {E : Multiset Addr} {h h' : Heap}
    (s : Frees D h h') (hi : Inv r h' D E) {i : Addr} (hm : i ∈ E) (hk : IsGeom h i) :
    IsGeom h' i := by
  rcases hk with hk | hk | hk | hk | hk
  · exact Or.inl (s.isE hi hm hk)
  · exact Or.inr (Or.inl (s.isE hi hm hk))
  · exact Or.inr (Or.inr (Or.inl (s.isE hi hm hk)))
  · exact Or.inr (Or.inr (Or.inr (Or.inl (s.isE hi hm hk))))
  · exact Or.inr (Or.inr (Or.inr (Or.inr (s.isE hi hm hk))))

theorem rcRelease_ok {r : Addr → Nat} {h : Heap} {D : Finset Addr} {E : Multiset Addr}
    {a : Addr} {c : Cell} {k : Int} (hi : Inv r h D ({a} + E)) (hc : h.cells a = some c)
    (hk : c.rc = some k) :
    wp (rcRelease a) (fun b h' => (b = false ∧ Inv r h' D E ∧ Frees D h h') ∨
      (b = true ∧ Inv r h' (insert a D) (c.ptrs + E) ∧ h'.cells a = some (c.withRc 0) ∧
        Frees D h h' ∧ c.Typed h' ∧ (∀ i ∈ c.ptrs, r i < r a) ∧ a ∉ D)) h := by
  have ha := (hi.held (a := a) (by simp)).1
  unfold rcRelease
  apply wp_bind
  apply wp_load hc
  rw [hk]
  apply wp_bind
  apply wp_store hc
  apply wp_pure
  have hs := same_withRc c (k - 1)
  by_cases h1 : k = 1
  · right
    subst h1
    refine ⟨rfl, hi.detach hc (want_of_rc hk) hs, by simp, Frees.setSame ha hc hs, ?_,
      hi.rank a c ha hc, ha⟩
    exact (hi.typed a c ha hc).mono (fun i _ k hk => is_set_same hc hs hk)
  · left
    exact ⟨by simp [h1], hi.dec hc hk h1, Frees.setSame ha hc hs⟩

theorem Is.block {h : Heap} {a : Addr} (hk : Is h a .block) :
    ∃ i d, h.cells a = some (.block i d) := by
  obtain ⟨c, hc, hk⟩ := hk
  cases c with
  | series _ cl => cases cl <;> simp [Cell.kind] at hk
  | block i d => exact ⟨i, d, hc⟩
  | _ => simp [Cell.kind] at hk

theorem Is.series {h : Heap} {a : Addr} (hk : Is h a .ring ∨ Is h a .line) :
    ∃ rc cl ix st pts, h.cells a = some (.series rc cl ix st pts) := by
  rcases hk with ⟨c, hc, hk⟩ | ⟨c, hc, hk⟩ <;>
  · cases c with
    | series rc cl ix st pts => exact ⟨rc, cl, ix, st, pts, hc⟩
    | _ => simp [Cell.kind] at hk

theorem Is.ring {h : Heap} {a : Addr} (hk : Is h a .ring) :
    ∃ rc ix st pts, h.cells a = some (.series rc true ix st pts) := by
  obtain ⟨c, hc, hk⟩ := hk
  cases c with
  | series rc cl ix st pts =>
    cases cl
    · simp [Cell.kind] at hk
    · exact ⟨rc, ix, st, pts, hc⟩
  | _ => simp [Cell.kind] at hk

theorem Is.line {h : Heap} {a : Addr} (hk : Is h a .line) :
    ∃ rc ix st pts, h.cells a = some (.series rc false ix st pts) := by
  obtain ⟨c, hc, hk⟩ := hk
  cases c with
  | series rc cl ix st pts =>
    cases cl
    · exact ⟨rc, ix, st, pts, hc⟩
    · simp [Cell.kind] at hk
  | _ => simp [Cell.kind] at hk

theorem Is.poly {h : Heap} {a : Addr} (hk : Is h a .poly) :
    ∃ rc e n hs, h.cells a = some (.poly rc e n hs) := by
  obtain ⟨c, hc, hk⟩ := hk
  cases c with
  | series _ cl => cases cl <;> simp [Cell.kind] at hk
  | poly rc e n hs => exact ⟨rc, e, n, hs, hc⟩
  | _ => simp [Cell.kind] at hk

theorem Is.geom {h : Heap} {a : Addr} (hk : Is h a .geom) :
    ∃ rc ty fl ch co er p z m, h.cells a = some (.geom rc ty fl ch co er p z m) := by
  obtain ⟨c, hc, hk⟩ := hk
  cases c with
  | series _ cl => cases cl <;> simp [Cell.kind] at hk
  | geom rc ty fl ch co er p z m => exact ⟨rc, ty, fl, ch, co, er, p, z, m, hc⟩
  | _ => simp [Cell.kind] at hk

theorem Is.bpoint {h : Heap} {a : Addr} (hk : Is h a .bpoint) :
    ∃ rc p, h.cells a = some (.bpoint rc p) := by
  obtain ⟨c, hc, hk⟩ := hk
  cases c with
  | series _ cl => cases cl <;> simp [Cell.kind] at hk
  | bpoint rc p => exact ⟨rc, p, hc⟩
  | _ => simp [Cell.kind] at hk

theorem Is.multi {h : Heap} {a : Addr} (hk : Is h a .multi) :
    ∃ g n ix ixg, h.cells a = some (.multi g n ix ixg) := by
  obtain ⟨c, hc, hk⟩ := hk
  cases c with
  | series _ cl => cases cl <;> simp [Cell.kind] at hk
  | multi g n ix ixg => exact ⟨g, n, ix, ixg, hc⟩
  | _ => simp [Cell.kind] at hk

theorem Is.rings {h : Heap} {a : Addr} {n : Nat} (hk : Is h a (.rings n)) :
    ∃ l, h.cells a = some (.rings l) ∧ l.length = n := by
  obtain ⟨c, hc, hk⟩ := hk
  cases c with
  | series _ cl => cases cl <;> simp [Cell.kind] at hk
  | rings l => exact ⟨l, hc, by simpa [Cell.kind] using hk⟩
  | _ => simp [Cell.kind] at hk

theorem Is.geoms {h : Heap} {a : Addr} {n : Nat} (hk : Is h a (.geoms n)) :
    ∃ l, h.cells a = some (.geoms l) ∧ l.length = n := by
  obtain ⟨c, hc, hk⟩ := hk
  cases c with
  | series _ cl => cases cl <;> simp [Cell.kind] at hk
  | geoms l => exact ⟨l, hc, by simpa [Cell.kind] using hk⟩
  | _ => simp [Cell.kind] at hk

/-- `if (p) tg_free(p)` for a block that one pointer owns. -/
theorem releaseOpt_ok {r : Addr → Nat} {h : Heap} {D : Finset Addr} {E : Multiset Addr}
    {p : Ptr} (hi : Inv r h D (pm p + E)) (hb : ∀ s ∈ p, Is h s .block) :
    wp (releaseOpt p) (Freed r D E h) h := by
  cases p with
  | none => exact wp_pure ⟨hi.congr (by simp), Frees.refl _ _⟩
  | some s =>
    obtain ⟨i, d, hc⟩ := (hb s rfl).block
    have hs := (hi.held (a := s) (by simp)).1
    refine wp_release hc ⟨?_, Frees.drop hs⟩
    have := hi.detach hc rfl (Same.refl _)
    rw [set_self hc] at this
    exact (this.congr (by simp [Cell.ptrs])).drop hs

/-- Releasing a block that is out of the count. -/
theorem drop_ok {r : Addr → Nat} {h : Heap} {D : Finset Addr} {E : Multiset Addr} {a : Addr}
    {c : Cell} (hi : Inv r h (insert a D) E) (ha : a ∉ D) (hc : h.cells a = some c) :
    wp (release a) (Freed r D E h) h :=
  wp_release hc ⟨hi.drop ha, Frees.drop ha⟩

theorem subset_insert' (a : Addr) (D : Finset Addr) : D ⊆ insert a D :=
  Finset.subset_insert a D

theorem ringDrop_ok {r : Addr → Nat} {h : Heap} {D : Finset Addr} {E : Multiset Addr} {a : Addr}
    {rc : Int} {cl : Bool} {ix st : Ptr} {pts : List Pt}
    (hc : h.cells a = some (.series rc cl ix st pts))
    (hi : Inv r h (insert a D) (pm st + E)) (ha : a ∉ D) (ht : ∀ s ∈ st, Is h s .block) :
    wp (ringDrop a) (Freed r D E h) h := by
  unfold ringDrop
  apply wp_bind
  apply wp_load hc
  dsimp only
  apply wp_bind
  refine wp_mono (releaseOpt_ok hi ht) ?_
  rintro _ h1 ⟨hi1, f1⟩
  have hc1 : h1.cells a = some (.series rc cl ix st pts) := by
    rw [f1.keep a (by simp)]; exact hc
  refine wp_mono (drop_ok hi1 ha hc1) ?_
  rintro _ h2 ⟨hi2, f2⟩
  exact ⟨hi2, (f1.mono (subset_insert' a D)).trans f2⟩

theorem ringFree_ok {r : Addr → Nat} {h : Heap} {D : Finset Addr} {E : Multiset Addr} {p : Ptr}
    (hi : Inv r h D (pm p + E)) (hk : ∀ a ∈ p, Is h a .ring ∨ Is h a .line) :
    wp (ringFree p) (Freed r D E h) h := by
  cases p with
  | none => exact wp_pure ⟨hi.congr (by simp), Frees.refl _ _⟩
  | some a =>
    obtain ⟨rc, cl, ix, st, pts, hc⟩ := Is.series (hk a rfl)
    unfold ringFree
    apply wp_bind
    refine wp_mono (rcRelease_ok hi hc rfl) ?_
    rintro b h1 (⟨rfl, hi1, f1⟩ | ⟨rfl, hi1, hc1, f1, ht1, -, ha⟩)
    · exact wp_pure ⟨hi1, f1⟩
    · simp only [↓reduceIte]
      refine wp_mono (ringDrop_ok (by simpa [Cell.withRc] using hc1) hi1 ha ht1) ?_
      rintro _ h2 ⟨hi2, f2⟩
      exact ⟨hi2, f1.trans f2⟩

theorem freeHoles_ok {r : Addr → Nat} {D : Finset Addr} {E : Multiset Addr} {hp : Addr}
    {l : List Ptr} (hd : hp ∈ D) : ∀ (n i : Nat) (h : Heap), h.cells hp = some (.rings l) →
    i + n = l.length → Inv r h D (pms (l.drop i) + E) →
    (∀ p ∈ l, ∀ a ∈ p, a ∈ pms (l.drop i) → Is h a .ring) →
    wp (freeHoles hp i n) (Freed r D E h) h
  | 0, i, h, hc, hn, hi, hk => by
    refine wp_pure ⟨hi.congr ?_, Frees.refl _ _⟩
    rw [List.drop_of_length_le (by omega)]; simp
  | n + 1, i, h, hc, hn, hi, hk => by
    have hil : i < l.length := by omega
    have hdr : l.drop i = l[i] :: l.drop (i + 1) := List.drop_eq_getElem_cons hil
    unfold freeHoles
    apply wp_bind
    apply wp_load hc
    dsimp only
    rw [List.getElem?_eq_getElem hil]
    dsimp only
    apply wp_bind
    have hi' : Inv r h D (pm l[i] + (pms (l.drop (i + 1)) + E)) :=
      hi.congr (by rw [hdr, pms_cons, add_assoc])
    refine wp_mono (ringFree_ok hi' ?_) ?_
    · intro a ha
      left
      refine hk l[i] (List.getElem_mem hil) a ha ?_
      rw [hdr, pms_cons]
      exact Multiset.mem_add.2 (Or.inl (by simpa using ha))
    · rintro _ h1 ⟨hi1, f1⟩
      have hc1 : h1.cells hp = some (.rings l) := by rw [f1.keep hp hd]; exact hc
      refine wp_mono (freeHoles_ok hd n (i + 1) h1 hc1 (by omega) hi1 ?_) ?_
      · intro p hpl a ha hm
        refine f1.isE hi1 (Multiset.mem_add.2 (Or.inl hm)) (hk p hpl a ha ?_)
        rw [hdr, pms_cons]
        exact Multiset.mem_add.2 (Or.inr hm)
      · rintro _ h2 ⟨hi2, f2⟩
        exact ⟨hi2, f1.trans f2⟩

theorem dropHoles_ok {r : Addr → Nat} {h : Heap} {D : Finset Addr} {E : Multiset Addr}
    {hs : Ptr} {n : Nat} (hi : Inv r h D (pm hs + E)) (ht : ∀ s ∈ hs, Is h s (.rings n)) :
    wp (dropHoles hs n) (Freed r D E h) h := by
  cases hs with
  | none => exact wp_pure ⟨hi.congr (by simp), Frees.refl _ _⟩
  | some hp =>
    obtain ⟨hpD, _⟩ := hi.held (a := hp) (by simp)
    obtain ⟨l, hcl, hln⟩ := (ht hp rfl).rings
    have htl : Cell.Typed h (.rings l) := hi.typed hp _ hpD hcl
    have hi1' := hi.detach hcl rfl (Same.refl _)
    rw [set_self hcl] at hi1'
    unfold dropHoles
    apply wp_bind
    refine wp_mono (freeHoles_ok (E := E) (D := insert hp D) (by simp) n 0 h hcl
      (by omega) hi1' (fun p hp' a' ha' _ => htl p hp' a' ha')) ?_
    rintro _ h2 ⟨hi2, f2⟩
    have hcl2 : h2.cells hp = some (.rings l) := by rw [f2.keep hp (by simp)]; exact hcl
    refine wp_mono (drop_ok hi2 hpD hcl2) ?_
    rintro _ h3 ⟨hi3, f3⟩
    exact ⟨hi3, (f2.mono (subset_insert' hp D)).trans f3⟩

theorem polyDrop_ok {r : Addr → Nat} {h : Heap} {D : Finset Addr} {E : Multiset Addr} {a : Addr}
    {rc : Int} {e hs : Ptr} {n : Nat} (hc : h.cells a = some (.poly rc e n hs))
    (hi : Inv r h (insert a D) (pm e + (pm hs + E))) (ha : a ∉ D)
    (ht1 : ∀ s ∈ e, Is h s .ring) (ht2 : ∀ s ∈ hs, Is h s (.rings n)) :
    wp (polyDrop a) (Freed r D E h) h := by
  unfold polyDrop
  apply wp_bind
  apply wp_load hc
  dsimp only
  apply wp_bind
  refine wp_mono (ringFree_ok hi (fun s hs => Or.inl (ht1 s hs))) ?_
  rintro _ h1 ⟨hi1, f1⟩
  apply wp_bind
  refine wp_mono (dropHoles_ok (n := n) hi1 ?_) ?_
  · intro s hs
    exact f1.isE hi1 (by simp; left; simpa using hs) (ht2 s hs)
  rintro _ h2 ⟨hi2, f2⟩
  have hc2 : h2.cells a = some (.poly rc e n hs) := by
    rw [f2.keep a (by simp), f1.keep a (by simp)]; exact hc
  refine wp_mono (drop_ok hi2 ha hc2) ?_
  rintro _ h3 ⟨hi3, f3⟩
  exact ⟨hi3, ((f1.trans f2).mono (subset_insert' a D)).trans f3⟩

theorem polyFree_ok {r : Addr → Nat} {h : Heap} {D : Finset Addr} {E : Multiset Addr} {p : Ptr}
    (hi : Inv r h D (pm p + E)) (hk : ∀ a ∈ p, IsPoly h a) :
    wp (polyFree p) (Freed r D E h) h := by
  cases p with
  | none => exact wp_pure ⟨hi.congr (by simp), Frees.refl _ _⟩
  | some a =>
    unfold polyFree
    apply wp_bind
    rcases hk a rfl with hk' | hk'
    · obtain ⟨rc, ix, st, pts, hc⟩ := hk'.ring
      apply wp_load hc
      exact ringFree_ok hi (fun b hb => Or.inl (by cases hb; exact hk'))
    · obtain ⟨rc, e, n, hs, hc⟩ := hk'.poly
      apply wp_load hc
      dsimp only
      apply wp_bind
      refine wp_mono (rcRelease_ok hi hc rfl) ?_
      rintro b h1 (⟨rfl, hi1, f1⟩ | ⟨rfl, hi1, hc1, f1, ht1, -, ha⟩)
      · exact wp_pure ⟨hi1, f1⟩
      · simp only [↓reduceIte]
        refine wp_mono (polyDrop_ok (by simpa [Cell.withRc] using hc1)
          (E := E) (hi1.congr (by simp [Cell.ptrs, add_assoc])) ha ht1.1 ht1.2.1) ?_
        rintro _ h2 ⟨hi2, f2⟩
        exact ⟨hi2, f1.trans f2⟩

theorem bpointFree_ok {r : Addr → Nat} {h : Heap} {D : Finset Addr} {E : Multiset Addr} {a : Addr}
    (hi : Inv r h D ({a} + E)) (hk : Is h a .bpoint) :
    wp (bpointFree a) (Freed r D E h) h := by
  obtain ⟨rc, p, hc⟩ := hk.bpoint
  unfold bpointFree
  apply wp_bind
  refine wp_mono (rcRelease_ok hi hc rfl) ?_
  rintro b h1 (⟨rfl, hi1, f1⟩ | ⟨rfl, hi1, hc1, f1, -, -, ha⟩)
  · exact wp_pure ⟨hi1, f1⟩
  · simp only [↓reduceIte]
    refine wp_mono (drop_ok (E := E) (hi1.congr (by simp [Cell.ptrs])) ha hc1) ?_
    rintro _ h2 ⟨hi2, f2⟩
    exact ⟨hi2, f1.trans f2⟩

/-- `free` releases one reference to any geometry of rank below `n`. -/
def FreeOk (r : Addr → Nat) (n : Nat) (free : Ptr → M Unit) : Prop :=
  ∀ (h : Heap) (D : Finset Addr) (E : Multiset Addr) (p : Ptr), Inv r h D (pm p + E) →
    (∀ a ∈ p, IsGeom h a ∧ r a < n) → wp (free p) (Freed r D E h) h

theorem freeGeoms_ok {r : Addr → Nat} {D : Finset Addr} {E : Multiset Addr} {g : Addr} {b : Nat}
    {free : Ptr → M Unit} (hf : FreeOk r b free)
    {l : List Ptr} (hd : g ∈ D) (hr : ∀ p ∈ l, ∀ a ∈ p, r a < b) :
    ∀ (n i : Nat) (h : Heap), h.cells g = some (.geoms l) →
    i + n = l.length → Inv r h D (pms (l.drop i) + E) →
    (∀ p ∈ l, ∀ a ∈ p, a ∈ pms (l.drop i) → IsGeom h a) →
    wp (freeGeoms free g i n) (Freed r D E h) h
  | 0, i, h, hc, hn, hi, hk => by
    refine wp_pure ⟨hi.congr ?_, Frees.refl _ _⟩
    rw [List.drop_of_length_le (by omega)]; simp
  | n + 1, i, h, hc, hn, hi, hk => by
    have hil : i < l.length := by omega
    have hdr : l.drop i = l[i] :: l.drop (i + 1) := List.drop_eq_getElem_cons hil
    unfold freeGeoms
    apply wp_bind
    apply wp_load hc
    dsimp only
    rw [List.getElem?_eq_getElem hil]
    dsimp only
    apply wp_bind
    have hi' : Inv r h D (pm l[i] + (pms (l.drop (i + 1)) + E)) :=
      hi.congr (by rw [hdr, pms_cons, add_assoc])
    refine wp_mono (hf _ _ _ _ hi' ?_) ?_
    · intro a ha
      refine ⟨hk l[i] (List.getElem_mem hil) a ha ?_, hr l[i] (List.getElem_mem hil) a ha⟩
      rw [hdr, pms_cons]
      exact Multiset.mem_add.2 (Or.inl (by simpa using ha))
    · rintro _ h1 ⟨hi1, f1⟩
      have hc1 : h1.cells g = some (.geoms l) := by rw [f1.keep g hd]; exact hc
      refine wp_mono (freeGeoms_ok hf hd hr n (i + 1) h1 hc1 (by omega) hi1 ?_) ?_
      · intro p hpl a ha hm
        refine f1.isGeomE hi1 (Multiset.mem_add.2 (Or.inl hm)) (hk p hpl a ha ?_)
        rw [hdr, pms_cons]
        exact Multiset.mem_add.2 (Or.inr hm)
      · rintro _ h2 ⟨hi2, f2⟩
        exact ⟨hi2, f1.trans f2⟩

theorem multiDrop_ok {r : Addr → Nat} {h : Heap} {D : Finset Addr} {E : Multiset Addr} {b : Nat}
    {free : Ptr → M Unit} (hf : FreeOk r b free) {p : Ptr}
    (hi : Inv r h D (pm p + E)) (hk : ∀ a ∈ p, Is h a .multi ∧ r a ≤ b) :
    wp (multiDrop free p) (Freed r D E h) h := by
  cases p with
  | none => exact wp_pure ⟨hi.congr (by simp), Frees.refl _ _⟩
  | some m =>
    obtain ⟨hm, hrm⟩ := hk m rfl
    obtain ⟨g, n, ix, ixg, hc⟩ := hm.multi
    obtain ⟨hmD, _⟩ := hi.held (a := m) (by simp)
    have ht : Cell.Typed h (.multi g n ix ixg) := hi.typed m _ hmD hc
    have hrk := hi.rank m _ hmD hc
    have hi1 := hi.detach hc rfl (Same.refl _)
    rw [set_self hc] at hi1
    replace hi1 : Inv r h (insert m D) (pm g + (pm ix + (pm ixg + E))) :=
      hi1.congr (by simp [Cell.ptrs, add_assoc])
    unfold multiDrop
    apply wp_bind
    apply wp_load hc
    dsimp only
    -- the array of children
    have harr : wp (dropGeoms free g n) (Freed r (insert m D) (pm ix + (pm ixg + E)) h) h := by
      cases g with
      | none => exact wp_pure ⟨hi1.congr (by simp), Frees.refl _ _⟩
      | some g =>
        obtain ⟨hgD, _⟩ := hi1.held (a := g) (by simp)
        obtain ⟨l, hcl, hln⟩ := (ht.1 g rfl).geoms
        have htl : Cell.Typed h (.geoms l) := hi1.typed g _ hgD hcl
        have hrl := hi1.rank g _ hgD hcl
        have hrg : r g < r m := hrk g (by simp [Cell.ptrs])
        have hi1' := hi1.detach hcl rfl (Same.refl _)
        rw [set_self hcl] at hi1'
        unfold dropGeoms
        apply wp_bind
        refine wp_mono (freeGeoms_ok (E := pm ix + (pm ixg + E)) hf
          (D := insert g (insert m D)) (by simp) ?_ n 0 h hcl (by omega) ?_ ?_) ?_
        · intro p hp a ha
          have : r a < r g := hrl a (mem_pms.2 (by rw [← Option.mem_def.1 ha]; exact hp))
          omega
        · exact hi1'
        · intro p hp' a' ha' _
          exact htl p hp' a' ha'
        · rintro _ h2 ⟨hi2, f2⟩
          have hcl2 : h2.cells g = some (.geoms l) := by rw [f2.keep g (by simp)]; exact hcl
          refine wp_mono (drop_ok hi2 hgD hcl2) ?_
          rintro _ h3 ⟨hi3, f3⟩
          exact ⟨hi3, (f2.mono (subset_insert' g _)).trans f3⟩
    apply wp_bind
    refine wp_mono harr ?_
    rintro _ h2 ⟨hi2, f2⟩
    apply wp_bind
    refine wp_mono (releaseOpt_ok hi2 ?_) ?_
    · intro s hs
      exact f2.isE hi2 (by simp; left; simpa using hs) (ht.2.1 s hs)
    rintro _ h3 ⟨hi3, f3⟩
    apply wp_bind
    refine wp_mono (releaseOpt_ok hi3 ?_) ?_
    · intro s hs
      exact (f2.trans f3).isE hi3 (by simp; left; simpa using hs) (ht.2.2.1 s hs)
    rintro _ h4 ⟨hi4, f4⟩
    have hc4 : h4.cells m = some (.multi g n ix ixg) := by
      rw [f4.keep m (by simp), f3.keep m (by simp), f2.keep m (by simp)]; exact hc
    refine wp_mono (drop_ok hi4 hmD hc4) ?_
    rintro _ h5 ⟨hi5, f5⟩
    exact ⟨hi5, (((f2.trans f3).trans f4).mono (subset_insert' m D)).trans f5⟩

theorem childDrop_ok {r : Addr → Nat} {h : Heap} {D : Finset Addr} {E : Multiset Addr} {b : Nat}
    {free : Ptr → M Unit} (hf : FreeOk r b free) {ty : GType} {p : Ptr}
    (hi : Inv r h D (pm p + E)) (hr : ∀ a ∈ p, r a ≤ b)
    (h0 : ty = .point → p = none)
    (h1 : ty = .linestring → ∀ a ∈ p, Is h a .line)
    (h2 : ty = .polygon → ∀ a ∈ p, IsPoly h a)
    (h3 : isMulti ty = true → ∀ a ∈ p, Is h a .multi) :
    wp (childDrop free ty p) (Freed r D E h) h := by
  cases ty with
  | point =>
    rw [h0 rfl] at hi
    exact wp_pure ⟨hi.congr (by simp), Frees.refl _ _⟩
  | linestring => exact ringFree_ok hi (fun a ha => Or.inr (h1 rfl a ha))
  | polygon => exact polyFree_ok hi (h2 rfl)
  | multipoint => exact multiDrop_ok hf hi (fun a ha => ⟨h3 rfl a ha, hr a ha⟩)
  | multilinestring => exact multiDrop_ok hf hi (fun a ha => ⟨h3 rfl a ha, hr a ha⟩)
  | multipolygon => exact multiDrop_ok hf hi (fun a ha => ⟨h3 rfl a ha, hr a ha⟩)
  | collection => exact multiDrop_ok hf hi (fun a ha => ⟨h3 rfl a ha, hr a ha⟩)

theorem geomDrop_ok {r : Addr → Nat} {h : Heap} {D : Finset Addr} {E : Multiset Addr} {b : Nat}
    {free : Ptr → M Unit} (hf : FreeOk r b free) {a : Addr}
    {rc : Int} {ty : GType} {fl : Flags} {ch co er : Ptr} {p : Pt} {z m : F64}
    (hc : h.cells a = some (.geom rc ty fl ch co er p z m))
    (hi : Inv r h (insert a D) (pm ch + (pm co + (pm er + E)))) (ha : a ∉ D)
    (ht : Cell.Typed h (.geom rc ty fl ch co er p z m)) (hr : ∀ a ∈ ch, r a ≤ b) :
    wp (geomDrop free a) (Freed r D E h) h := by
  obtain ⟨t1, t2, t3, t4, t5, t6⟩ := ht
  unfold geomDrop
  apply wp_bind
  apply wp_load hc
  dsimp only
  apply wp_bind
  refine wp_mono (childDrop_ok hf hi hr (fun e => (t3 e).1) t4 t5 t6) ?_
  rintro _ h1 ⟨hi1, f1⟩
  apply wp_bind
  have hco : wp (dropCoords ty co)
      (Freed r (insert a D) (pm er + E) h1) h1 := by
    unfold dropCoords
    by_cases hty : ty = .point
    · rw [if_pos hty]
      have := (t3 hty).2
      rw [this] at hi1
      exact wp_pure ⟨hi1.congr (by simp), Frees.refl _ _⟩
    · rw [if_neg hty]
      refine releaseOpt_ok hi1 ?_
      intro s hs
      exact f1.isE hi1 (by simp; left; simpa using hs) (t1 s hs)
  refine wp_mono hco ?_
  rintro _ h2 ⟨hi2, f2⟩
  apply wp_bind
  refine wp_mono (releaseOpt_ok hi2 ?_) ?_
  · intro s hs
    exact (f1.trans f2).isE hi2 (by simp; left; simpa using hs) (t2 s hs)
  rintro _ h3 ⟨hi3, f3⟩
  have hc3 : h3.cells a = some (.geom rc ty fl ch co er p z m) := by
    rw [f3.keep a (by simp), f2.keep a (by simp), f1.keep a (by simp)]; exact hc
  refine wp_mono (drop_ok hi3 ha hc3) ?_
  rintro _ h4 ⟨hi4, f4⟩
  exact ⟨hi4, (((f1.trans f2).trans f3).mono (subset_insert' a D)).trans f4⟩

theorem geomFree_ok (r : Addr → Nat) : ∀ n, FreeOk r n (geomFree n)
  | n, h, D, E, none, hi, _ => by
    cases n <;> exact wp_pure ⟨hi.congr (by simp), Frees.refl _ _⟩
  | 0, h, D, E, some a, hi, hk => absurd (hk a rfl).2 (by omega)
  | n + 1, h, D, E, some a, hi, hk => by
    obtain ⟨hg, hr⟩ := hk a rfl
    unfold geomFree
    apply wp_bind
    rcases hg with hg | hg | hg | hg | hg
    · obtain ⟨rc, ix, st, pts, hc⟩ := hg.line
      apply wp_load hc
      exact ringFree_ok hi (fun b hb => Or.inr (by cases hb; exact hg))
    · obtain ⟨rc, ix, st, pts, hc⟩ := hg.ring
      apply wp_load hc
      exact ringFree_ok hi (fun b hb => Or.inl (by cases hb; exact hg))
    · obtain ⟨rc, p, hc⟩ := hg.bpoint
      apply wp_load hc
      exact bpointFree_ok hi hg
    · obtain ⟨rc, e, k, hs, hc⟩ := hg.poly
      apply wp_load hc
      exact polyFree_ok hi (fun b hb => Or.inr (by cases hb; exact hg))
    · obtain ⟨rc, ty, fl, ch, co, er, p, z, m, hc⟩ := hg.geom
      apply wp_load hc
      dsimp only
      apply wp_bind
      refine wp_mono (rcRelease_ok hi hc rfl) ?_
      rintro b h1 (⟨rfl, hi1, f1⟩ | ⟨rfl, hi1, hc1, f1, ht1, hr1, ha⟩)
      · exact wp_pure ⟨hi1, f1⟩
      · simp only [↓reduceIte]
        refine wp_mono (geomDrop_ok (rc := 0) (geomFree_ok r n) (by simpa [Cell.withRc] using hc1)
          (E := E) (hi1.congr (by simp [Cell.ptrs, add_assoc])) ha ht1 ?_) ?_
        · intro i hi'
          have := hr1 i (by simp [Cell.ptrs]; left; simpa using hi')
          omega
        · rintro _ h2 ⟨hi2, f2⟩
          exact ⟨hi2, f1.trans f2⟩

/-! ### The depth of the heap -/

/-- A rank that counts the blocks of smaller rank. -/
def compress (r : Addr → Nat) (n : Nat) (j : Addr) : Nat :=
  ((Finset.range n).filter (fun i => r i < r j)).card

theorem compress_lt {r : Addr → Nat} {n : Nat} {j : Addr} (hj : j < n) : compress r n j < n := by
  have : (Finset.range n).filter (fun i => r i < r j) ⊂ Finset.range n := by
    refine ⟨Finset.filter_subset _ _, fun hs => ?_⟩
    have := hs (show j ∈ Finset.range n by simpa using hj)
    simp at this
  simpa [compress] using Finset.card_lt_card this

theorem compress_mono {r : Addr → Nat} {n : Nat} {i j : Addr} (hi : i < n) (hr : r i < r j) :
    compress r n i < compress r n j := by
  apply Finset.card_lt_card
  refine ⟨fun x hx => ?_, fun hs => ?_⟩
  · simp only [Finset.mem_filter] at hx ⊢
    exact ⟨hx.1, by omega⟩
  · have := hs (show i ∈ (Finset.range n).filter (fun x => r x < r j) by simp [hi, hr])
    simp at this

theorem Inv.compress {r : Addr → Nat} {h : Heap} {D : Finset Addr} {E : Multiset Addr}
    (hi : Inv r h D E) : Inv (compress r h.next) h D E :=
  ⟨hi.fresh, hi.dom, hi.dead, hi.gone, hi.live, fun j c hj hc i him => by
    obtain ⟨c', hc'⟩ := (hi.child hj hc him).2
    exact compress_mono (hi.lt hc') (hi.rank j c hj hc i him), hi.typed⟩

/-- Ranks only matter for blocks that count: a rank that agrees with another may replace it. -/
theorem Inv.rank_of {r r' : Addr → Nat} {h h' : Heap} {D : Finset Addr} {E E' : Multiset Addr}
    (hi : Inv r h D E) (hi' : Inv r' h' D E') (s : Frees D h h') : Inv r h' D E' :=
  ⟨hi'.fresh, hi'.dom, hi'.dead, hi'.gone, hi'.live, fun j c' hj hc' i him => by
    obtain ⟨c, hc, hs⟩ := s.old j (by rw [← s.next]; exact hi'.lt hc') c' hc'
    exact hi.rank j c hj hc i (by rw [← hs.ptrs]; exact him), hi'.typed⟩

theorem tgGeomFree_ok {r : Addr → Nat} {h : Heap} {D : Finset Addr} {E : Multiset Addr} {p : Ptr}
    (hi : Inv r h D (pm p + E)) (hk : ∀ a ∈ p, IsGeom h a) :
    wp (tgGeomFree p) (Freed r D E h) h := by
  have hi' := hi.compress
  have : wp (geomFree (h.next + 1) p) (Freed (compress r h.next) D E h) h := by
    refine geomFree_ok _ _ h D E p hi' (fun a ha => ⟨hk a ha, ?_⟩)
    have hm : a ∈ pm p + E := Multiset.mem_add.2 (Or.inl (by simpa using ha))
    obtain ⟨c, hc⟩ := (hi.held hm).2
    have := compress_lt (r := r) (hi.lt hc)
    omega
  obtain ⟨u, h', e, hi2, f2⟩ := this
  exact ⟨u, h', e, hi.rank_of hi2 f2, f2⟩

/-- Why a counted block is alive: somebody outside, or a counted block, refers to it. -/
theorem Inv.why {r : Addr → Nat} {h : Heap} {D : Finset Addr} {E : Multiset Addr}
    (hi : Inv r h D E) {j : Addr} {c : Cell} (hj : j ∉ D) (hc : h.cells j = some c) :
    j ∈ E ∨ ∃ k d, k ∉ D ∧ h.cells k = some d ∧ j ∈ d.ptrs := by
  have := Multiset.count_pos.1 (hi.live j c hj hc).2
  rcases Multiset.mem_add.1 this with he | hr
  · exact Or.inl he
  · exact Or.inr (refs_of_mem hr)

/-- Induction from the referrers of a counted block to the block. -/
theorem Inv.top {r : Addr → Nat} {h : Heap} {D : Finset Addr} {E : Multiset Addr}
    (hi : Inv r h D E) {P : Addr → Prop} (he : ∀ j ∈ E, P j)
    (hs : ∀ k c, k ∉ D → h.cells k = some c → P k → ∀ j ∈ c.ptrs, P j) :
    ∀ j c, j ∉ D → h.cells j = some c → P j := by
  have hi' := hi.compress
  have main : ∀ n j c, j ∉ D → h.cells j = some c →
      h.next - Tg.Heap.compress r h.next j ≤ n → P j := by
    intro n
    induction n with
    | zero =>
      intro j c hj hc hn
      have := compress_lt (r := r) (hi.lt hc)
      omega
    | succ n ih =>
      intro j c hj hc hn
      rcases hi.why hj hc with hE | ⟨k, d, hk, hd, hm⟩
      · exact he j hE
      · have h1 := hi'.rank k d hk hd j hm
        have h2 := compress_lt (r := r) (hi.lt hd)
        exact hs k d hk hd (ih k d hk hd (by omega)) j hm
  exact fun j c hj hc => main _ j c hj hc (le_refl _)

/-- Blocks in use stay: a step that keeps the references held from outside keeps every counted
block, up to its counter. -/
theorem Inv.alive {r r' : Addr → Nat} {h h' : Heap} {D D' Ds : Finset Addr} {E E' : Multiset Addr}
    (hi : Inv r h D E) (hi' : Inv r' h' D' E') (s : Step Ds h h')
    (hE : ∀ i ∈ E, i ∈ E') (hD : ∀ i < h.next, i ∈ D' → i ∈ D) :
    ∀ j c, j ∉ D → h.cells j = some c → ∃ c', h'.cells j = some c' ∧ Same c' c := by
  have back : ∀ j c, h.cells j = some c → (∃ c', h'.cells j = some c') →
      ∃ c', h'.cells j = some c' ∧ Same c' c := by
    rintro j c hc ⟨c', hc'⟩
    obtain ⟨d, hd, hs⟩ := s.old j (hi.lt hc) c' hc'
    rw [hc] at hd; cases hd
    exact ⟨c', hc', hs⟩
  have := hi.top (P := fun j => ∃ c', h'.cells j = some c') (fun j hj => (hi'.held (hE j hj)).2)
    (fun k c hk hc hp j hm => by
      obtain ⟨c', hc', hs⟩ := back k c hc hp
      exact (hi'.child (fun hd => hk (hD k (hi.lt hc) hd)) hc' (by rw [hs.ptrs]; exact hm)).2)
  exact fun j c hj hc => back j c hc (this j c hj hc)

theorem Same.eq {c c' : Cell} (hs : Same c c') (hw : c.want = c'.want) : c = c' := by
  cases c <;> cases c' <;> simp_all [Same, Cell.withRc, Cell.want, Cell.rc]

/-- With the same references held from outside, the heap is the same. -/
theorem Inv.same {r r' : Addr → Nat} {h h' : Heap} {E : Multiset Addr}
    (hi : Inv r h ∅ E) (hi' : Inv r' h' ∅ E) (s : Step ∅ h h') : h'.cells = h.cells := by
  have hal := hi.alive hi' s (fun _ h => h) (fun _ _ h => h)
  have hold : ∀ j c, j ∉ (∅ : Finset Addr) → h'.cells j = some c → j < h.next := by
    refine hi'.top (P := fun j => j < h.next) (fun j hj => ?_) (fun k c _ hc hk j hm => ?_)
    · obtain ⟨c, hc⟩ := (hi.held hj).2
      exact hi.lt hc
    · obtain ⟨d, hd, hs⟩ := s.old k hk c hc
      obtain ⟨e, he⟩ := (hi.child (by simp) hd (by rw [← hs.ptrs]; exact hm)).2
      exact hi.lt he
  have hout : ∀ j, out h' ∅ j = out h ∅ j := by
    intro j
    unfold out
    simp only [Finset.notMem_empty, if_false]
    cases hc : h.cells j with
    | none =>
      cases hc' : h'.cells j with
      | none => rfl
      | some c' =>
        obtain ⟨d, hd, _⟩ := s.old j (hold j c' (by simp) hc') c' hc'
        rw [hc] at hd; cases hd
    | some c =>
      obtain ⟨c', hc', hs⟩ := hal j c (by simp) hc
      rw [hc']; simp [hs.ptrs]
  have hrefs : refs h' ∅ = refs h ∅ := by
    unfold refs
    rw [← Finset.sum_subset (s₁ := Finset.range h.next)]
    · exact Finset.sum_congr rfl (fun j _ => hout j)
    · intro x hx
      have := s.le
      simp at hx ⊢; omega
    · intro x _ hx
      rw [hout x]
      unfold out
      rw [hi.fresh x (by simpa using hx)]
      simp
  funext j
  cases hc : h.cells j with
  | none =>
    cases hc' : h'.cells j with
    | none => rfl
    | some c' =>
      obtain ⟨d, hd, _⟩ := s.old j (hold j c' (by simp) hc') c' hc'
      rw [hc] at hd; cases hd
  | some c =>
    obtain ⟨c', hc', hs⟩ := hal j c (by simp) hc
    rw [hc']
    have h1 := (hi.live j c (by simp) hc).1
    have h2 := (hi'.live j c' (by simp) hc').1
    rw [hrefs, ← h1] at h2
    rw [hs.eq h2]

end Tg.Heap
