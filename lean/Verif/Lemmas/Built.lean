import Verif.Lemmas.History
import Verif.Spec.Built
/-! The constructors build what they are given. -/
set_option linter.unusedSectionVars false
set_option linter.dupNamespace false
namespace Tg.Heap

/-- If `m` ends, then with `Q`. -/
def wlp {α : Type} (m : M α) (Q : α → Heap → Prop) (h : Heap) : Prop :=
  ∀ x h', m h = some (x, h') → Q x h'

theorem wlp_pure {α : Type} {a : α} {Q : α → Heap → Prop} {h : Heap} (hq : Q a h) :
    wlp (pure a : M α) Q h := by
  intro x h' e; cases e; exact hq

theorem wlp_fault {α : Type} {Q : α → Heap → Prop} {h : Heap} : wlp (fault : M α) Q h := by
  intro x h' e; cases e

theorem wlp_bind {α β : Type} {m : M α} {f : α → M β} {Q : β → Heap → Prop} {h : Heap}
    (hm : wlp m (fun a h' => wlp (f a) Q h') h) : wlp (m >>= f) Q h := by
  intro y h' e
  cases hmh : m h with
  | none => rw [bind_fault hmh] at e; cases e
  | some x => obtain ⟨a, h1⟩ := x; rw [bind_of hmh] at e; exact hm a h1 hmh y h' e

theorem wlp_mono {α : Type} {m : M α} {P Q : α → Heap → Prop} {h : Heap} (hm : wlp m P h)
    (hpq : ∀ x h', P x h' → Q x h') : wlp m Q h := fun x h' e => hpq _ _ (hm x h' e)

/-- A step after which the result no longer matters. -/
theorem wlp_any {α β : Type} {m : M α} {x : β} {Q : β → Heap → Prop} {h : Heap}
    (hq : ∀ h', Q x h') : wlp (do let _ ← m; pure x : M β) Q h :=
  wlp_bind (fun _ h' _ => wlp_pure (hq h'))

theorem wlp_load {a : Addr} {c : Cell} {Q : Cell → Heap → Prop} {h : Heap}
    (hc : h.cells a = some c) (hq : Q c h) : wlp (load a) Q h := by
  intro x h' e
  unfold load at e
  rw [hc] at e
  cases e
  exact hq

theorem wlp_load' {a : Addr} {Q : Cell → Heap → Prop} {h : Heap}
    (hq : ∀ c, h.cells a = some c → Q c h) : wlp (load a) Q h := by
  intro x h' e
  unfold load at e
  cases hc : h.cells a with
  | none => rw [hc] at e; cases e
  | some c => rw [hc] at e; cases e; exact hq _ hc

theorem wlp_store {a : Addr} {c' : Cell} {Q : Unit → Heap → Prop} {h : Heap}
    (hq : Q () (h.set a (some c'))) : wlp (store a c') Q h := by
  intro x h' e
  unfold store at e
  cases hc : h.cells a with
  | none => rw [hc] at e; cases e
  | some c => rw [hc] at e; cases e; exact hq

theorem wlp_release {a : Addr} {Q : Unit → Heap → Prop} {h : Heap}
    (hq : Q () (h.set a none)) : wlp (release a) Q h := by
  intro x h' e
  unfold release at e
  cases hc : h.cells a with
  | none => rw [hc] at e; cases e
  | some c => rw [hc] at e; cases e; exact hq

theorem wlp_malloc {c : Cell} {Q : Ptr → Heap → Prop} {h : Heap}
    (h1 : Q (some h.next) (h.alloc c)) (h2 : Q none h.skip) : wlp (malloc c) Q h := by
  intro x h' e
  unfold malloc at e
  split at e
  · cases e; exact h2
  · cases e; exact h1

theorem set_cells_eq (h : Heap) (a : Addr) (c : Option Cell) : (h.set a c).cells a = c := by
  simp [Heap.set]

theorem alloc_cells_eq (h : Heap) (c : Cell) : (h.alloc c).cells h.next = some c := by
  simp [Heap.alloc, Heap.set]

theorem wlp_setRing {hp i : Nat} {p : Ptr} {l : List Ptr} {Q : Unit → Heap → Prop} {h : Heap}
    (hc : h.cells hp = some (.rings l)) (hi : i < l.length)
    (hq : Q () (h.set hp (some (.rings (l.set i p))))) : wlp (setRing hp i p) Q h := by
  refine wlp_bind (wlp_load hc ?_)
  dsimp only
  rw [if_pos hi]
  exact wlp_store hq

theorem wlp_setGeom {hp i : Nat} {p : Ptr} {l : List Ptr} {Q : Unit → Heap → Prop} {h : Heap}
    (hc : h.cells hp = some (.geoms l)) (hi : i < l.length)
    (hq : Q () (h.set hp (some (.geoms (l.set i p))))) : wlp (setGeom hp i p) Q h := by
  refine wlp_bind (wlp_load hc ?_)
  dsimp only
  rw [if_pos hi]
  exact wlp_store hq

/-- `h'` differs from `h` only below `n`. -/
def Above (n : Nat) (h h' : Heap) : Prop :=
  h'.next = h.next ∧ ∀ i, n ≤ i → h'.cells i = h.cells i

theorem Above.rfl {n : Nat} {h : Heap} : Above n h h := ⟨Eq.refl _, fun _ _ => Eq.refl _⟩

theorem wlp_clone {p : Ptr} {n : Nat} {Q : Ptr → Heap → Prop} {h : Heap} (hp : ∀ a ∈ p, a < n)
    (hq : ∀ h', Above n h h' → Q p h') : wlp (clone p) Q h := by
  cases p with
  | none => exact wlp_pure (hq h .rfl)
  | some a =>
    refine wlp_bind (wlp_bind (wlp_load' fun c hc => ?_))
    split
    · exact wlp_fault
    · refine wlp_store (wlp_pure (hq _ ⟨rfl, fun i hi => ?_⟩))
      have := hp a rfl
      exact set_cells_ne h _ (by omega)

theorem processYstripes_built {a : Addr} {h : Heap} {rc : Int} {cl : Bool} {ix : Ptr}
    {pts : List Pt} {st : Ptr} (hc : h.cells a = some (.series rc cl ix st pts)) (ha : a < h.next) :
    wlp (processYstripes a) (fun ok h' => ok = true →
      ∃ s, h'.cells a = some (.series rc cl ix (some s) pts)) h := by
  unfold processYstripes
  refine wlp_bind (wlp_malloc ?_ ?_)
  · refine wlp_bind (wlp_malloc ?_ ?_)
    · refine wlp_bind (wlp_store (wlp_bind (wlp_release (wlp_bind (wlp_load (c := .series rc cl ix st pts) ?_ ?_)))))
      · rw [set_cells_ne _ _ (by omega), set_cells_ne _ _ (by rw [alloc_next]; omega), alloc_cells_ne _ _ (by rw [alloc_next]; omega),
          alloc_cells_ne _ _ (by omega), hc]
      · exact wlp_bind (wlp_store (wlp_pure (fun _ => ⟨_, set_cells_eq _ _ _⟩)))
    · exact wlp_any (fun _ h => by cases h)
  · exact wlp_pure (fun h => by cases h)

theorem seriesNew_built {pts : List Pt} {cl ix st : Bool} {h : Heap} :
    wlp (seriesNew pts cl ix st) (fun q h' => ∀ a, q = some a → h'.isSeries a pts cl ix st) h := by
  unfold seriesNew
  refine wlp_bind (wlp_malloc ?_ (wlp_pure (fun a e => by cases e)))
  refine wlp_bind ?_
  have key : wlp (setIndex h.next cl ix pts) (fun _ h' =>
      h'.cells h.next = some (.series 1 cl (if ix then some h.next else none) none pts) ∧
      h'.next = h.next + 1) (h.alloc (.series 1 cl none none pts)) := by
    unfold setIndex
    cases ix
    · exact wlp_pure ⟨alloc_cells_eq _ _, rfl⟩
    · exact wlp_store ⟨set_cells_eq _ _ _, rfl⟩
  refine wlp_mono key (fun _ h1 ⟨hc, hn⟩ => ?_)
  cases st
  · exact wlp_pure (fun a e => by cases e; exact ⟨none, hc, rfl⟩)
  · refine wlp_bind (wlp_mono (processYstripes_built hc (by omega)) (fun ok h2 hok => ?_))
    cases ok
    · exact wlp_any (fun _ a e => by cases e)
    · obtain ⟨s, hs⟩ := hok rfl
      exact wlp_pure (fun a e => by cases e; exact ⟨some s, hs, rfl⟩)

/-- Adding the pointers one after the other at `i`, `i + 1`, ... -/
theorem set_append' {α : Type} (l : List α) (x y : α) (t : List α) :
    (l ++ x :: t).set l.length y = l ++ [y] ++ t := by
  simp

theorem cloneHoles_built {hp n : Nat} (hn : n ≤ hp) : ∀ (ps done : List Ptr) (i : Nat) (h : Heap),
    (∀ p ∈ ps, ∀ a ∈ p, a < n) → i = done.length →
    h.cells hp = some (.rings (done ++ List.replicate ps.length none)) →
    wlp (cloneHoles hp i ps) (fun _ h' => h'.next = h.next ∧
      h'.cells hp = some (.rings (done ++ ps)) ∧
      ∀ j, n ≤ j → j ≠ hp → h'.cells j = h.cells j) h
  | [], done, i, h, _, _, hc => wlp_pure ⟨rfl, by simpa using hc, fun _ _ _ => rfl⟩
  | p :: ps, done, i, h, hlt, hi, hc => by
    unfold cloneHoles
    refine wlp_bind (wlp_clone (hlt p (by simp)) (fun h1 ab => ?_))
    refine wlp_bind (wlp_setRing ((ab.2 hp hn).trans hc) (by subst hi; simp) ?_)
    have := cloneHoles_built hn ps (done ++ [p]) (i + 1) (h1.set hp (some (.rings
      ((done ++ List.replicate (p :: ps).length none).set i p)))) (fun q hq => hlt q (by simp [hq]))
      (by simp [hi]) (by rw [set_cells_eq]; subst hi; simp [List.replicate_succ])
    refine wlp_mono this (fun _ h2 ⟨e1, e2, e3⟩ => ⟨e1.trans ab.1, by simpa using e2, fun j h3 h4 => ?_⟩)
    rw [e3 j h3 h4, set_cells_ne _ _ h4, ab.2 j h3]

theorem cloneGeoms_built {hp n : Nat} (hn : n ≤ hp) : ∀ (ps done : List Ptr) (i : Nat) (h : Heap),
    (∀ p ∈ ps, ∀ a ∈ p, a < n) → i = done.length →
    h.cells hp = some (.geoms (done ++ List.replicate ps.length none)) →
    wlp (cloneGeoms hp i ps) (fun _ h' => h'.next = h.next ∧
      h'.cells hp = some (.geoms (done ++ ps)) ∧
      ∀ j, n ≤ j → j ≠ hp → h'.cells j = h.cells j) h
  | [], done, i, h, _, _, hc => wlp_pure ⟨rfl, by simpa using hc, fun _ _ _ => rfl⟩
  | p :: ps, done, i, h, hlt, hi, hc => by
    unfold cloneGeoms
    refine wlp_bind (wlp_clone (hlt p (by simp)) (fun h1 ab => ?_))
    refine wlp_bind (wlp_setGeom ((ab.2 hp hn).trans hc) (by subst hi; simp) ?_)
    have := cloneGeoms_built hn ps (done ++ [p]) (i + 1) (h1.set hp (some (.geoms
      ((done ++ List.replicate (p :: ps).length none).set i p)))) (fun q hq => hlt q (by simp [hq]))
      (by simp [hi]) (by rw [set_cells_eq]; subst hi; simp [List.replicate_succ])
    refine wlp_mono this (fun _ h2 ⟨e1, e2, e3⟩ => ⟨e1.trans ab.1, by simpa using e2, fun j h3 h4 => ?_⟩)
    rw [e3 j h3 h4, set_cells_ne _ _ h4, ab.2 j h3]

theorem polyNew_built {e : Ptr} {hs : List Ptr} {n : Int} {h : Heap} (he : ∀ a ∈ e, a < h.next)
    (hh : ∀ p ∈ hs, ∀ a ∈ p, a < h.next) (hl : hs.length = n.toNat) :
    wlp (polyNew e hs n) (fun q h' => ∀ a, q = some a → h'.built a (.poly e hs n)) h := by
  unfold polyNew
  cases e with
  | none => exact wlp_pure (fun a e => by cases e)
  | some e =>
    dsimp only
    by_cases h0 : n = 0
    · rw [if_pos h0]
      refine wlp_clone he (fun h1 _ a e => ?_)
      cases e
      dsimp only [Heap.built]
      rw [if_pos h0]
    · rw [if_neg h0]
      refine wlp_bind (wlp_malloc ?_ (wlp_pure (fun a e => by cases e)))
      refine wlp_bind (wlp_clone he (fun h1 ab => wlp_bind (wlp_store ?_)))
      by_cases hpos : 0 < n
      · rw [if_pos hpos]
        refine wlp_bind (wlp_malloc ?_ (wlp_any (fun _ a e => by cases e)))
        have hn1 : h1.next = h.next + 1 := ab.1
        have hn2 : (h1.set h.next (some (.poly 1 (some e) 0 none))).next = h.next + 1 := hn1
        refine wlp_bind (wlp_store (wlp_bind ?_))
        rw [hn2]
        refine wlp_mono (cloneHoles_built (n := h.next) (by omega) hs [] 0 _ hh rfl ?_)
          (fun _ h2 ⟨e1, e2, e3⟩ => wlp_pure (fun a ea => ?_))
        · rw [set_cells_ne _ _ (by omega), ← hn2, alloc_cells_eq, hl]; rfl
        · cases ea
          dsimp only [Heap.built]
          rw [if_neg h0, if_pos hpos]
          refine ⟨_, ?_, e2⟩
          rw [e3 _ (le_refl _) (by omega), set_cells_eq, hl]
      · rw [if_neg hpos]
        refine wlp_pure (fun a ea => ?_)
        cases ea
        dsimp only [Heap.built]
        rw [if_neg h0, if_neg hpos]
        exact set_cells_eq _ _ _

theorem fillExtra_built {a : Nat} {h : Heap} {ty : GType} {fl : Flags} {child : Ptr}
    {coords : List Byte} {p : Pt} {z m : F64} {fl0 : Flags}
    (hc : h.cells a = some (.geom 1 ty fl0 child none none p z m)) (ha : a < h.next) :
    wlp (fillExtra a coords fl) (fun q h' => ∀ x, q = some x → x = a ∧
      h'.isGeomOf a ty fl child coords ∧ ∀ i, i < h.next → i ≠ a → h'.cells i = h.cells i) h := by
  unfold fillExtra
  refine wlp_bind (wlp_load hc (wlp_bind (wlp_store ?_)))
  by_cases h0 : coords = []
  · rw [if_pos h0]
    refine wlp_pure (fun x ex => ?_)
    cases ex
    exact ⟨rfl, ⟨none, p, z, m, set_cells_eq _ _ _, Or.inl ⟨h0, rfl⟩⟩,
      fun i _ hi => set_cells_ne _ _ hi⟩
  · rw [if_neg h0]
    refine wlp_bind (wlp_malloc ?_ (wlp_any (fun _ x e => by cases e)))
    refine wlp_bind (wlp_store (wlp_pure (fun x ex => ?_)))
    cases ex
    refine ⟨rfl, ⟨_, p, z, m, set_cells_eq _ _ _, Or.inr ⟨h0, _, rfl, ?_⟩⟩, fun i h1 hi => ?_⟩
    · rw [set_cells_ne _ _ (by show h.next ≠ a; omega), alloc_cells_eq]
    · rw [set_cells_ne _ _ hi, alloc_cells_ne _ _ (by show i ≠ h.next; omega), set_cells_ne _ _ hi]

theorem singleNew_built {ty : GType} {child : Ptr} {coords : List Byte} {fl : Flags} {h : Heap}
    (hp : ∀ a ∈ child, a < h.next) : wlp (singleNew ty child coords fl)
      (fun q h' => ∀ a, q = some a → h'.isGeomOf a ty fl child coords) h := by
  unfold singleNew geomNew
  refine wlp_bind (wlp_malloc ?_ (wlp_pure (fun a e => by cases e)))
  refine wlp_bind (wlp_clone hp (fun h1 ab => wlp_bind (wlp_store ?_)))
  refine wlp_mono (fillExtra_built (set_cells_eq _ _ _) ?_) (fun q h2 hq a e => ?_)
  · show h.next < h1.next
    rw [ab.1]; exact Nat.lt_succ_self _
  · obtain ⟨rfl, hg, _⟩ := hq a e
    exact hg

/-- A collection that was just made, with `n` children still to be set. -/
def NewShell (h0 : Heap) (ty : GType) (n : Nat) (a : Nat) (h : Heap) : Prop :=
  a = h0.next ∧ h0.next + 2 < h.next ∧
  h.cells a = some (geomCell ty {} (some (h0.next + 1)) none) ∧
  h.cells (h0.next + 2) = some (.geoms (List.replicate n none)) ∧
  ∃ ix ixg, h.cells (h0.next + 1) = some (.multi (some (h0.next + 2)) n ix ixg) ∧
    ix.isSome = decide (64 ≤ n) ∧ ixg.isSome = decide (64 ≤ n)

theorem newMulti_built {ty : GType} {n : Nat} {h : Heap} :
    wlp (newMulti ty n) (fun q h' => ∀ a, q = some a → NewShell h ty n a h') h := by
  unfold newMulti geomNew
  refine wlp_bind (wlp_malloc ?_ (wlp_pure (fun a e => by cases e)))
  refine wlp_bind (wlp_malloc ?_ (wlp_any (fun _ a e => by cases e)))
  refine wlp_bind (wlp_store (wlp_bind (wlp_malloc ?_
    (wlp_bind (fun _ _ _ => wlp_any (fun _ a e => by cases e))))))
  refine wlp_bind (wlp_store ?_)
  by_cases h64 : 64 ≤ n
  · rw [if_pos h64]
    set h3 := (((((h.alloc (geomCell ty {} none none)).alloc (.multi none 0 none none)).set h.next
      (some (geomCell ty {} (some (h.next + 1)) none))).alloc (.geoms (List.replicate n none))).set
      (h.next + 1) (some (.multi (some (h.next + 2)) n none none))) with e3
    have n3 : h3.next = h.next + 3 := rfl
    have c0 : h3.cells h.next = some (geomCell ty {} (some (h.next + 1)) none) := by
      rw [e3, set_cells_ne _ _ (by omega), alloc_cells_ne _ _ (by show h.next ≠ h.next + 1 + 1; omega),
        set_cells_eq]
    have c2 : h3.cells (h.next + 2) = some (.geoms (List.replicate n none)) := by
      rw [e3, set_cells_ne _ _ (by omega)]
      exact alloc_cells_eq _ _
    change wlp (do
      let ix ← malloc (.block none [])
      let ixg ← malloc (.block none [])
      match ix, ixg with
      | some i, some j => do
        store (h.next + 1) (.multi (some (h.next + 2)) n (some i) (some j))
        store i (.block (some i) [])
        pure (some h.next)
      | _, _ => do
        releaseOpt ix
        releaseOpt ixg
        release (h.next + 2)
        release (h.next + 1)
        release h.next
        pure none : M Ptr) _ h3
    have bad : ∀ (ix ixg : Ptr) (hh : Heap), wlp (do
        releaseOpt ix
        releaseOpt ixg
        release (h.next + 2)
        release (h.next + 1)
        release h.next
        pure none : M Ptr) (fun q h' => ∀ a, q = some a → NewShell h ty n a h') hh :=
      fun ix ixg hh => wlp_bind (fun _ _ _ => wlp_bind (fun _ _ _ => wlp_bind (fun _ _ _ =>
        wlp_bind (fun _ _ _ => wlp_any (fun _ a e => by cases e)))))
    refine wlp_bind (wlp_malloc (wlp_bind (wlp_malloc ?_ (bad _ _ _)))
      (wlp_bind (wlp_malloc (bad _ _ _) (bad _ _ _))))
    refine wlp_bind (wlp_store (wlp_bind (wlp_store (wlp_pure (fun a e => ?_)))))
    cases e
    refine ⟨rfl, ?_, ?_, ?_, some h3.next, some (h3.next + 1), ?_, by simp [h64], by simp [h64]⟩
    · show h.next + 2 < h3.next + 1 + 1
      omega
    · rw [set_cells_ne _ _ (by omega), set_cells_ne _ _ (by omega), alloc_cells_ne _ _
        (by rw [alloc_next]; omega), alloc_cells_ne _ _ (by omega), c0]
    · rw [set_cells_ne _ _ (by omega), set_cells_ne _ _ (by omega), alloc_cells_ne _ _
        (by rw [alloc_next]; omega), alloc_cells_ne _ _ (by omega), c2]
    · rw [set_cells_ne _ _ (by omega), set_cells_eq]
      rfl
  · rw [if_neg h64]
    refine wlp_pure (fun a e => ?_)
    cases e
    refine ⟨rfl, ?_, ?_, ?_, none, none, set_cells_eq _ _ _, by simp [h64], by simp [h64]⟩
    · exact Nat.lt_succ_self _
    · rw [set_cells_ne _ _ (by show h.next ≠ h.next + 1; omega), alloc_cells_ne _ _ (by show h.next ≠ h.next + 1 + 1; omega), set_cells_eq]
      rfl
    · rw [set_cells_ne _ _ (by show h.next + 2 ≠ h.next + 1; omega)]
      exact alloc_cells_eq _ _

theorem ringRect_same {p : Ptr} {h : Heap} : wlp (ringRect p) (fun _ h' => h' = h) h := by
  cases p with
  | none => exact wlp_pure rfl
  | some a =>
    refine wlp_bind (wlp_load' fun c _ => ?_)
    cases c <;> first | exact wlp_fault | exact wlp_pure rfl

theorem polyRect_same {p : Ptr} {h : Heap} : wlp (polyRect p) (fun _ h' => h' = h) h := by
  cases p with
  | none => exact wlp_pure rfl
  | some a =>
    refine wlp_bind (wlp_load' fun c _ => ?_)
    split
    · exact wlp_pure rfl
    · exact ringRect_same
    · exact wlp_fault

theorem geomRect_same {p : Ptr} {h : Heap} : wlp (geomRect p) (fun _ h' => h' = h) h := by
  cases p with
  | none => exact wlp_pure rfl
  | some a =>
    refine wlp_bind (wlp_load' fun c _ => ?_)
    cases c with
    | geom rc ty fl child co er p z m =>
      dsimp only
      cases ty <;> first
        | exact wlp_pure rfl
        | exact ringRect_same
        | exact polyRect_same
        | (cases child with
          | none => exact wlp_pure rfl
          | some m =>
            refine wlp_bind (wlp_load' fun c _ => ?_)
            cases c <;> first | exact wlp_fault | exact wlp_pure rfl)
    | _ => first | exact wlp_fault | exact wlp_pure rfl | exact polyRect_same

theorem readRects_same : ∀ {l : List Ptr} {h : Heap}, wlp (readRects l) (fun _ h' => h' = h) h
  | [], h => wlp_pure rfl
  | p :: ps, h => wlp_bind (wlp_mono geomRect_same (fun _ h1 e => e ▸ readRects_same))

theorem inflateRect_built {a : Nat} {h : Heap} : wlp (inflateRect a) (fun q h' =>
    ∀ x, q = some x → x = a ∧ h.next ≤ h'.next ∧ ∀ i, i < h.next → h'.cells i = h.cells i) h := by
  refine wlp_bind (wlp_load' fun c _ => ?_)
  split
  · refine wlp_bind (wlp_load' fun c _ => ?_)
    split
    · split
      · exact wlp_pure (fun x e => by cases e; exact ⟨rfl, le_refl _, fun _ _ => rfl⟩)
      · refine wlp_bind (wlp_load' fun c _ => ?_)
        split
        · refine wlp_bind (wlp_mono readRects_same (fun _ h1 e => ?_))
          subst e
          split
          · exact wlp_pure (fun x e => by cases e; exact ⟨rfl, le_refl _, fun _ _ => rfl⟩)
          · refine wlp_bind (wlp_malloc ?_ (wlp_any (fun _ x e => by cases e)))
            refine wlp_bind (wlp_mono readRects_same (fun _ h2 e => ?_))
            subst e
            refine wlp_bind (wlp_release (wlp_pure (fun x e => ?_)))
            cases e
            refine ⟨rfl, Nat.le_succ _, fun i hi => ?_⟩
            rw [set_cells_ne _ _ (by omega), alloc_cells_ne _ _ (by omega)]
        · exact wlp_fault
    · exact wlp_fault
  · exact wlp_fault

theorem geomsOf_built {h0 h : Heap} {ty : GType} {n a : Nat} (hf : NewShell h0 ty n a h) :
    wlp (geomsOf a) (fun g h' => g = h0.next + 2 ∧ h' = h) h := by
  obtain ⟨rfl, _, h1, _, ix, ixg, h2, _⟩ := hf
  refine wlp_bind (wlp_load h1 ?_)
  exact wlp_bind (wlp_load h2 (wlp_pure ⟨rfl, rfl⟩))

theorem multi_of_fresh {h0 h h' : Heap} {ty : GType} {n a : Nat} (hf : NewShell h0 ty n a h)
    {l : List Ptr} (hl : l.length = n) (hg : h'.cells (h0.next + 2) = some (.geoms l))
    (h1 : h'.cells h0.next = h.cells h0.next) (h2 : h'.cells (h0.next + 1) = h.cells (h0.next + 1)) :
    h'.isMultiOf a ty {} l [] := by
  obtain ⟨rfl, _, e1, _, ix, ixg, e2, e3, e4⟩ := hf
  subst hl
  exact ⟨_, _, ix, ixg, ⟨none, _, _, _, h1.trans e1, Or.inl ⟨rfl, rfl⟩⟩, h2.trans e2, hg, e3, e4⟩

/-- The part of a collection that `fill_extra_coords` does not change. -/
theorem multiNew_built {ty : GType} {cs : List Ptr} {h : Heap}
    (hp : ∀ p ∈ cs, ∀ a ∈ p, a < h.next) : wlp (multiNew ty cs)
      (fun q h' => ∀ a, q = some a → a = h.next ∧ h.next + 2 < h'.next ∧
        h'.isMultiOf a ty {} cs [] ) h := by
  refine wlp_bind (wlp_mono newMulti_built (fun q h1 hq => ?_))
  cases q with
  | none => exact wlp_pure (fun a e => by cases e)
  | some a =>
    have hf := hq a rfl
    refine wlp_bind (wlp_mono (geomsOf_built hf) (fun g h2 e => ?_))
    obtain ⟨rfl, rfl⟩ := e
    refine wlp_bind (wlp_mono (cloneGeoms_built (n := h.next) (by omega) cs [] 0 h2 hp rfl
      (by rw [hf.2.2.2.1]; rfl)) (fun _ h3 ⟨e1, e2, e3⟩ => ?_))
    refine wlp_mono inflateRect_built (fun q h4 hq x ex => ?_)
    obtain ⟨rfl, e4, e5⟩ := hq x ex
    have := hf.2.1
    refine ⟨hf.1, by omega, multi_of_fresh hf rfl ?_ ?_ ?_⟩
    · rw [e5 _ (by omega), e2]; rfl
    · rw [e5 _ (by omega), e3 _ (by omega) (by omega)]
    · rw [e5 _ (by omega), e3 _ (by omega) (by omega)]

theorem fillPoints_built {hp : Nat} : ∀ (ps : List Pt) (done : List Ptr) (old : List Pt) (i : Nat)
    (h : Heap), hp < h.next → h.arePoints done old → (∀ b, some b ∈ done → b < h.next ∧ hp < b) →
    i = done.length →
    h.cells hp = some (.geoms (done ++ List.replicate ps.length none)) →
    wlp (fillPoints hp i ps) (fun ok h' => ok = true → h.next ≤ h'.next ∧ ∃ l,
      h'.cells hp = some (.geoms l) ∧ h'.arePoints l (old ++ ps) ∧
      (∀ b, some b ∈ l → b < h'.next ∧ hp < b) ∧
      ∀ j, j < hp → h'.cells j = h.cells j) h
  | [], done, old, i, h, _, hpt, hlt, _, hc => by
    refine wlp_pure (fun _ => ⟨le_refl _, done, by simpa using hc, by simpa using hpt, hlt,
      fun _ _ => rfl⟩)
  | p :: ps, done, old, i, h, hn, hpt, hlt, hi, hc => by
    unfold fillPoints pointNew
    refine wlp_bind (wlp_malloc ?_ ?_)
    · refine wlp_bind (wlp_setGeom ((alloc_cells_ne _ _ (by omega)).trans hc) (by subst hi; simp) ?_)
      set h1 := ((h.alloc (.bpoint 1 p)).set hp (some (.geoms
        ((done ++ List.replicate (p :: ps).length none).set i (some h.next))))) with e1
      have hne : h1.next = h.next + 1 := rfl
      have keep : ∀ b, some b ∈ done → h1.cells b = h.cells b := fun b hb => by
        have := hlt b hb
        rw [e1, set_cells_ne _ _ (by omega), alloc_cells_ne _ _ (by omega)]
      have := fillPoints_built (hp := hp) ps (done ++ [some h.next]) (old ++ [p]) (i + 1) h1 (by omega) ?_ ?_
        (by simp [hi]) (by rw [e1, set_cells_eq]; subst hi; simp [List.replicate_succ])
      · refine wlp_mono this (fun ok h2 hok e => ?_)
        obtain ⟨a1, l, a2, a3, a4, a5⟩ := hok e
        refine ⟨by omega, l, a2, by simpa using a3, a4, fun j hj => ?_⟩
        rw [a5 j hj, e1, set_cells_ne _ _ (by omega), alloc_cells_ne _ _ (by omega)]
      · refine ⟨by simp [hpt.1], fun j x hx => ?_⟩
        by_cases hj : j < old.length
        · rw [List.getElem?_append_left hj] at hx
          obtain ⟨b, hb, hcb⟩ := hpt.2 j x hx
          refine ⟨b, by rw [List.getElem?_append_left (by rw [hpt.1]; exact hj)]; exact hb, ?_⟩
          rw [keep b (List.mem_of_getElem? hb), hcb]
        · have hje : j = old.length := by
            have := (List.getElem?_eq_some_iff.1 hx).1
            simp at this; omega
          subst hje
          simp at hx
          subst hx
          refine ⟨h.next, by rw [← hpt.1]; simp, ?_⟩
          rw [e1, set_cells_ne _ _ (by omega), alloc_cells_eq]
      · intro b hb
        rw [List.mem_append] at hb
        rcases hb with hb | hb
        · have := hlt b hb; omega
        · simp at hb; omega
    · refine wlp_bind (fun _ h1 _ => wlp_pure (fun e => by cases e))

theorem multipointNew_built {pts : List Pt} {h : Heap} : wlp (multipointNew pts)
      (fun q h' => ∀ a, q = some a → a = h.next ∧ h.next + 2 < h'.next ∧ ∃ l,
        h'.isMultiOf a .multipoint {} l [] ∧ h'.arePoints l pts ∧
        ∀ b, some b ∈ l → b < h'.next ∧ h.next + 2 < b) h := by
  refine wlp_bind (wlp_mono newMulti_built (fun q h1 hq => ?_))
  cases q with
  | none => exact wlp_pure (fun a e => by cases e)
  | some a =>
    have hf := hq a rfl
    refine wlp_bind (wlp_mono (geomsOf_built hf) (fun g h2 e => ?_))
    obtain ⟨rfl, rfl⟩ := e
    have hn := hf.2.1
    refine wlp_bind (wlp_mono (fillPoints_built pts [] [] 0 h2 hn ⟨rfl, by simp⟩ (by simp) rfl
      (by rw [hf.2.2.2.1]; rfl)) (fun ok h3 hok => ?_))
    cases ok
    · exact wlp_any (fun _ x e => by cases e)
    obtain ⟨e1, l, e2, e3, e4, e5⟩ := hok rfl
    refine wlp_mono inflateRect_built (fun q h4 hq x ex => ?_)
    obtain ⟨rfl, e6, e7⟩ := hq x ex
    refine ⟨hf.1, by omega, l, multi_of_fresh hf e3.1 ?_ ?_ ?_, ⟨e3.1, fun i p hp => ?_⟩,
      fun b hb => ?_⟩
    · rw [e7 _ (by omega), e2]
    · rw [e7 _ (by omega), e5 _ (by omega)]
    · rw [e7 _ (by omega), e5 _ (by omega)]
    · obtain ⟨b, hb, hcb⟩ := e3.2 i p hp
      refine ⟨b, hb, ?_⟩
      have := e4 b (List.mem_of_getElem? hb)
      rw [e7 b this.1, hcb]
    · have := e4 b hb
      omega

/-- `fill_extra_coords` on a collection. -/
theorem extra_built {a : Nat} {h : Heap} {ty : GType} {fl : Flags} {l : List Ptr}
    {coords : List Byte} (hm : h.isMultiOf a ty {} l [])
    (hfresh : ∀ i, h.next ≤ i → h.cells i = none) :
    wlp (fillExtra a coords fl) (fun q h' => ∀ x, q = some x → x = a ∧ h'.isMultiOf a ty fl l coords ∧
      ∀ b p, h.cells b = some (.bpoint 1 p) → h'.cells b = some (.bpoint 1 p)) h := by
  obtain ⟨m, g, ix, ixg, ⟨co, p, z, mm, hc, hco⟩, e2, e3, e4, e5⟩ := hm
  have hco' : co = none := by
    rcases hco with ⟨_, e⟩ | ⟨e, _⟩
    · exact e
    · exact absurd rfl e
  subst hco'
  have lt : ∀ i c, h.cells i = some c → i < h.next := fun i c hi => by
    by_contra hn
    rw [hfresh i (by omega)] at hi
    cases hi
  refine wlp_mono (fillExtra_built hc (lt _ _ hc)) (fun q h' hq x ex => ?_)
  obtain ⟨rfl, hg, keep⟩ := hq x ex
  have ne : ∀ i c, h.cells i = some c → c.kind ≠ (Cell.geom 1 ty {} (some m) none none p z mm).kind →
      i ≠ x := by
    rintro i c hi hk rfl
    rw [hc] at hi
    cases hi
    exact hk rfl
  have kp : ∀ i c, h.cells i = some c → c.kind ≠ (Cell.geom 1 ty {} (some m) none none p z mm).kind →
      h'.cells i = some c := fun i c hi hk => by
    rw [keep i (lt _ _ hi) (ne i c hi hk), hi]
  exact ⟨rfl, ⟨m, g, ix, ixg, hg, kp _ _ e2 (by simp [Cell.kind]), kp _ _ e3 (by simp [Cell.kind]),
    e4, e5⟩, fun b p hb => kp _ _ hb (by simp [Cell.kind])⟩

/-- Addresses of arguments are below `next`. -/
theorem arg_lt {r : Addr → Nat} {h : Heap} {D : Finset Addr} {E : Multiset Addr}
    (hi : Inv r h D E) {own : Multiset Nat} {K : Cell → Prop} {p : Ptr} (hp : Arg h own K p) :
    ∀ a ∈ p, a < h.next := fun a ha => by
  obtain ⟨_, c, hc, _⟩ := hp a ha
  exact hi.lt hc

theorem built_ok {fails : Nat → Bool} {ok : Heap → Op → Prop} {h h' : Heap} {own : Multiset Nat}
    (hr : Runs fails ok h own) {op : Op} (ha : Allowed h own op) {a : Nat}
    (hrun : op.run h = some (some a, h')) : h'.built a op := by
  obtain ⟨r, inv⟩ := runs_inv hr
  have fresh : ∀ (op : Op) q h1, Allowed h own op → op.run h = some (q, h1) →
      ∀ i, h1.next ≤ i → h1.cells i = none := by
    intro op q h1 ha hrun
    obtain ⟨q', h'', e, d⟩ := op_ok inv op ha
    rw [hrun] at e
    cases e
    obtain ⟨r', inv'⟩ := d.inv
    exact inv'.fresh
  cases op with
  | series pts cl ix st => exact seriesNew_built _ _ hrun a rfl
  | point p =>
    exact wlp_malloc (Q := fun q h' => ∀ a, q = some a → h'.cells a = some (.bpoint 1 p))
      (fun a e => by cases e; exact alloc_cells_eq _ _) (fun a e => by cases e) _ _ hrun a rfl
  | pointZm fl p z m =>
    exact wlp_malloc (Q := fun q h' => ∀ a, q = some a →
      h'.cells a = some (.geom 1 .point fl none none none p z m))
      (fun a e => by cases e; exact alloc_cells_eq _ _) (fun a e => by cases e) _ _ hrun a rfl
  | empty ty =>
    exact ⟨_, _, _, wlp_malloc (Q := fun q h' => ∀ a, q = some a →
      h'.cells a = some (geomCell ty { isEmpty := true } none none))
      (fun a e => by cases e; exact alloc_cells_eq _ _) (fun a e => by cases e) _ _ hrun a rfl⟩
  | poly e hs n =>
    exact polyNew_built (arg_lt inv ha.1) (fun p hp => arg_lt inv (ha.2.1 p hp)) ha.2.2 _ _ hrun a rfl
  | single ty c co fl =>
    refine singleNew_built ?_ _ _ hrun a rfl
    rcases ha with ⟨_, h⟩ | ⟨_, h⟩ <;> exact arg_lt inv h
  | multipoint pts =>
    obtain ⟨_, _, l, h1, h2, _⟩ := multipointNew_built _ _ hrun a rfl
    exact ⟨l, h1, h2⟩
  | multi ty cs =>
    refine (multiNew_built ?_ _ _ hrun a rfl).2.2
    rcases ha with ⟨_, h⟩ | ⟨_, h⟩ | ⟨_, h⟩ <;> exact fun p hp => arg_lt inv (h p hp)
  | multipointZm pts co fl =>
    have : wlp (withExtra (multipointNew pts) co fl) (fun q h' => ∀ a, q = some a →
        ∃ l, h'.isMultiOf a .multipoint fl l co ∧ h'.arePoints l pts) h := by
      refine wlp_bind (fun q h1 e1 => ?_)
      cases q with
      | none => exact wlp_pure (fun a e => by cases e)
      | some b =>
        obtain ⟨_, _, l, h2, h3, _⟩ := multipointNew_built _ _ e1 b rfl
        refine wlp_mono (extra_built h2 (fresh (.multipoint pts) _ _ trivial e1)) (fun q h4 hq x ex => ?_)
        obtain ⟨rfl, h5, h6⟩ := hq x ex
        refine ⟨l, h5, h3.1, fun i p hp => ?_⟩
        obtain ⟨b, hb, hcb⟩ := h3.2 i p hp
        exact ⟨b, hb, h6 b p hcb⟩
    exact this _ _ hrun a rfl
  | multiZm ty cs co fl =>
    have : wlp (withExtra (multiNew ty cs) co fl) (fun q h' => ∀ a, q = some a →
        h'.isMultiOf a ty fl cs co) h := by
      refine wlp_bind (fun q h1 e1 => ?_)
      cases q with
      | none => exact wlp_pure (fun a e => by cases e)
      | some b =>
        have h2 := (multiNew_built (by
          rcases ha with ⟨_, h⟩ | ⟨_, h⟩ | ⟨_, h⟩ <;> exact fun p hp => arg_lt inv (h p hp)) _ _ e1 b rfl).2.2
        refine wlp_mono (extra_built h2 (fresh (.multi ty cs) _ _ ha e1)) (fun q h4 hq x ex => ?_)
        obtain ⟨rfl, h5, h6⟩ := hq x ex
        exact h5
    exact this _ _ hrun a rfl
  | clone p =>
    exact wlp_clone (n := h.next) (arg_lt inv ha) (Q := fun q _ => ∀ a, q = some a → p = some a)
      (fun _ _ _ e => e) _ _ hrun a rfl
  | _ => trivial

end Tg.Heap
