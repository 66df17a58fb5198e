import Verif.Lemmas.History
/-! Without a failing allocation the constructors do not return NULL. -/
set_option linter.unusedSectionVars false
set_option linter.dupNamespace false
namespace Tg.Heap

/-- `m` allocates forward, and its result satisfies `P` when none of its allocations fails. -/
def Sure {α : Type} (m : M α) (P : α → Prop) : Prop :=
  ∀ h x h', m h = some (x, h') → h.next ≤ h'.next ∧ h'.fails = h.fails ∧ (NoFail h h' → P x)

theorem sure_pure {α : Type} {x : α} {P : α → Prop} (hp : P x) : Sure (pure x : M α) P := by
  intro h y h' e
  cases e
  exact ⟨le_refl _, rfl, fun _ => hp⟩

theorem sure_fault {α : Type} {P : α → Prop} : Sure (fault : M α) P := by
  intro h y h' e
  cases e

theorem Sure.mono {α : Type} {m : M α} {P Q : α → Prop} (hm : Sure m P) (hpq : ∀ x, P x → Q x) :
    Sure m Q := fun h x h' e => by
  obtain ⟨h1, h2, h3⟩ := hm h x h' e
  exact ⟨h1, h2, fun n => hpq _ (h3 n)⟩

theorem sure_bind {α β : Type} {m : M α} {f : α → M β} {P : α → Prop} {Q : β → Prop}
    (hm : Sure m P) (hf : ∀ x, Sure (f x) (fun y => P x → Q y)) : Sure (m >>= f) Q := by
  intro h y h' e
  cases hmh : m h with
  | none => rw [bind_fault hmh] at e; cases e
  | some x =>
    obtain ⟨a, h1⟩ := x
    rw [bind_of hmh] at e
    obtain ⟨l1, f1, p1⟩ := hm h a h1 hmh
    obtain ⟨l2, f2, p2⟩ := hf a h1 y h' e
    refine ⟨by omega, f2.trans f1, fun n => p2 (fun k x1 x2 => ?_) (p1 (fun k x1 x2 => ?_))⟩
    · rw [f1]; exact n k (by omega) x2
    · exact n k x1 (by omega)

/-- A step whose result does not matter. -/
theorem sure_seq {α β : Type} {m : M α} {f : α → M β} {Q : β → Prop}
    (hm : Sure m (fun _ => True)) (hf : ∀ x, Sure (f x) Q) : Sure (m >>= f) Q :=
  sure_bind hm (fun x => (hf x).mono (fun _ h _ => h))

theorem sure_malloc (c : Cell) : Sure (malloc c) (fun q => q ≠ none) := by
  intro h y h' e
  unfold malloc at e
  split at e
  · cases e
    rename_i hf
    refine ⟨by simp, rfl, fun n => ?_⟩
    have := n h.next (le_refl _) (by simp)
    rw [this] at hf
    cases hf
  · cases e
    exact ⟨by simp, rfl, fun _ => by simp⟩

theorem sure_load (a : Addr) : Sure (load a) (fun _ => True) := by
  intro h y h' e
  unfold load at e
  cases hc : h.cells a with
  | none => rw [hc] at e; cases e
  | some c => rw [hc] at e; cases e; exact ⟨le_refl _, rfl, fun _ => trivial⟩

theorem sure_store (a : Addr) (c : Cell) : Sure (store a c) (fun _ => True) := by
  intro h y h' e
  unfold store at e
  cases hca : h.cells a with
  | none => rw [hca] at e; cases e
  | some d => rw [hca] at e; cases e; exact ⟨le_refl _, rfl, fun _ => trivial⟩

theorem sure_release (a : Addr) : Sure (release a) (fun _ => True) := by
  intro h y h' e
  unfold release at e
  cases hca : h.cells a with
  | none => rw [hca] at e; cases e
  | some d => rw [hca] at e; cases e; exact ⟨le_refl _, rfl, fun _ => trivial⟩

theorem sure_ite {α : Type} {b : Prop} [Decidable b] {x y : M α} {P : α → Prop} (hx : Sure x P)
    (hy : Sure y P) : Sure (if b then x else y) P := by
  split
  · exact hx
  · exact hy

/-- After a null allocation anything goes. -/
theorem sure_no {α : Type} {m : M α} {P : α → Prop} (hm : Sure m (fun _ => True)) :
    Sure m (fun y => (none : Ptr) ≠ none → P y) := hm.mono (fun _ _ h => absurd rfl h)

theorem sure_yes {α : Type} {m : M α} {P : α → Prop} {Q : Prop} (hm : Sure m P) :
    Sure m (fun y => Q → P y) := hm.mono (fun _ h _ => h)

theorem sure_releaseOpt (p : Ptr) : Sure (releaseOpt p) (fun _ => True) := by
  cases p
  · exact sure_pure trivial
  · exact sure_release _

theorem sure_rcRetain (a : Addr) : Sure (rcRetain a) (fun _ => True) := by
  refine sure_seq (sure_load a) (fun c => ?_)
  split
  · exact sure_fault
  · exact sure_store _ _

theorem sure_rcRelease (a : Addr) : Sure (rcRelease a) (fun _ => True) := by
  refine sure_seq (sure_load a) (fun c => ?_)
  split
  · exact sure_fault
  · exact sure_seq (sure_store _ _) (fun _ => sure_pure trivial)

theorem sure_clone (p : Ptr) : Sure (clone p) (fun q => q = p) := by
  cases p
  · exact sure_pure rfl
  · exact sure_seq (sure_rcRetain _) (fun _ => sure_pure rfl)

theorem sure_ringDrop (a : Addr) : Sure (ringDrop a) (fun _ => True) := by
  refine sure_seq (sure_load a) (fun c => ?_)
  cases c <;> first
    | exact sure_fault
    | exact sure_seq (sure_releaseOpt _) (fun _ => sure_release _)

theorem sure_ringFree (p : Ptr) : Sure (ringFree p) (fun _ => True) := by
  cases p
  · exact sure_pure trivial
  · exact sure_seq (sure_rcRelease _)
      (fun _ => sure_ite (sure_ringDrop _) (sure_pure trivial))

theorem sure_freeHoles (a : Addr) : ∀ n i, Sure (freeHoles a i n) (fun _ => True)
  | 0, i => sure_pure trivial
  | n + 1, i => by
    refine sure_seq (sure_load a) (fun c => ?_)
    cases c <;> try exact sure_fault
    dsimp only
    split
    · exact sure_fault
    · exact sure_seq (sure_ringFree _) (fun _ => sure_freeHoles a n (i + 1))

theorem sure_dropHoles (p : Ptr) (n : Nat) : Sure (dropHoles p n) (fun _ => True) := by
  cases p
  · exact sure_pure trivial
  · exact sure_seq (sure_freeHoles _ _ _) (fun _ => sure_release _)

theorem sure_polyDrop (a : Addr) : Sure (polyDrop a) (fun _ => True) := by
  refine sure_seq (sure_load a) (fun c => ?_)
  cases c <;> first
    | exact sure_fault
    | exact sure_seq (sure_ringFree _) (fun _ => sure_seq (sure_dropHoles _ _)
        (fun _ => sure_release _))

theorem sure_polyFree (p : Ptr) : Sure (polyFree p) (fun _ => True) := by
  cases p with
  | none => exact sure_pure trivial
  | some a =>
    refine sure_seq (sure_load a) (fun c => ?_)
    split
    · exact sure_ringFree _
    · exact sure_seq (sure_rcRelease _)
        (fun _ => sure_ite (sure_polyDrop _) (sure_pure trivial))
    · exact sure_fault

theorem sure_bpointFree (a : Addr) : Sure (bpointFree a) (fun _ => True) :=
  sure_seq (sure_rcRelease _) (fun _ => sure_ite (sure_release _) (sure_pure trivial))

theorem sure_freeGeoms {free : Ptr → M Unit} (hf : ∀ p, Sure (free p) (fun _ => True)) (a : Addr) :
    ∀ n i, Sure (freeGeoms free a i n) (fun _ => True)
  | 0, i => sure_pure trivial
  | n + 1, i => by
    refine sure_seq (sure_load a) (fun c => ?_)
    cases c <;> try exact sure_fault
    dsimp only
    split
    · exact sure_fault
    · exact sure_seq (hf _) (fun _ => sure_freeGeoms hf a n (i + 1))

theorem sure_dropGeoms {free : Ptr → M Unit} (hf : ∀ p, Sure (free p) (fun _ => True)) (p : Ptr)
    (n : Nat) : Sure (dropGeoms free p n) (fun _ => True) := by
  cases p
  · exact sure_pure trivial
  · exact sure_seq (sure_freeGeoms hf _ _ _) (fun _ => sure_release _)

theorem sure_multiDrop {free : Ptr → M Unit} (hf : ∀ p, Sure (free p) (fun _ => True)) (p : Ptr) :
    Sure (multiDrop free p) (fun _ => True) := by
  cases p with
  | none => exact sure_pure trivial
  | some m =>
    refine sure_seq (sure_load m) (fun c => ?_)
    cases c <;> first
      | exact sure_fault
      | exact sure_seq (sure_dropGeoms hf _ _) (fun _ => sure_seq (sure_releaseOpt _)
          (fun _ => sure_seq (sure_releaseOpt _) (fun _ => sure_release _)))

theorem sure_childDrop {free : Ptr → M Unit} (hf : ∀ p, Sure (free p) (fun _ => True)) (ty : GType)
    (p : Ptr) : Sure (childDrop free ty p) (fun _ => True) := by
  cases ty <;> first
    | exact sure_pure trivial
    | exact sure_ringFree _
    | exact sure_polyFree _
    | exact sure_multiDrop hf _

theorem sure_geomDrop {free : Ptr → M Unit} (hf : ∀ p, Sure (free p) (fun _ => True)) (a : Addr) :
    Sure (geomDrop free a) (fun _ => True) := by
  refine sure_seq (sure_load a) (fun c => ?_)
  cases c <;> first
    | exact sure_fault
    | exact sure_seq (sure_childDrop hf _ _) (fun _ =>
        sure_seq (sure_ite (sure_pure trivial) (sure_releaseOpt _))
          (fun _ => sure_seq (sure_releaseOpt _) (fun _ => sure_release _)))

theorem sure_geomFree (n : Nat) : ∀ p, Sure (geomFree n p) (fun _ => True) := by
  induction n with
  | zero =>
    intro p
    cases p
    · exact sure_pure trivial
    · exact sure_fault
  | succ n ih =>
    intro p
    cases p with
    | none => exact sure_pure trivial
    | some a =>
      refine sure_seq (sure_load a) (fun c => ?_)
      cases c <;> first
        | exact sure_fault
        | exact sure_bpointFree _
        | exact sure_ringFree _
        | exact sure_polyFree _
        | exact sure_seq (sure_rcRelease _) (fun _ =>
            sure_ite (sure_geomDrop ih _) (sure_pure trivial))

theorem sure_tgGeomFree (p : Ptr) : Sure (tgGeomFree p) (fun _ => True) :=
  fun h x h' e => sure_geomFree _ p h x h' e

theorem sure_processYstripes (a : Addr) : Sure (processYstripes a) (fun b => b = true) := by
  refine sure_bind (sure_malloc _) (fun t => ?_)
  cases t with
  | none => exact sure_no (sure_pure trivial)
  | some t =>
    refine sure_yes (sure_bind (sure_malloc _) (fun s => ?_))
    cases s with
    | none => exact sure_no (sure_seq (sure_release _) (fun _ => sure_pure trivial))
    | some s =>
      refine sure_yes (sure_seq (sure_store _ _) (fun _ => sure_seq (sure_release _)
        (fun _ => sure_seq (sure_load _) (fun c => ?_))))
      cases c <;> try exact sure_fault
      exact sure_seq (sure_store _ _) (fun _ => sure_pure rfl)

theorem sure_seriesNew (pts : List Pt) (cl ix st : Bool) :
    Sure (seriesNew pts cl ix st) (fun q => q ≠ none) := by
  refine sure_bind (sure_malloc _) (fun a => ?_)
  cases a with
  | none => exact sure_no (sure_pure trivial)
  | some a =>
    refine sure_yes (sure_seq (sure_ite (sure_store _ _) (sure_pure trivial)) (fun _ => ?_))
    refine sure_ite (sure_bind (sure_processYstripes _) (fun b => ?_)) (sure_pure (by simp))
    cases b with
    | true => exact sure_yes (sure_pure (by simp))
    | false => exact (sure_seq (Q := fun _ => True) (sure_ringFree _)
        (fun _ => sure_pure trivial)).mono (fun _ _ h => by cases h)

theorem sure_setRing (a : Addr) (i : Nat) (p : Ptr) : Sure (setRing a i p) (fun _ => True) := by
  refine sure_seq (sure_load _) (fun c => ?_)
  cases c <;> try exact sure_fault
  exact sure_ite (sure_store _ _) sure_fault

theorem sure_setGeom (a : Addr) (i : Nat) (p : Ptr) : Sure (setGeom a i p) (fun _ => True) := by
  refine sure_seq (sure_load _) (fun c => ?_)
  cases c <;> try exact sure_fault
  exact sure_ite (sure_store _ _) sure_fault

theorem sure_clone' (p : Ptr) : Sure (clone p) (fun _ => True) :=
  (sure_clone p).mono (fun _ _ => trivial)

theorem sure_cloneHoles (a : Addr) : ∀ l i, Sure (cloneHoles a i l) (fun _ => True)
  | [], _ => sure_pure trivial
  | p :: l, i => sure_seq (sure_clone' _) (fun _ => sure_seq (sure_setRing _ _ _)
      (fun _ => sure_cloneHoles a l (i + 1)))

theorem sure_cloneGeoms (a : Addr) : ∀ l i, Sure (cloneGeoms a i l) (fun _ => True)
  | [], _ => sure_pure trivial
  | p :: l, i => sure_seq (sure_clone' _) (fun _ => sure_seq (sure_setGeom _ _ _)
      (fun _ => sure_cloneGeoms a l (i + 1)))

theorem sure_polyNew (e : Addr) (hs : List Ptr) (n : Int) :
    Sure (polyNew (some e) hs n) (fun q => q ≠ none) := by
  refine sure_ite ((sure_clone _).mono (fun q hq => by rw [hq]; simp))
    (sure_bind (sure_malloc _) (fun a => ?_))
  cases a with
  | none => exact sure_no (sure_pure trivial)
  | some a =>
    refine sure_yes (sure_seq (sure_clone' _) (fun _ => sure_seq (sure_store _ _) (fun _ => ?_)))
    refine sure_ite (sure_bind (sure_malloc _) (fun hp => ?_)) (sure_pure (by simp))
    cases hp with
    | none => exact sure_no (sure_seq (sure_polyFree _) (fun _ => sure_pure trivial))
    | some hp => exact sure_yes (sure_seq (sure_store _ _) (fun _ =>
          sure_seq (sure_cloneHoles _ _ _) (fun _ => sure_pure (by simp))))

theorem sure_fillExtra (a : Addr) (co : List Byte) (fl : Flags) :
    Sure (fillExtra a co fl) (fun q => q ≠ none) := by
  refine sure_seq (sure_load _) (fun c => ?_)
  cases c <;> try exact sure_fault
  refine sure_seq (sure_store _ _) (fun _ => sure_ite (sure_pure (by simp))
    (sure_bind (sure_malloc _) (fun b => ?_)))
  cases b with
  | none => exact sure_no (sure_seq (sure_tgGeomFree _) (fun _ => sure_pure trivial))
  | some b => exact sure_yes (sure_seq (sure_store _ _) (fun _ => sure_pure (by simp)))

theorem sure_singleNew (ty : GType) (c : Ptr) (co : List Byte) (fl : Flags) :
    Sure (singleNew ty c co fl) (fun q => q ≠ none) := by
  refine sure_bind (sure_malloc _) (fun a => ?_)
  cases a with
  | none => exact sure_no (sure_pure trivial)
  | some a => exact sure_yes (sure_seq (sure_clone' _) (fun _ => sure_seq (sure_store _ _)
      (fun _ => sure_fillExtra _ _ _)))

theorem sure_newMulti (ty : GType) (n : Nat) : Sure (newMulti ty n) (fun q => q ≠ none) := by
  refine sure_bind (sure_malloc _) (fun a => ?_)
  cases a with
  | none => exact sure_no (sure_pure trivial)
  | some a =>
    refine sure_yes (sure_bind (sure_malloc _) (fun m => ?_))
    cases m with
    | none => exact sure_no (sure_seq (sure_release _) (fun _ => sure_pure trivial))
    | some m =>
      refine sure_yes (sure_seq (sure_store _ _) (fun _ => sure_bind (sure_malloc _) (fun g => ?_)))
      cases g with
      | none => exact sure_no (sure_seq (sure_release _) (fun _ => sure_seq (sure_release _)
          (fun _ => sure_pure trivial)))
      | some g =>
        refine sure_yes (sure_seq (sure_store _ _) (fun _ => sure_ite
          (sure_bind (sure_malloc _) (fun ix => sure_bind (sure_malloc _) (fun ixg => ?_)))
          (sure_pure (by simp))))
        have hno : Sure (do
            releaseOpt ix; releaseOpt ixg; release g; release m; release a; pure (none : Ptr))
            (fun _ => True) :=
          sure_seq (sure_releaseOpt _) (fun _ => sure_seq (sure_releaseOpt _) (fun _ =>
            sure_seq (sure_release _) (fun _ => sure_seq (sure_release _) (fun _ =>
              sure_seq (sure_release _) (fun _ => sure_pure trivial)))))
        cases ix with
        | none => cases ixg <;> exact hno.mono (fun _ _ _ h => absurd rfl h)
        | some ix =>
          cases ixg with
          | none => exact hno.mono (fun _ _ h => absurd rfl h)
          | some ixg => exact sure_yes (sure_yes (sure_seq (sure_store _ _) (fun _ =>
              sure_seq (sure_store _ _) (fun _ => sure_pure (by simp)))))

theorem sure_ringRect (p : Ptr) : Sure (ringRect p) (fun _ => True) := by
  cases p with
  | none => exact sure_pure trivial
  | some a =>
    refine sure_seq (sure_load _) (fun c => ?_)
    cases c <;> first | exact sure_fault | exact sure_pure trivial

theorem sure_polyRect (p : Ptr) : Sure (polyRect p) (fun _ => True) := by
  cases p with
  | none => exact sure_pure trivial
  | some a =>
    refine sure_seq (sure_load _) (fun c => ?_)
    split
    · exact sure_pure trivial
    · exact sure_ringRect _
    · exact sure_fault

theorem sure_geomRect (p : Ptr) : Sure (geomRect p) (fun _ => True) := by
  cases p with
  | none => exact sure_pure trivial
  | some a =>
    refine sure_seq (sure_load _) (fun c => ?_)
    cases c with
    | geom rc ty fl ch co er p z m =>
      dsimp only
      split
      · exact sure_pure trivial
      · exact sure_ringRect _
      · exact sure_polyRect _
      · split
        · exact sure_pure trivial
        · refine sure_seq (sure_load _) (fun c => ?_)
          cases c <;> first | exact sure_fault | exact sure_pure trivial
    | _ => first | exact sure_fault | exact sure_pure trivial | exact sure_polyRect _

theorem sure_readRects : ∀ l, Sure (readRects l) (fun _ => True)
  | [] => sure_pure trivial
  | _ :: l => sure_seq (sure_geomRect _) (fun _ => sure_readRects l)

theorem sure_inflateRect (a : Addr) : Sure (inflateRect a) (fun q => q ≠ none) := by
  refine sure_seq (sure_load _) (fun c => ?_)
  split
  · refine sure_seq (sure_load _) (fun c => ?_)
    split
    · refine sure_ite (sure_pure (by simp)) (sure_seq (sure_load _) (fun c => ?_))
      split
      · refine sure_seq (sure_readRects _) (fun _ => ?_)
        split
        · exact sure_pure (by simp)
        · refine sure_bind (sure_malloc _) (fun t => ?_)
          cases t with
          | none => exact sure_no (sure_seq (sure_tgGeomFree _) (fun _ => sure_pure trivial))
          | some t => exact sure_yes (sure_seq (sure_readRects _) (fun _ =>
              sure_seq (sure_release _) (fun _ => sure_pure (by simp))))
      · exact sure_fault
    · exact sure_fault
  · exact sure_fault

theorem sure_geomsOf (a : Addr) : Sure (geomsOf a) (fun _ => True) := by
  refine sure_seq (sure_load _) (fun c => ?_)
  split
  · refine sure_seq (sure_load _) (fun c => ?_)
    split
    · exact sure_pure trivial
    · exact sure_fault
  · exact sure_fault

theorem sure_fillPoints (g : Addr) : ∀ l i, Sure (fillPoints g i l) (fun b => b = true)
  | [], _ => sure_pure rfl
  | p :: l, i => by
    refine sure_bind (sure_malloc _) (fun q => sure_seq (sure_setGeom _ _ _) (fun _ => ?_))
    cases q with
    | none => exact sure_no (sure_pure trivial)
    | some q => exact sure_yes (sure_fillPoints g l (i + 1))

theorem sure_multipointNew (pts : List Pt) : Sure (multipointNew pts) (fun q => q ≠ none) := by
  refine sure_bind (sure_newMulti _ _) (fun a => ?_)
  cases a with
  | none => exact sure_no (sure_pure trivial)
  | some a =>
    refine sure_yes (sure_seq (sure_geomsOf _) (fun _ => sure_bind (sure_fillPoints _ _ _)
      (fun b => ?_)))
    cases b with
    | true => exact sure_yes (sure_inflateRect _)
    | false => exact (sure_seq (Q := fun _ => True) (sure_tgGeomFree _)
        (fun _ => sure_pure trivial)).mono (fun _ _ h => by cases h)

theorem sure_multiNew (ty : GType) (l : List Ptr) :
    Sure (multiNew ty l) (fun q => q ≠ none) := by
  refine sure_bind (sure_newMulti _ _) (fun a => ?_)
  cases a with
  | none => exact sure_no (sure_pure trivial)
  | some a => exact sure_yes (sure_seq (sure_geomsOf _) (fun _ =>
      sure_seq (sure_cloneGeoms _ _ _) (fun _ => sure_inflateRect _)))

theorem sure_withExtra {m : M Ptr} (hm : Sure m (fun q => q ≠ none)) (co : List Byte)
    (fl : Flags) : Sure (withExtra m co fl) (fun q => q ≠ none) := by
  refine sure_bind hm (fun a => ?_)
  cases a with
  | none => exact sure_no (sure_pure trivial)
  | some a => exact sure_yes (sure_fillExtra _ _ _)

end Tg.Heap
