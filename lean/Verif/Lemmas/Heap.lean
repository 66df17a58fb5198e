import Verif.Model.Heap
import Mathlib.Algebra.BigOperators.Group.Finset.Basic
import Mathlib.Data.Multiset.Count
import Mathlib.Algebra.Order.Group.Multiset
import Mathlib.Tactic.Abel
/-!
The counting invariant of the heap and the elementary steps that keep it.

`Inv r h D E`: every block outside `D` has as many references as its counter says (one, if it has
no counter); references come from outside (`E`: variables of the caller and of the running
function) and from blocks outside `D`. Blocks in `D` are being built or torn down: nothing refers
to them and their own pointers are not counted. `r` is a rank that drops along pointers.
-/
set_option linter.unusedSectionVars false
set_option linter.dupNamespace false
namespace Tg.Heap

/-! ### Weakest preconditions -/

def wp {α : Type} (m : M α) (Q : α → Heap → Prop) (h : Heap) : Prop :=
  ∃ a h', m h = some (a, h') ∧ Q a h'

theorem wp_pure {α : Type} {a : α} {Q : α → Heap → Prop} {h : Heap} (hq : Q a h) :
    wp (pure a : M α) Q h := ⟨a, h, rfl, hq⟩

theorem bind_of {α β : Type} {m : M α} {f : α → M β} {h h' : Heap} {a : α}
    (hm : m h = some (a, h')) : (m >>= f) h = f a h' := by
  show (match m h with | none => none | some (a, h') => f a h') = _
  rw [hm]

theorem wp_bind {α β : Type} {m : M α} {f : α → M β} {Q : β → Heap → Prop} {h : Heap}
    (hm : wp m (fun a h' => wp (f a) Q h') h) : wp (m >>= f) Q h := by
  obtain ⟨a, h', e, b, h'', e', hq⟩ := hm
  exact ⟨b, h'', by rw [bind_of e]; exact e', hq⟩

theorem wp_mono {α : Type} {m : M α} {P Q : α → Heap → Prop} {h : Heap} (hm : wp m P h)
    (hpq : ∀ a h', P a h' → Q a h') : wp m Q h := by
  obtain ⟨a, h', e, hp⟩ := hm
  exact ⟨a, h', e, hpq _ _ hp⟩

theorem wp_load {a : Addr} {c : Cell} {Q : Cell → Heap → Prop} {h : Heap}
    (hc : h.cells a = some c) (hq : Q c h) : wp (load a) Q h :=
  ⟨c, h, by simp [load, hc], hq⟩

theorem wp_store {a : Addr} {c c' : Cell} {Q : Unit → Heap → Prop} {h : Heap}
    (hc : h.cells a = some c) (hq : Q () (h.set a (some c'))) : wp (store a c') Q h :=
  ⟨(), _, by simp [store, hc], hq⟩

theorem wp_release {a : Addr} {c : Cell} {Q : Unit → Heap → Prop} {h : Heap}
    (hc : h.cells a = some c) (hq : Q () (h.set a none)) : wp (release a) Q h :=
  ⟨(), _, by simp [release, hc], hq⟩

/-- The heap after a successful `tg_malloc`. -/
def Heap.alloc (h : Heap) (c : Cell) : Heap := { h.set h.next (some c) with next := h.next + 1 }

/-- The heap after a failed `tg_malloc`. -/
def Heap.skip (h : Heap) : Heap := { h with next := h.next + 1 }

theorem wp_malloc {c : Cell} {Q : Ptr → Heap → Prop} {h : Heap}
    (h1 : h.fails h.next = true → Q none h.skip)
    (h2 : h.fails h.next = false → Q (some h.next) (h.alloc c)) : wp (malloc c) Q h := by
  cases hf : h.fails h.next with
  | true => exact ⟨none, h.skip, by simp [malloc, hf, Heap.skip], h1 hf⟩
  | false => exact ⟨some h.next, h.alloc c, by simp [malloc, hf, Heap.alloc], h2 hf⟩

/-! ### Pointers, kinds, types -/

/-- A pointer as the references it holds. -/
def pm : Ptr → Multiset Addr
  | none => 0
  | some a => {a}

/-- The references held by an array of pointers. -/
def pms (l : List Ptr) : Multiset Addr := (l.map pm).sum

/-- The owning pointers of a block. -/
def Cell.ptrs : Cell → Multiset Addr
  | .series _ _ _ st _ => pm st
  | .bpoint .. => 0
  | .poly _ e _ hs => pm e + pm hs
  | .geom _ _ _ c co er _ _ _ => pm c + (pm co + pm er)
  | .multi g _ ix ixg => pm g + (pm ix + pm ixg)
  | .rings l => pms l
  | .geoms l => pms l
  | .block .. => 0

/-- The C type of a block, with the length of an array. -/
inductive Kind where
  | line | ring | bpoint | poly | geom | multi | rings (n : Nat) | geoms (n : Nat) | block
deriving DecidableEq

def Cell.kind : Cell → Kind
  | .series _ true .. => .ring
  | .series _ false .. => .line
  | .bpoint .. => .bpoint
  | .poly .. => .poly
  | .geom .. => .geom
  | .multi .. => .multi
  | .rings l => .rings l.length
  | .geoms l => .geoms l.length
  | .block .. => .block

/-- The number of references a block must have. -/
def Cell.want (c : Cell) : Int := c.rc.getD 1

/-- Equal up to the reference count. -/
def Same (c c' : Cell) : Prop := c.withRc 0 = c'.withRc 0

def Is (h : Heap) (a : Addr) (k : Kind) : Prop := ∃ c, h.cells a = some c ∧ c.kind = k

/-- A geometry: a type that starts with a `struct head`. -/
def IsGeom (h : Heap) (a : Addr) : Prop :=
  Is h a .line ∨ Is h a .ring ∨ Is h a .bpoint ∨ Is h a .poly ∨ Is h a .geom

def IsPoly (h : Heap) (a : Addr) : Prop := Is h a .ring ∨ Is h a .poly

/-- What the C types of the fields say about a block. -/
def Cell.Typed (h : Heap) : Cell → Prop
  | .series _ _ _ st _ => ∀ s ∈ st, Is h s .block
  | .bpoint .. => True
  | .poly _ e n hs => (∀ a ∈ e, Is h a .ring) ∧ (∀ a ∈ hs, Is h a (.rings n)) ∧
      (hs = none ↔ n = 0)
  | .geom _ ty _ c co er _ _ _ => (∀ a ∈ co, Is h a .block) ∧ (∀ a ∈ er, Is h a .block) ∧
      (ty = .point → c = none ∧ co = none) ∧
      (ty = .linestring → ∀ a ∈ c, Is h a .line) ∧
      (ty = .polygon → ∀ a ∈ c, IsPoly h a) ∧
      (isMulti ty = true → ∀ a ∈ c, Is h a .multi)
  | .multi g n ix ixg => (∀ a ∈ g, Is h a (.geoms n)) ∧ (∀ a ∈ ix, Is h a .block) ∧
      (∀ a ∈ ixg, Is h a .block) ∧ (g = none → n = 0)
  | .rings l => ∀ p ∈ l, ∀ a ∈ p, Is h a .ring
  | .geoms l => ∀ p ∈ l, ∀ a ∈ p, IsGeom h a
  | .block .. => True

@[simp] theorem mem_pm {a : Addr} {p : Ptr} : a ∈ pm p ↔ p = some a := by
  cases p <;> simp [pm, eq_comm]

@[simp] theorem pm_none : pm none = 0 := rfl
@[simp] theorem pm_some (a : Addr) : pm (some a) = {a} := rfl
@[simp] theorem pms_nil : pms [] = 0 := rfl
@[simp] theorem pms_cons (p : Ptr) (l : List Ptr) : pms (p :: l) = pm p + pms l := by
  simp [pms]

theorem mem_pms {a : Addr} {l : List Ptr} : a ∈ pms l ↔ some a ∈ l := by
  induction l with
  | nil => simp
  | cons p l ih => simp [ih, eq_comm]

theorem Same.ptrs {c c' : Cell} (h : Same c c') : c.ptrs = c'.ptrs := by
  cases c <;> cases c' <;> simp_all [Same, Cell.withRc, Cell.ptrs]

theorem Same.kind {c c' : Cell} (h : Same c c') : c.kind = c'.kind := by
  cases c <;> cases c' <;> simp_all [Same, Cell.withRc, Cell.kind]
  split <;> simp_all

theorem Same.typed {c c' : Cell} {h : Heap} (hs : Same c c') : c.Typed h ↔ c'.Typed h := by
  cases c <;> cases c' <;> simp_all [Same, Cell.withRc, Cell.Typed]

theorem Same.refl (c : Cell) : Same c c := rfl
theorem Same.symm {c c' : Cell} (h : Same c c') : Same c' c := Eq.symm h
theorem Same.trans {c c' c'' : Cell} (h : Same c c') (h' : Same c' c'') : Same c c'' :=
  Eq.trans h h'

theorem same_withRc (c : Cell) (k : Int) : Same (c.withRc k) c := by
  cases c <;> simp [Same, Cell.withRc]

theorem want_withRc {c : Cell} {j k : Int} (h : c.rc = some j) : (c.withRc k).want = k := by
  cases c <;> simp_all [Cell.withRc, Cell.want, Cell.rc]

theorem want_of_rc {c : Cell} {k : Int} (h : c.rc = some k) : c.want = k := by
  simp [Cell.want, h]

theorem same_want_of_none {c : Cell} (h : c.rc = none) : c.want = 1 := by
  simp [Cell.want, h]

theorem Cell.Typed.mono {c : Cell} {h h' : Heap} (ht : c.Typed h)
    (hi : ∀ i ∈ c.ptrs, ∀ k, Is h i k → Is h' i k) : c.Typed h' := by
  cases c with
  | series rc cl ix st pts =>
    intro s hs; exact hi s (by simpa [Cell.ptrs] using hs) _ (ht s hs)
  | bpoint => trivial
  | poly rc e n hs =>
    obtain ⟨h1, h2, h3⟩ := ht
    exact ⟨fun a ha => hi a (by simp [Cell.ptrs]; left; simpa using ha) _ (h1 a ha),
      fun a ha => hi a (by simp [Cell.ptrs]; right; simpa using ha) _ (h2 a ha), h3⟩
  | geom rc ty fl c co er p z m =>
    obtain ⟨h1, h2, h3, h4, h5, h6⟩ := ht
    refine ⟨fun a ha => hi a (by simp [Cell.ptrs]; right; left; simpa using ha) _ (h1 a ha),
      fun a ha => hi a (by simp [Cell.ptrs]; right; right; simpa using ha) _ (h2 a ha), h3,
      fun hty a ha => hi a (by simp [Cell.ptrs]; left; simpa using ha) _ (h4 hty a ha), ?_,
      fun hty a ha => hi a (by simp [Cell.ptrs]; left; simpa using ha) _ (h6 hty a ha)⟩
    intro hty a ha
    have hm : a ∈ (Cell.geom rc ty fl c co er p z m).ptrs := by
      simp [Cell.ptrs]; left; simpa using ha
    rcases h5 hty a ha with h | h
    · exact Or.inl (hi a hm _ h)
    · exact Or.inr (hi a hm _ h)
  | multi g n ix ixg =>
    obtain ⟨h1, h2, h3, h4⟩ := ht
    exact ⟨fun a ha => hi a (by simp [Cell.ptrs]; left; simpa using ha) _ (h1 a ha),
      fun a ha => hi a (by simp [Cell.ptrs]; right; left; simpa using ha) _ (h2 a ha),
      fun a ha => hi a (by simp [Cell.ptrs]; right; right; simpa using ha) _ (h3 a ha), h4⟩
  | rings l =>
    intro p hp a ha
    exact hi a (mem_pms.2 (by rw [← Option.mem_def.1 ha]; exact hp)) _ (ht p hp a ha)
  | geoms l =>
    intro p hp a ha
    have hm : a ∈ (Cell.geoms l).ptrs := mem_pms.2 (by rw [← Option.mem_def.1 ha]; exact hp)
    rcases ht p hp a ha with h | h | h | h | h
    · exact Or.inl (hi a hm _ h)
    · exact Or.inr (Or.inl (hi a hm _ h))
    · exact Or.inr (Or.inr (Or.inl (hi a hm _ h)))
    · exact Or.inr (Or.inr (Or.inr (Or.inl (hi a hm _ h))))
    · exact Or.inr (Or.inr (Or.inr (Or.inr (hi a hm _ h))))
  | block => trivial

/-! ### The invariant -/

/-- References held by a block that counts. -/
def out (h : Heap) (D : Finset Addr) (j : Addr) : Multiset Addr :=
  if j ∈ D then 0 else (h.cells j).elim 0 Cell.ptrs

/-- References held by all blocks outside `D`. -/
def refs (h : Heap) (D : Finset Addr) : Multiset Addr := ∑ j ∈ Finset.range h.next, out h D j

structure Inv (r : Addr → Nat) (h : Heap) (D : Finset Addr) (E : Multiset Addr) : Prop where
  fresh : ∀ j, h.next ≤ j → h.cells j = none
  dom : ∀ j ∈ D, j < h.next
  dead : ∀ j ∈ D, j ∉ E + refs h D
  gone : ∀ j, h.cells j = none → j ∉ E + refs h D
  live : ∀ j c, j ∉ D → h.cells j = some c →
    c.want = (Multiset.count j (E + refs h D) : Int) ∧ 0 < Multiset.count j (E + refs h D)
  rank : ∀ j c, j ∉ D → h.cells j = some c → ∀ i ∈ c.ptrs, r i < r j
  typed : ∀ j c, j ∉ D → h.cells j = some c → c.Typed h

theorem Inv.congr {r : Addr → Nat} {h : Heap} {D : Finset Addr} {E E' : Multiset Addr}
    (hi : Inv r h D E) (he : E = E') : Inv r h D E' := he ▸ hi

theorem Inv.lt {r : Addr → Nat} {h : Heap} {D : Finset Addr} {E : Multiset Addr}
    (hi : Inv r h D E) {a : Addr} {c : Cell} (hc : h.cells a = some c) : a < h.next := by
  by_contra hn
  rw [hi.fresh a (by omega)] at hc
  simp at hc

/-- A reference held from outside is to a live block outside `D`. -/
theorem Inv.held {r : Addr → Nat} {h : Heap} {D : Finset Addr} {E : Multiset Addr}
    (hi : Inv r h D E) {a : Addr} (ha : a ∈ E) : a ∉ D ∧ ∃ c, h.cells a = some c := by
  refine ⟨fun hd => hi.dead a hd (Multiset.mem_add.2 (Or.inl ha)), ?_⟩
  cases hc : h.cells a with
  | none => exact absurd (Multiset.mem_add.2 (Or.inl ha)) (hi.gone a hc)
  | some c => exact ⟨c, rfl⟩

theorem mem_refs {h : Heap} {D : Finset Addr} {i j : Addr} {c : Cell} (hj : j ∉ D)
    (hl : j < h.next) (hc : h.cells j = some c) (hi : i ∈ c.ptrs) : i ∈ refs h D := by
  unfold refs
  rw [Multiset.mem_sum]
  exact ⟨j, by simpa using hl, by simp [out, hj, hc, hi]⟩

theorem refs_of_mem {h : Heap} {D : Finset Addr} {i : Addr} (hi : i ∈ refs h D) :
    ∃ j c, j ∉ D ∧ h.cells j = some c ∧ i ∈ c.ptrs := by
  unfold refs at hi
  rw [Multiset.mem_sum] at hi
  obtain ⟨j, _, hj⟩ := hi
  unfold out at hj
  split at hj
  · simp at hj
  · cases hc : h.cells j with
    | none => simp [hc] at hj
    | some c => exact ⟨j, c, ‹_›, hc, by simpa [hc] using hj⟩

/-- A pointer of a block outside `D` is to a live block outside `D`. -/
theorem Inv.child {r : Addr → Nat} {h : Heap} {D : Finset Addr} {E : Multiset Addr}
    (hi : Inv r h D E) {j i : Addr} {c : Cell} (hj : j ∉ D) (hc : h.cells j = some c)
    (hm : i ∈ c.ptrs) : i ∉ D ∧ ∃ c', h.cells i = some c' := by
  have := mem_refs hj (hi.lt hc) hc hm
  refine ⟨fun hd => hi.dead i hd (Multiset.mem_add.2 (Or.inr this)), ?_⟩
  cases hc' : h.cells i with
  | none => exact absurd (Multiset.mem_add.2 (Or.inr this)) (hi.gone i hc')
  | some c => exact ⟨c, rfl⟩

theorem refs_congr {h h' : Heap} {D D' : Finset Addr} (hn : h'.next = h.next)
    (ho : ∀ j < h.next, out h' D' j = out h D j) : refs h' D' = refs h D := by
  unfold refs
  rw [hn]
  exact Finset.sum_congr rfl (fun j hj => ho j (by simpa using hj))

theorem refs_insert {h : Heap} {D : Finset Addr} {a : Addr} {c : Cell} (ha : a ∉ D)
    (hl : a < h.next) (hc : h.cells a = some c) :
    refs h D = c.ptrs + refs h (insert a D) := by
  unfold refs
  have hm : a ∈ Finset.range h.next := by simpa using hl
  rw [← Finset.add_sum_erase _ _ hm, ← Finset.add_sum_erase (Finset.range h.next) _ hm]
  have h1 : out h D a = c.ptrs := by simp [out, ha, hc]
  have h2 : out h (insert a D) a = 0 := by simp [out]
  rw [h1, h2, zero_add]
  congr 1
  apply Finset.sum_congr rfl
  intro j hj
  have hne : j ≠ a := (Finset.mem_erase.1 hj).1
  simp [out, hne]

theorem refs_set_same {h : Heap} {D : Finset Addr} {a : Addr} {c c' : Cell}
    (hc : h.cells a = some c) (hs : Same c' c) : refs (h.set a (some c')) D = refs h D := by
  refine refs_congr (by rfl) ?_
  intro j _
  unfold out
  split
  · rfl
  · by_cases hj : j = a
    · subst hj; simp [Heap.set, hc, hs.ptrs]
    · simp [Heap.set, hj]

theorem refs_set_dead {h : Heap} {D : Finset Addr} {a : Addr} {c' : Option Cell}
    (ha : a ∈ D) : refs (h.set a c') D = refs h D := by
  refine refs_congr (by rfl) ?_
  intro j _
  unfold out
  split
  · rfl
  · have : j ≠ a := fun e => by subst e; contradiction
    simp [Heap.set, this]

theorem is_set_same {h : Heap} {a i : Addr} {c c' : Cell} {k : Kind}
    (hc : h.cells a = some c) (hs : Same c' c) (hi : Is h i k) : Is (h.set a (some c')) i k := by
  obtain ⟨d, hd, hk⟩ := hi
  by_cases hia : i = a
  · subst hia
    rw [hc] at hd
    refine ⟨c', by simp [Heap.set], ?_⟩
    rw [hs.kind]; cases hd; exact hk
  · exact ⟨d, by simp [Heap.set, hia, hd], hk⟩

theorem is_set_other {h : Heap} {a i : Addr} {c' : Option Cell} {k : Kind}
    (hne : i ≠ a) (hi : Is h i k) : Is (h.set a c') i k := by
  obtain ⟨d, hd, hk⟩ := hi
  exact ⟨d, by simp [Heap.set, hne, hd], hk⟩

@[simp] theorem set_cells_self (h : Heap) (a : Addr) (c : Option Cell) :
    (h.set a c).cells a = c := by simp [Heap.set]

theorem set_cells_ne (h : Heap) {a b : Addr} (c : Option Cell) (hne : b ≠ a) :
    (h.set a c).cells b = h.cells b := by simp [Heap.set, hne]

theorem set_self {h : Heap} {a : Addr} {c : Option Cell} (hc : h.cells a = c) :
    h.set a c = h := by
  unfold Heap.set
  cases h
  simp only [Heap.mk.injEq, and_true]
  funext b
  by_cases hb : b = a
  · simp [hb]; rw [← hc]
  · simp [hb]

/-! ### The elementary steps -/

/-- Changing only the counter of a block. -/
theorem Inv.setRc {r : Addr → Nat} {h : Heap} {D : Finset Addr} {E E' : Multiset Addr}
    (hi : Inv r h D E) {a : Addr} {c c' : Cell} (ha : a ∉ D) (hc : h.cells a = some c)
    (hs : Same c' c)
    (hothers : ∀ j, j ≠ a → Multiset.count j (E' + refs h D) = Multiset.count j (E + refs h D))
    (hw : c'.want = (Multiset.count a (E' + refs h D) : Int))
    (hp : 0 < Multiset.count a (E' + refs h D)) :
    Inv r (h.set a (some c')) D E' := by
  have hr := refs_set_same (D := D) hc hs
  constructor
  · intro j hj
    have : j ≠ a := fun e => by
      have := hi.lt hc
      subst e; simp [Heap.set] at hj; omega
    rw [set_cells_ne _ _ this]; exact hi.fresh j hj
  · exact hi.dom
  · intro j hj
    rw [hr]
    have hne : j ≠ a := fun e => by subst e; contradiction
    rw [← Multiset.count_eq_zero, hothers j hne, Multiset.count_eq_zero]
    exact hi.dead j hj
  · intro j hj
    have hne : j ≠ a := fun e => by subst e; simp at hj
    rw [set_cells_ne _ _ hne] at hj
    rw [hr, ← Multiset.count_eq_zero, hothers j hne, Multiset.count_eq_zero]
    exact hi.gone j hj
  · intro j d hj hd
    rw [hr]
    by_cases hja : j = a
    · subst hja
      simp at hd; subst hd
      exact ⟨hw, hp⟩
    · rw [set_cells_ne _ _ hja] at hd
      rw [hothers j hja]
      exact hi.live j d hj hd
  · intro j d hj hd i him
    by_cases hja : j = a
    · subst hja
      simp at hd; subst hd
      exact hi.rank j c hj hc i (by rw [← hs.ptrs]; exact him)
    · rw [set_cells_ne _ _ hja] at hd
      exact hi.rank j d hj hd i him
  · intro j d hj hd
    by_cases hja : j = a
    · subst hja
      simp at hd; subst hd
      exact (hs.typed.2 (hi.typed j c hj hc)).mono (fun i _ k hk => is_set_same hc hs hk)
    · rw [set_cells_ne _ _ hja] at hd
      exact (hi.typed j d hj hd).mono (fun i _ k hk => is_set_same hc hs hk)

/-- A new reference to a live block. -/
theorem Inv.retain {r : Addr → Nat} {h : Heap} {D : Finset Addr} {E : Multiset Addr}
    (hi : Inv r h D E) {a : Addr} {c : Cell} {k : Int} (ha : a ∉ D) (hc : h.cells a = some c)
    (hk : c.rc = some k) : Inv r (h.set a (some (c.withRc (k + 1)))) D ({a} + E) := by
  have hl := hi.live a c ha hc
  apply hi.setRc ha hc (same_withRc _ _)
  · intro j hj
    simp [hj]
  · rw [want_withRc hk]
    rw [want_of_rc hk] at hl
    simp [hl.1]
  · simp

/-- Giving up a reference that is not the last one. -/
theorem Inv.dec {r : Addr → Nat} {h : Heap} {D : Finset Addr} {E : Multiset Addr} {a : Addr}
    (hi : Inv r h D ({a} + E)) {c : Cell} {k : Int} (hc : h.cells a = some c)
    (hk : c.rc = some k) (h1 : k ≠ 1) : Inv r (h.set a (some (c.withRc (k - 1)))) D E := by
  have ha := (hi.held (a := a) (by simp)).1
  have hl := hi.live a c ha hc
  rw [want_of_rc hk] at hl
  simp at hl
  apply hi.setRc ha hc (same_withRc _ _)
  · intro j hj
    simp [hj]
  · rw [want_withRc hk]
    simp; omega
  · simp only [Multiset.count_add]; omega

/-- Taking a block with one reference out of the count. -/
theorem Inv.detach {r : Addr → Nat} {h : Heap} {D : Finset Addr} {E : Multiset Addr} {a : Addr}
    (hi : Inv r h D ({a} + E)) {c c' : Cell} (hc : h.cells a = some c) (hw : c.want = 1)
    (hs : Same c' c) : Inv r (h.set a (some c')) (insert a D) (c.ptrs + E) := by
  have ha := (hi.held (a := a) (by simp)).1
  have hl := hi.live a c ha hc
  have hr : refs h D = c.ptrs + refs h (insert a D) := refs_insert ha (hi.lt hc) hc
  have hr' : refs (h.set a (some c')) (insert a D) = refs h (insert a D) :=
    refs_set_dead (Finset.mem_insert_self a D)
  have hT : {a} + E + refs h D = {a} + (c.ptrs + E + refs (h.set a (some c')) (insert a D)) := by
    rw [hr, hr']; abel
  rw [hw, hT] at hl
  constructor
  · intro j hj
    have : j ≠ a := fun e => by
      have := hi.lt hc
      subst e; simp [Heap.set] at hj; omega
    rw [set_cells_ne _ _ this]; exact hi.fresh j hj
  · intro j hj
    rcases Finset.mem_insert.1 hj with rfl | hj
    · exact hi.lt hc
    · exact hi.dom j hj
  · intro j hj
    rcases Finset.mem_insert.1 hj with rfl | hj
    · rw [← Multiset.count_eq_zero]
      have h1 := hl.1
      rw [Multiset.count_add, Multiset.count_singleton_self] at h1
      omega
    · intro hm
      apply hi.dead j hj
      rw [hT]
      exact Multiset.mem_add.2 (Or.inr hm)
  · intro j hj hm
    have hne : j ≠ a := fun e => by subst e; simp at hj
    rw [set_cells_ne _ _ hne] at hj
    apply hi.gone j hj
    rw [hT]
    exact Multiset.mem_add.2 (Or.inr hm)
  · intro j d hj hd
    have hja : j ≠ a := fun e => hj (by simp [e])
    have hjD : j ∉ D := fun e => hj (by simp [e])
    rw [set_cells_ne _ _ hja] at hd
    have := hi.live j d hjD hd
    rw [hT, Multiset.count_add, Multiset.count_singleton] at this
    simpa [hja] using this
  · intro j d hj hd i him
    have hja : j ≠ a := fun e => hj (by simp [e])
    have hjD : j ∉ D := fun e => hj (by simp [e])
    rw [set_cells_ne _ _ hja] at hd
    exact hi.rank j d hjD hd i him
  · intro j d hj hd
    have hja : j ≠ a := fun e => hj (by simp [e])
    have hjD : j ∉ D := fun e => hj (by simp [e])
    rw [set_cells_ne _ _ hja] at hd
    exact (hi.typed j d hjD hd).mono (fun i _ k hk => is_set_same hc hs hk)

/-- Releasing a block that is out of the count. -/
theorem Inv.drop {r : Addr → Nat} {h : Heap} {D : Finset Addr} {E : Multiset Addr} {a : Addr}
    (hi : Inv r h (insert a D) E) (ha : a ∉ D) : Inv r (h.set a none) D E := by
  have hr : refs (h.set a none) D = refs h (insert a D) := by
    refine refs_congr (by rfl) ?_
    intro j _
    unfold out
    by_cases hja : j = a
    · subst hja; simp
    · simp [hja, Heap.set]
  constructor
  · intro j hj
    by_cases hja : j = a
    · simp [hja]
    · rw [set_cells_ne _ _ hja]; exact hi.fresh j hj
  · intro j hj
    exact hi.dom j (by simp [hj])
  · intro j hj
    rw [hr]; exact hi.dead j (by simp [hj])
  · intro j hj
    rw [hr]
    by_cases hja : j = a
    · exact hi.dead j (by simp [hja])
    · rw [set_cells_ne _ _ hja] at hj; exact hi.gone j hj
  · intro j d hj hd
    have hja : j ≠ a := fun e => by subst e; simp at hd
    rw [set_cells_ne _ _ hja] at hd
    rw [hr]; exact hi.live j d (by simp [hja, hj]) hd
  · intro j d hj hd
    have hja : j ≠ a := fun e => by subst e; simp at hd
    rw [set_cells_ne _ _ hja] at hd
    exact hi.rank j d (by simp [hja, hj]) hd
  · intro j d hj hd
    have hja : j ≠ a := fun e => by subst e; simp at hd
    rw [set_cells_ne _ _ hja] at hd
    have hjD : j ∉ insert a D := by simp [hja, hj]
    refine (hi.typed j d hjD hd).mono (fun i him k hk => is_set_other ?_ hk)
    intro e
    exact (hi.child hjD hd him).1 (by simp [e])

/-- Writing a block that is out of the count. -/
theorem Inv.put {r : Addr → Nat} {h : Heap} {D : Finset Addr} {E : Multiset Addr} {a : Addr}
    (hi : Inv r h D E) (ha : a ∈ D) (c : Cell) : Inv r (h.set a (some c)) D E := by
  have hr : refs (h.set a (some c)) D = refs h D := refs_set_dead ha
  have hl := hi.dom a ha
  constructor
  · intro j hj
    have : j ≠ a := fun e => by subst e; simp [Heap.set] at hj; omega
    rw [set_cells_ne _ _ this]; exact hi.fresh j hj
  · exact hi.dom
  · rw [hr]; exact hi.dead
  · intro j hj
    have : j ≠ a := fun e => by subst e; simp at hj
    rw [set_cells_ne _ _ this] at hj
    rw [hr]; exact hi.gone j hj
  · intro j d hj hd
    have : j ≠ a := fun e => by subst e; contradiction
    rw [set_cells_ne _ _ this] at hd
    rw [hr]; exact hi.live j d hj hd
  · intro j d hj hd
    have : j ≠ a := fun e => by subst e; contradiction
    rw [set_cells_ne _ _ this] at hd
    exact hi.rank j d hj hd
  · intro j d hj hd
    have : j ≠ a := fun e => by subst e; contradiction
    rw [set_cells_ne _ _ this] at hd
    refine (hi.typed j d hj hd).mono (fun i him k hk => is_set_other ?_ hk)
    intro e
    exact (hi.child hj hd him).1 (by rw [e]; exact ha)

/-- A failed allocation. -/
theorem Inv.skip {r : Addr → Nat} {h : Heap} {D : Finset Addr} {E : Multiset Addr}
    (hi : Inv r h D E) : Inv r h.skip D E := by
  have hr : refs h.skip D = refs h D := by
    unfold refs
    show ∑ j ∈ Finset.range (h.next + 1), out h.skip D j = _
    rw [Finset.sum_range_succ]
    have : out h.skip D h.next = 0 := by
      unfold out
      split
      · rfl
      · show (h.cells h.next).elim 0 Cell.ptrs = 0
        rw [hi.fresh h.next (le_refl _)]; rfl
    rw [this, add_zero]
    rfl
  constructor
  · intro j hj; exact hi.fresh j (by simp [Heap.skip] at hj; omega)
  · intro j hj; have := hi.dom j hj; simp [Heap.skip]; omega
  · rw [hr]; exact hi.dead
  · rw [hr]; exact hi.gone
  · rw [hr]; exact hi.live
  · exact hi.rank
  · exact hi.typed

theorem Inv.next_nmem {r : Addr → Nat} {h : Heap} {D : Finset Addr} {E : Multiset Addr}
    (hi : Inv r h D E) : h.next ∉ D := fun hd => absurd (hi.dom _ hd) (lt_irrefl _)

@[simp] theorem alloc_cells_self (h : Heap) (c : Cell) :
    (h.alloc c).cells h.next = some c := by simp [Heap.alloc, Heap.set]

theorem alloc_cells_ne (h : Heap) {b : Addr} (c : Cell) (hne : b ≠ h.next) :
    (h.alloc c).cells b = h.cells b := by simp [Heap.alloc, Heap.set, hne]

@[simp] theorem alloc_next (h : Heap) (c : Cell) : (h.alloc c).next = h.next + 1 := rfl
@[simp] theorem skip_next (h : Heap) : h.skip.next = h.next + 1 := rfl
@[simp] theorem set_next (h : Heap) (a : Addr) (c : Option Cell) : (h.set a c).next = h.next := rfl

/-- An allocation; the new block is out of the count. -/
theorem Inv.alloc {r : Addr → Nat} {h : Heap} {D : Finset Addr} {E : Multiset Addr}
    (hi : Inv r h D E) (c : Cell) : Inv r (h.alloc c) (insert h.next D) E := by
  have hr : refs (h.alloc c) (insert h.next D) = refs h D := by
    unfold refs
    show ∑ j ∈ Finset.range (h.next + 1), _ = _
    rw [Finset.sum_range_succ]
    have : out (h.alloc c) (insert h.next D) h.next = 0 := by simp [out]
    rw [this, add_zero]
    apply Finset.sum_congr rfl
    intro j hj
    have hne : j ≠ h.next := by simp at hj; omega
    simp [out, hne, alloc_cells_ne _ _ hne]
  have hnext := hi.gone h.next (hi.fresh _ (le_refl _))
  constructor
  · intro j hj
    simp at hj
    rw [alloc_cells_ne _ _ (by omega)]; exact hi.fresh j (by omega)
  · intro j hj
    simp
    rcases Finset.mem_insert.1 hj with rfl | hj
    · omega
    · have := hi.dom j hj; omega
  · intro j hj
    rw [hr]
    rcases Finset.mem_insert.1 hj with rfl | hj
    · exact hnext
    · exact hi.dead j hj
  · intro j hj
    rw [hr]
    have hne : j ≠ h.next := fun e => by subst e; simp at hj
    rw [alloc_cells_ne _ _ hne] at hj
    exact hi.gone j hj
  · intro j d hj hd
    simp at hj
    rw [alloc_cells_ne _ _ hj.1] at hd
    rw [hr]; exact hi.live j d hj.2 hd
  · intro j d hj hd
    simp at hj
    rw [alloc_cells_ne _ _ hj.1] at hd
    exact hi.rank j d hj.2 hd
  · intro j d hj hd
    simp at hj
    rw [alloc_cells_ne _ _ hj.1] at hd
    refine (hi.typed j d hj.2 hd).mono (fun i him k hk => ?_)
    obtain ⟨c', hc', hk'⟩ := hk
    have hne : i ≠ h.next := fun e => by
      rw [e, hi.fresh _ (le_refl _)] at hc'; simp at hc'
    exact ⟨c', by rw [alloc_cells_ne _ _ hne]; exact hc', hk'⟩

/-- A finished block starts to count. -/
theorem Inv.attach {r : Addr → Nat} {h : Heap} {D : Finset Addr} {E : Multiset Addr} {a : Addr}
    {c : Cell} (hi : Inv r h (insert a D) (c.ptrs + E)) (ha : a ∉ D) (hc : h.cells a = some c)
    (hw : c.want = 1) (ht : c.Typed h) :
    ∃ r', Inv r' h D ({a} + E) ∧ ∀ j, j ≠ a → r' j = r j := by
  have hr : refs h D = c.ptrs + refs h (insert a D) :=
    refs_insert ha (hi.dom a (by simp)) hc
  have hT : {a} + E + refs h D = {a} + (c.ptrs + E + refs h (insert a D)) := by
    rw [hr]; abel
  have hda := hi.dead a (by simp)
  let r' : Addr → Nat := fun j => if j = a then (c.ptrs.map (fun i => r i + 1)).sum else r j
  have hne : ∀ j, j ≠ a → r' j = r j := fun j hj => by simp [r', hj]
  refine ⟨r', ?_, hne⟩
  constructor
  · exact hi.fresh
  · intro j hj; exact hi.dom j (by simp [hj])
  · intro j hj
    rw [hT]
    intro hm
    rcases Multiset.mem_add.1 hm with hm | hm
    · rw [Multiset.mem_singleton.1 hm] at hj; contradiction
    · exact hi.dead j (by simp [hj]) hm
  · intro j hj
    rw [hT]
    intro hm
    rcases Multiset.mem_add.1 hm with hm | hm
    · rw [Multiset.mem_singleton.1 hm, hc] at hj; simp at hj
    · exact hi.gone j hj hm
  · intro j d hj hd
    rw [hT]
    by_cases hja : j = a
    · subst hja
      rw [hc] at hd; cases hd
      rw [Multiset.count_add, Multiset.count_eq_zero.2 hda, hw]
      simp
    · have := hi.live j d (by simp [hja, hj]) hd
      rw [Multiset.count_add, Multiset.count_singleton]
      simpa [hja] using this
  · intro j d hj hd i him
    by_cases hja : j = a
    · subst hja
      rw [hc] at hd; cases hd
      have hia : i ≠ j := fun e => by
        subst e
        exact hda (Multiset.mem_add.2 (Or.inl (Multiset.mem_add.2 (Or.inl him))))
      rw [hne i hia]
      have : r i + 1 ≤ (c.ptrs.map (fun i => r i + 1)).sum := by
        obtain ⟨t, ht⟩ := Multiset.exists_cons_of_mem him
        rw [ht, Multiset.map_cons, Multiset.sum_cons]
        omega
      simp only [r', if_pos]
      omega
    · have hjD : j ∉ insert a D := by simp [hja, hj]
      have hia : i ≠ a := fun e => (hi.child hjD hd him).1 (by simp [e])
      rw [hne i hia, hne j hja]
      exact hi.rank j d hjD hd i him
  · intro j d hj hd
    by_cases hja : j = a
    · subst hja
      rw [hc] at hd; cases hd; exact ht
    · exact hi.typed j d (by simp [hja, hj]) hd

end Tg.Heap
