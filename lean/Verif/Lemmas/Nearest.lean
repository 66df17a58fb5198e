import Verif.Lemmas.Queue
import Verif.Lemmas.SeriesNew
import Mathlib.Logic.Hydra
import Mathlib.Data.Multiset.ZeroCons
import Mathlib.Data.Prod.Lex
/-! The nearest segment iteration. -/
namespace Tg.S
open Spec

set_option linter.unusedSectionVars false

variable {α β δ : Type*} [LinearOrder α] [LinearOrder β] [LinearOrder δ]

/-! ### Callbacks -/

theorem Settles.next {g : Int → δ × Int} {m : Int} {n : Nat} {d : δ} (h : Settles g m n d) (h0 : (g m).2 ≠ 0) :
    ∃ k, n = k + 1 ∧ Settles g (g m).2 k d := by
  cases h with
  | now h => exact absurd h h0
  | later _ h => exact ⟨_, rfl, h⟩

theorem Settles.value {g : Int → δ × Int} {m : Int} {n : Nat} {d : δ} (h : Settles g m n d) (h0 : (g m).2 = 0) : d = (g m).1 := by
  cases h with
  | now h => rfl
  | later h _ => exact absurd h0 h

theorem Called.settles {g : Int → δ × Int} {m : Int} {n : Nat} {d : δ} (h : Called g m) (hs : Settles g 0 n d) : ∃ k, Settles g m k d := by
  induction h with
  | first => exact ⟨n, hs⟩
  | again _ h0 ih =>
    obtain ⟨k, hk⟩ := ih
    obtain ⟨k', -, hk'⟩ := Settles.next hk h0
    exact ⟨k', hk'⟩

theorem settles_unique {g : Int → δ × Int} {m : Int} {n n' : Nat} {d d' : δ} (h : Settles g m n d) (h' : Settles g m n' d') : n = n' := by
  induction h generalizing n' with
  | now h0 =>
    cases h' with
    | now _ => rfl
    | later h1 _ => exact absurd h0 h1
  | later h0 _ ih =>
    obtain ⟨k, rfl, hk⟩ := Settles.next h' h0
    rw [ih hk]

/-! ### The segments below an entry -/

/-- The segments of block `i` of `P` segments each. -/
def block (P n i : Nat) : List Nat := List.range' (i * P) (min ((i + 1) * P) n - i * P)

theorem block_flatMap (P n : Nat) : ∀ (c a : Nat), (List.range' a c).flatMap (block P n) = List.range' (a * P) (min ((a + c) * P) n - a * P)
  | 0, a => by
    rw [show min ((a + 0) * P) n - a * P = 0 by rw [Nat.add_zero]; omega]; rfl
  | c + 1, a => by
    rw [List.range'_succ, List.flatMap_cons, block_flatMap P n c (a + 1), block]
    have h1 : a * P ≤ (a + 1) * P := Nat.mul_le_mul_right _ (by omega)
    have h2 : (a + 1) * P ≤ (a + 1 + c) * P := Nat.mul_le_mul_right _ (by omega)
    rw [show a + (c + 1) = a + 1 + c by omega]
    by_cases h : (a + 1) * P ≤ n
    · have e : min ((a + 1 + c) * P) n - a * P = (min ((a + 1) * P) n - a * P) + (min ((a + 1 + c) * P) n - (a + 1) * P) := by omega
      rw [e, ← List.range'_append_1]
      congr 2
      omega
    · rw [show min ((a + 1 + c) * P) n - (a + 1) * P = 0 by omega, show min ((a + 1 + c) * P) n - a * P = min ((a + 1) * P) n - a * P by omega]
      simp

/-- A block splits into the blocks of the level below. -/
theorem block_split {s k n len : Nat} (hs : 2 ≤ s) (hl : len = numKeys s k n) (i : Nat) :
    block (s ^ (k + 1)) n i = (List.range' (i * s) (min (i * s + s) len - i * s)).flatMap (block (s ^ k) n) := by
  rw [block_flatMap, block]
  have e1 : i * s ^ (k + 1) = i * s * s ^ k := by ring
  have e2 : (i + 1) * s ^ (k + 1) = (i * s + s) * s ^ k := by ring
  rw [e1, e2]
  congr 1
  by_cases hc : i * s + s ≤ len
  · rw [show i * s + (min (i * s + s) len - i * s) = i * s + s by omega]
  · have hn : n ≤ len * s ^ k := by rw [← numKeys_le_iff hs]; omega
    by_cases hc2 : i * s ≤ len
    · rw [show i * s + (min (i * s + s) len - i * s) = len by omega]
      have : len * s ^ k ≤ (i * s + s) * s ^ k := Nat.mul_le_mul_right _ (by omega)
      omega
    · have : len * s ^ k ≤ (i * s) * s ^ k := Nat.mul_le_mul_right _ (by omega)
      rw [show i * s + (min (i * s + s) len - i * s) = i * s by omega]
      omega

theorem Levels.get {s n : Nat} {ext : Nat → Option (Rect β)} : ∀ {ls : List (List (Rect β))}, Levels s n ext ls → ∀ {i : Nat} {l : List (Rect β)}, ls[i]? = some l →
    l.length = numKeys s (ls.length - i) n ∧ (∀ l', ls[i + 1]? = some l' → Parent s l l') ∧
    (i + 1 = ls.length → ∀ i r, l[i]? = some r → ∀ j q, i * s ≤ j → j < (i + 1) * s → j < n → ext j = some q → q.Le r)
  | [], _, i, l, h => by simp at h
  | l0 :: ls, ⟨h1, h2, h3⟩, 0, l, h => by
    simp only [List.getElem?_cons_zero, Option.some.injEq] at h
    subst h
    refine ⟨by simpa using h1, ?_, ?_⟩
    · intro l' hl'
      cases ls with
      | nil => simp at hl'
      | cons l1 ls =>
        simp only [zero_add, List.getElem?_cons_succ, List.getElem?_cons_zero, Option.some.injEq] at hl'
        subst hl'
        exact h2
    · intro he
      cases ls with
      | nil => exact h2
      | cons l1 ls => simp at he
  | l0 :: ls, ⟨h1, h2, h3⟩, i + 1, l, h => by
    rw [List.getElem?_cons_succ] at h
    obtain ⟨a, b, c⟩ := Levels.get h3 h
    refine ⟨by simpa using a, fun l' hl' => b l' (by simpa using hl'), fun he => c (by simpa using he)⟩

/-- A search: the index and the callbacks over the segments of a ring. -/
structure NCtx (H : Prop) (f : Ix α β) (ring : Ring α β) (segs : List (Seg α)) (search : Option (Index β × DistFn (Rect α) δ))
    (sd : DistFn (Seg α) δ) : Prop where
  nsegs : ring.nsegs = segs.length
  seg : ∀ i s, segs[i]? = some s → segAt ring.points i = some s
  shape : ∀ ix rd, search = some (ix, rd) → IndexShape segs.length ix
  seg_ends : ∀ s ∈ segs, ∃ n d, Settles (sd s) 0 n d
  rect_ends : ∀ ix rd, search = some (ix, rd) → ∀ r, ∃ n d, Settles (rd r) 0 n d
  seg_grows : H → ∀ s ∈ segs, ∀ m, Called (sd s) m → (sd s m).2 ≠ 0 → (sd s m).1 ≤ (sd s (sd s m).2).1
  rect_grows : H → ∀ ix rd, search = some (ix, rd) → ∀ r m, Called (rd r) m → (rd r m).2 ≠ 0 → (rd r m).1 ≤ (rd r (rd r m).2).1
  rect_rect : H → ∀ ix rd, search = some (ix, rd) → ∀ lvl i j r r', ixRectAt ix lvl i = some r → ixRectAt ix (lvl + 1) j = some r' →
    i * ix.spread ≤ j → j < (i + 1) * ix.spread → ∀ m, Called (rd (f.wideRect r)) m → (rd (f.wideRect r) m).2 = 0 → 
    (rd (f.wideRect r) m).1 ≤ (rd (f.wideRect r') 0).1
  rect_seg : H → ∀ ix rd, search = some (ix, rd) → ∀ i j r s, ixRectAt ix (ix.levels.length - 1) i = some r → segs[j]? = some s →
    i * ix.spread ≤ j → j < (i + 1) * ix.spread → ∀ m, Called (rd (f.wideRect r)) m → (rd (f.wideRect r) m).2 = 0 → 
    (rd (f.wideRect r) m).1 ≤ (sd s 0).1

variable {H : Prop} {f : Ix α β} {ring : Ring α β} {segs : List (Seg α)} {search : Option (Index β × DistFn (Rect α) δ)} {sd : DistFn (Seg α) δ}

/-- An entry that stands for a segment or a rectangle, with the answer of its callback. -/
def EOk (f : Ix α β) (segs : List (Seg α)) (search : Option (Index β × DistFn (Rect α) δ)) (sd : DistFn (Seg α) δ) (e : NEntry δ) : Prop :=
  if e.isRect then ∃ ix rd r m, search = some (ix, rd) ∧ ixRectAt ix e.level e.index = some r ∧ e.level < ix.levels.length ∧
    Called (rd (f.wideRect r)) m ∧ rd (f.wideRect r) m = (e.dist, e.more)
  else ∃ s m, segs[e.index]? = some s ∧ Called (sd s) m ∧ sd s m = (e.dist, e.more)

/-- The segments below an entry. -/
def below (n : Nat) (search : Option (Index β × DistFn (Rect α) δ)) (e : NEntry δ) : List Nat :=
  if e.isRect then
    match search with
    | none => []
    | some (ix, _) => block (ix.spread ^ (ix.levels.length - e.level)) n e.index
  else [e.index]

/-- A weight that gets less. -/
def Wt (f : Ix α β) (segs : List (Seg α)) (search : Option (Index β × DistFn (Rect α) δ)) (sd : DistFn (Seg α) δ) (e : NEntry δ) (w : ℕ ×ₗ ℕ) : Prop :=
  if e.isRect then ∃ ix rd r, search = some (ix, rd) ∧ ixRectAt ix e.level e.index = some r ∧ (ofLex w).1 = ix.levels.length - e.level ∧
    ((e.more = 0 ∧ (ofLex w).2 = 0) ∨ e.more ≠ 0 ∧ ∃ k d, Settles (rd (f.wideRect r)) e.more k d ∧ (ofLex w).2 = k + 1)
  else ∃ s, segs[e.index]? = some s ∧ (ofLex w).1 = 0 ∧
    ((e.more = 0 ∧ (ofLex w).2 = 0) ∨ e.more ≠ 0 ∧ ∃ k d, Settles (sd s) e.more k d ∧ (ofLex w).2 = k + 1)

theorem more_weight {g : Int → δ × Int} {m : Int} (hc : Called g m) {n : Nat} {d : δ} (hs : Settles g 0 n d) :
    ∃ v : Nat, ((g m).2 = 0 ∧ v = 0) ∨ (g m).2 ≠ 0 ∧ ∃ k d, Settles g (g m).2 k d ∧ v = k + 1 := by
  by_cases h0 : (g m).2 = 0
  · exact ⟨0, Or.inl ⟨h0, rfl⟩⟩
  · obtain ⟨k, hk⟩ := Called.settles hc hs
    obtain ⟨k', -, hk'⟩ := Settles.next hk h0
    exact ⟨k' + 1, Or.inr ⟨h0, k', d, hk', rfl⟩⟩

theorem NCtx.weight (c : NCtx H f ring segs search sd) {e : NEntry δ} (h : EOk f segs search sd e) : ∃ w, Wt f segs search sd e w := by
  unfold EOk at h
  unfold Wt
  cases hr : e.isRect with
  | true =>
    simp only [hr, ↓reduceIte] at h ⊢
    obtain ⟨ix, rd, r, m, h1, h2, h3, h4, h5⟩ := h
    obtain ⟨n, d, hs⟩ := c.rect_ends ix rd h1 (f.wideRect r)
    obtain ⟨v, hv⟩ := more_weight h4 hs
    rw [h5] at hv
    exact ⟨toLex (ix.levels.length - e.level, v), ix, rd, r, h1, h2, rfl, hv⟩
  | false =>
    simp only [hr, Bool.false_eq_true, ↓reduceIte] at h ⊢
    obtain ⟨s, m, h1, h2, h3⟩ := h
    obtain ⟨n, d, hs⟩ := c.seg_ends s (List.mem_of_getElem? h1)
    obtain ⟨v, hv⟩ := more_weight h2 hs
    rw [h3] at hv
    exact ⟨toLex (0, v), s, h1, rfl, hv⟩

/-! ### Pushing a range -/

theorem pushRange_ok (alloc : Nat → Bool) {mk : Nat → Option (NEntry δ)} : ∀ (k i : Nat) (q : NQueue δ), q.Ok →
    (∀ j, i ≤ j → j < i + k → ∃ e, mk j = some e) →
    ∃ q', pushRange alloc mk i k q = some q' ∧ q'.Ok ∧
      (q'.oom = false → q.oom = false ∧ q'.items.Perm ((List.range' i k).filterMap mk ++ q.items)) ∧
      (q.oom = false → q'.oom = true → ∃ c, alloc c = false)
  | 0, i, q, hq, _ => ⟨q, rfl, hq, fun h => ⟨h, by simp⟩, fun h h' => by rw [h] at h'; cases h'⟩
  | k + 1, i, q, hq, hmk => by
    rw [pushRange]
    obtain ⟨e, he⟩ := hmk i le_rfl (by omega)
    obtain ⟨q1, a1, a2, a3, a4, a5⟩ := push_ok alloc hq e
    rw [he]
    dsimp only
    rw [a1]
    dsimp only
    obtain ⟨q2, b1, b2, b3, b4⟩ := pushRange_ok alloc k (i + 1) q1 a2 (fun j h1 h2 => hmk j (by omega) (by omega))
    refine ⟨q2, b1, b2, ?_, ?_⟩
    · intro h
      obtain ⟨c1, c2⟩ := b3 h
      refine ⟨a4 c1, ?_⟩
      rw [List.range'_succ, List.filterMap_cons_some he]
      refine c2.trans ?_
      refine (List.Perm.append_left _ (a3 (a4 c1) c1)).trans ?_
      exact List.perm_middle
    · intro h h'
      cases ho : q1.oom with
      | true => exact a5 h ho
      | false => exact b4 ho h'

theorem mem_filterMap_range {mk : Nat → Option (NEntry δ)} {i k : Nat} {e : NEntry δ} (h : e ∈ (List.range' i k).filterMap mk) :
    ∃ j, i ≤ j ∧ j < i + k ∧ mk j = some e := by
  rw [List.mem_filterMap] at h
  obtain ⟨j, h1, h2⟩ := h
  rw [List.mem_range'_1] at h1
  exact ⟨j, h1.1, h1.2, h2⟩

theorem flatMap_filterMap {γ ε : Type*} {mk : Nat → Option ε} {B : ε → List γ} {C : Nat → List γ} : ∀ (k i : Nat),
    (∀ j, i ≤ j → j < i + k → ∃ e, mk j = some e ∧ B e = C j) →
    ((List.range' i k).filterMap mk).flatMap B = (List.range' i k).flatMap C
  | 0, i, _ => rfl
  | k + 1, i, h => by
    obtain ⟨e, h1, h2⟩ := h i le_rfl (by omega)
    rw [List.range'_succ, List.filterMap_cons_some h1, List.flatMap_cons, List.flatMap_cons, h2,
      flatMap_filterMap k (i + 1) (fun j a b => h j (by omega) (by omega))]

theorem NCtx.segEntry_ok (c : NCtx H f ring segs search sd) {j : Nat} (hj : j < segs.length) :
    ∃ s, segs[j]? = some s ∧ segEntry ring.points sd j = some ⟨(sd s 0).1, false, 0, (sd s 0).2, j⟩ := by
  refine ⟨segs[j], List.getElem?_eq_getElem hj, ?_⟩
  rw [segEntry, c.seg j _ (List.getElem?_eq_getElem hj)]

theorem ixRectAt_eq {ix : Index β} {lvl i : Nat} {l : List (Rect β)} (h : ix.levels[lvl]? = some l) : ixRectAt ix lvl i = l[i]? := by
  rw [ixRectAt, h]

theorem rectEntry_ok {ix : Index β} {rd : DistFn (Rect α) δ} {lvl j : Nat} {l : List (Rect β)} (h : ix.levels[lvl]? = some l) (hj : j < l.length) :
    ∃ r, ixRectAt ix lvl j = some r ∧ rectEntry f ix rd lvl j = some ⟨(rd (f.wideRect r) 0).1, true, lvl, (rd (f.wideRect r) 0).2, j⟩ := by
  have e := ixRectAt_eq (i := j) h
  rw [List.getElem?_eq_getElem hj] at e
  refine ⟨l[j], e, ?_⟩
  rw [rectEntry, e]

/-- Pushing what lies below a rectangle whose callback is content. -/
theorem NCtx.pushBelow_ok (c : NCtx H f ring segs search sd) (alloc : Nat → Bool) {q : NQueue δ} (hq : q.Ok) {ix : Index β} {rd : DistFn (Rect α) δ}
    (hs : search = some (ix, rd)) {lvl idx : Nat} {r : Rect β} (hr : ixRectAt ix lvl idx = some r) {m : Int} (hm : Called (rd (f.wideRect r)) m)
    (hm0 : (rd (f.wideRect r) m).2 = 0) :
    ∃ q' es, pushBelow alloc f ring ix rd sd (lvl + 1) (idx * ix.spread) q = some q' ∧ q'.Ok ∧
      (q'.oom = false → q.oom = false ∧ q'.items.Perm (es ++ q.items)) ∧ (q.oom = false → q'.oom = true → ∃ c, alloc c = false) ∧
      es.flatMap (below segs.length search) = block (ix.spread ^ (ix.levels.length - lvl)) segs.length idx ∧
      (∀ e ∈ es, EOk f segs search sd e) ∧ (∀ e ∈ es, ∀ w, Wt f segs search sd e w → (ofLex w).1 < ix.levels.length - lvl) ∧
      (H → ∀ e ∈ es, (rd (f.wideRect r) m).1 ≤ e.dist) := by
  have sh := c.shape ix rd hs
  have hlvl : lvl < ix.levels.length := by
    by_contra hc
    rw [ixRectAt, List.getElem?_eq_none (by omega)] at hr
    cases hr
  unfold pushBelow
  by_cases hl : lvl + 1 = ix.levels.length
  · rw [if_pos hl, c.nsegs]
    obtain ⟨q', a1, a2, a3, a4⟩ := pushRange_ok alloc (mk := segEntry ring.points sd) (min (idx * ix.spread + ix.spread) segs.length - idx * ix.spread)
      (idx * ix.spread) q hq (fun j h1 h2 => by obtain ⟨s, -, h⟩ := c.segEntry_ok (show j < segs.length by omega); exact ⟨_, h⟩)
    refine ⟨q', _, a1, a2, a3, a4, ?_, ?_, ?_, ?_⟩
    · rw [flatMap_filterMap (C := fun j => [j]) _ _ (by
        intro j h1 h2
        obtain ⟨s, -, h⟩ := c.segEntry_ok (show j < segs.length by omega)
        exact ⟨_, h, by simp [below]⟩)]
      rw [show ix.levels.length - lvl = 1 by omega, pow_one, block, show (idx + 1) * ix.spread = idx * ix.spread + ix.spread by ring]
      simp
    · intro e he
      obtain ⟨j, h1, h2, h3⟩ := mem_filterMap_range he
      obtain ⟨s, h, h'⟩ := c.segEntry_ok (show j < segs.length by omega)
      rw [h'] at h3
      cases h3
      simp only [EOk, Bool.false_eq_true, ↓reduceIte]
      exact ⟨s, 0, h, .first, rfl⟩
    · intro e he w hw
      obtain ⟨j, h1, h2, h3⟩ := mem_filterMap_range he
      obtain ⟨s, h, h'⟩ := c.segEntry_ok (show j < segs.length by omega)
      rw [h'] at h3
      cases h3
      simp only [Wt, Bool.false_eq_true, ↓reduceIte] at hw
      obtain ⟨_, _, hw, _⟩ := hw
      omega
    · intro hH e he
      obtain ⟨j, h1, h2, h3⟩ := mem_filterMap_range he
      obtain ⟨s, h, h'⟩ := c.segEntry_ok (show j < segs.length by omega)
      rw [h'] at h3
      cases h3
      refine c.rect_seg hH ix rd hs idx j r s ?_ h h1 ?_ m hm hm0
      · rw [show ix.levels.length - 1 = lvl by omega]; exact hr
      · rw [Nat.add_mul]; omega
  · rw [if_neg hl]
    have hlt : lvl + 1 < ix.levels.length := by omega
    have hget := List.getElem?_eq_getElem hlt
    rw [hget]
    dsimp only
    obtain ⟨hlen, -, -⟩ := sh.levels.get hget
    obtain ⟨q', a1, a2, a3, a4⟩ := pushRange_ok alloc (mk := rectEntry f ix rd (lvl + 1)) 
      (min (idx * ix.spread + ix.spread) ix.levels[lvl + 1].length - idx * ix.spread)
      (idx * ix.spread) q hq (fun j h1 h2 => by obtain ⟨s, -, h⟩ := rectEntry_ok (f := f) (rd := rd) hget (show j < _ by omega); exact ⟨_, h⟩)
    refine ⟨q', _, a1, a2, a3, a4, ?_, ?_, ?_, ?_⟩
    · rw [flatMap_filterMap (C := block (ix.spread ^ (ix.levels.length - (lvl + 1))) segs.length) _ _ (by
        intro j h1 h2
        obtain ⟨s, -, h⟩ := rectEntry_ok (f := f) (rd := rd) hget (show j < _ by omega)
        exact ⟨_, h, by simp [below, hs]⟩)]
      rw [← block_split sh.spread hlen, show ix.levels.length - (lvl + 1) + 1 = ix.levels.length - lvl by omega]
    · intro e he
      obtain ⟨j, h1, h2, h3⟩ := mem_filterMap_range he
      obtain ⟨r', h, h'⟩ := rectEntry_ok (f := f) (rd := rd) hget (show j < _ by omega)
      rw [h'] at h3
      cases h3
      simp only [EOk, ↓reduceIte]
      exact ⟨ix, rd, r', 0, hs, h, hlt, .first, rfl⟩
    · intro e he w hw
      obtain ⟨j, h1, h2, h3⟩ := mem_filterMap_range he
      obtain ⟨r', h, h'⟩ := rectEntry_ok (f := f) (rd := rd) hget (show j < _ by omega)
      rw [h'] at h3
      cases h3
      simp only [Wt, ↓reduceIte] at hw
      obtain ⟨ix', rd', _, hs', _, hw, _⟩ := hw
      rw [hs] at hs'
      cases hs'
      omega
    · intro hH e he
      obtain ⟨j, h1, h2, h3⟩ := mem_filterMap_range he
      obtain ⟨r', h, h'⟩ := rectEntry_ok (f := f) (rd := rd) hget (show j < _ by omega)
      rw [h'] at h3
      cases h3
      refine c.rect_rect hH ix rd hs lvl idx j r r' hr h h1 ?_ m hm hm0
      rw [Nat.add_mul]; omega

/-! ### The loop -/

universe u

/-- What the loop does with a queue from which the segments `R` are still to come: it delivers `l`, and `rest` is lost if memory ran out. -/
structure Delivers (H : Prop) (alloc : Nat → Bool) (f : Ix α β) (ring : Ring α β) (segs : List (Seg α)) (search : Option (Index β × DistFn (Rect α) δ))
    (sd : DistFn (Seg α) δ) (q : NQueue δ) (R : List Nat) (l : List (Seg α × δ × Nat)) (done : Bool) (rest : List Nat) (N : Nat) : Prop where
  perm : R.Perm (l.map (fun x => x.2.2) ++ rest)
  done_rest : done = true → rest = []
  failed : done = false → ∃ c, alloc c = false
  seg : ∀ x ∈ l, segs[x.2.2]? = some x.1 ∧ ∃ n, Settles (sd x.1) 0 n x.2.1
  low : H → ∀ d, (q.oom = false → ∀ e ∈ q.items, d ≤ e.dist) → ∀ x ∈ l, d ≤ x.2.1
  sorted : H → l.Pairwise (fun a b => a.2.1 ≤ b.2.1)
  run : ∀ (σ : Type u) (iter : Seg α → δ → Nat → σ → σ × Bool) (st : σ) (fuel : Nat), N ≤ fuel →
    nearestLoop alloc f ring search sd iter fuel q st =
      some ((deliver (fun x : Seg α × δ × Nat => iter x.1 x.2.1 x.2.2) l st).1, (deliver (fun x : Seg α × δ × Nat => iter x.1 x.2.1 x.2.2) l st).2 && !done)

theorem Delivers.oom {alloc : Nat → Bool} {q : NQueue δ} (R : List Nat) (hq : q.Ok) (ho : q.oom = true) (hf : ∃ c, alloc c = false) :
    Delivers.{u} H alloc f ring segs search sd q R [] false R 1 := by
  refine ⟨by simp, by simp, fun _ => hf, by simp, by simp, by simp, ?_⟩
  intro σ iter st fuel hfuel
  obtain ⟨k, rfl⟩ : ∃ k, fuel = k + 1 := ⟨fuel - 1, by omega⟩
  rcases pop_ok hq with ⟨-, h⟩ | ⟨e, q', h, -⟩
  · rw [nearestLoop, h]; simp [deliver, ho]
  · rw [ho] at h; cases h

theorem Delivers.empty {alloc : Nat → Bool} {q : NQueue δ} (hq : q.Ok) (ho : q.oom = false) (hi : q.items = []) :
    Delivers.{u} H alloc f ring segs search sd q [] [] true [] 1 := by
  refine ⟨by simp, by simp, by simp, by simp, by simp, by simp, ?_⟩
  intro σ iter st fuel hfuel
  obtain ⟨k, rfl⟩ : ∃ k, fuel = k + 1 := ⟨fuel - 1, by omega⟩
  rcases pop_ok hq with ⟨-, h⟩ | ⟨e, q', -, -, -, -, h, -⟩
  · rw [nearestLoop, h]; simp [deliver, ho]
  · rw [hi] at h; simp at h

/-- One step that delivers nothing. -/
theorem Delivers.step {alloc : Nat → Bool} {q q' : NQueue δ} {R : List Nat} {l : List (Seg α × δ × Nat)} {done : Bool} {rest : List Nat} {N : Nat}
    (h : Delivers.{u} H alloc f ring segs search sd q' R l done rest N) 
    (hlow : H → ∀ d, (q.oom = false → ∀ e ∈ q.items, d ≤ e.dist) → q'.oom = false → ∀ e ∈ q'.items, d ≤ e.dist)
    (hrun : ∀ (σ : Type u) (iter : Seg α → δ → Nat → σ → σ × Bool) (st : σ) (fuel : Nat),
      nearestLoop alloc f ring search sd iter (fuel + 1) q st = nearestLoop alloc f ring search sd iter fuel q' st) :
    Delivers.{u} H alloc f ring segs search sd q R l done rest (N + 1) := by
  refine ⟨h.perm, h.done_rest, h.failed, h.seg, fun hH d hd => h.low hH d (hlow hH d hd), h.sorted, ?_⟩
  intro σ iter st fuel hfuel
  obtain ⟨k, rfl⟩ : ∃ k, fuel = k + 1 := ⟨fuel - 1, by omega⟩
  rw [hrun, h.run σ iter st k (by omega)]

theorem wt_lt_of_fst {a b : ℕ ×ₗ ℕ} (h : (ofLex a).1 < (ofLex b).1) : a < b := Prod.Lex.lt_iff.2 (Or.inl h)

theorem wt_lt_of_snd {a b : ℕ ×ₗ ℕ} (h : (ofLex a).1 = (ofLex b).1) (h' : (ofLex a).2 < (ofLex b).2) : a < b := Prod.Lex.lt_iff.2 (Or.inr ⟨h, h'⟩)

theorem NCtx.weights (c : NCtx H f ring segs search sd) : ∀ (es : List (NEntry δ)), (∀ e ∈ es, EOk f segs search sd e) →
    ∃ W : Multiset (ℕ ×ₗ ℕ), Multiset.Rel (Wt f segs search sd) es W ∧ ∀ w ∈ W, ∃ e ∈ es, Wt f segs search sd e w
  | [], _ => ⟨0, Multiset.Rel.zero, by simp⟩
  | e :: es, h => by
    obtain ⟨W, h1, h2⟩ := c.weights es (fun x hx => h x (List.mem_cons_of_mem _ hx))
    obtain ⟨w, hw⟩ := c.weight (h e (List.mem_cons_self ..))
    refine ⟨w ::ₘ W, Multiset.Rel.cons hw h1, ?_⟩
    intro x hx
    rw [Multiset.mem_cons] at hx
    rcases hx with rfl | hx
    · exact ⟨e, List.mem_cons_self .., hw⟩
    · obtain ⟨e', h3, h4⟩ := h2 x hx
      exact ⟨e', List.mem_cons_of_mem _ h3, h4⟩

/-- What is known about the queue between two rounds of the loop. -/
def QOk (f : Ix α β) (segs : List (Seg α)) (search : Option (Index β × DistFn (Rect α) δ)) (sd : DistFn (Seg α) δ) (q : NQueue δ) (R : List Nat)
    (W : Multiset (ℕ ×ₗ ℕ)) : Prop :=
  (∀ e ∈ q.items, EOk f segs search sd e) ∧ Multiset.Rel (Wt f segs search sd) q.items W ∧ R.Perm (q.items.flatMap (below segs.length search))

theorem NCtx.loop_ok (c : NCtx H f ring segs search sd) (alloc : Nat → Bool) (W : Multiset (ℕ ×ₗ ℕ)) : ∀ (q : NQueue δ) (R : List Nat), q.Ok →
    (q.oom = true → ∃ c, alloc c = false) → (q.oom = false → QOk f segs search sd q R W) →
    ∃ l done rest N, Delivers.{u} H alloc f ring segs search sd q R l done rest N := by
  induction W using (show WellFounded (Relation.CutExpand (α := ℕ ×ₗ ℕ) (· < ·)) from wellFounded_lt.cutExpand).induction with
  | _ W ih =>
  intro q R hq hoom hok
  rcases pop_ok hq with ⟨h | h, hpop⟩ | ⟨e, q1, ho, hpop, hq1, ho1, hperm, hmin⟩
  · cases ho : q.oom with
    | true => exact ⟨_, _, _, _, Delivers.oom R hq ho (hoom ho)⟩
    | false =>
      obtain ⟨-, -, h3⟩ := hok ho
      rw [h, List.flatMap_nil, List.perm_nil] at h3
      subst h3
      exact ⟨_, _, _, _, Delivers.empty hq ho h⟩
  · exact ⟨_, _, _, _, Delivers.oom R hq h (hoom h)⟩
  · obtain ⟨k1, k2, k3⟩ := hok ho
    have ke : EOk f segs search sd e := k1 e (hperm.mem_iff.2 (List.mem_cons_self ..))
    have k1' : ∀ x ∈ q1.items, EOk f segs search sd x := fun x hx => k1 x (hperm.mem_iff.2 (List.mem_cons_of_mem _ hx))
    have hle : ∀ x ∈ q1.items, e.dist ≤ x.dist := fun x hx => hmin x (hperm.mem_iff.2 (List.mem_cons_of_mem _ hx))
    have hR : R.Perm (below segs.length search e ++ q1.items.flatMap (below segs.length search)) := by
      refine k3.trans ?_
      have := hperm.flatMap_right (f := below segs.length search)
      rwa [List.flatMap_cons] at this
    have hW : ∃ w W1, Wt f segs search sd e w ∧ Multiset.Rel (Wt f segs search sd) q1.items W1 ∧ W = w ::ₘ W1 := by
      have : (q.items : Multiset (NEntry δ)) = e ::ₘ (q1.items : Multiset (NEntry δ)) := by
        rw [Multiset.cons_coe]; exact Multiset.coe_eq_coe.2 hperm
      rw [this, Multiset.rel_cons_left] at k2
      exact k2
    obtain ⟨w, W1, hw, hW1, rfl⟩ := hW
    have hcut : ∀ T : Multiset (ℕ ×ₗ ℕ), (∀ x ∈ T, x < w) → Relation.CutExpand (· < ·) (T + W1) (w ::ₘ W1) := by
      intro T hT
      rw [← Multiset.singleton_add, Relation.cutExpand_add_right]
      exact Relation.cutExpand_singleton hT
    -- a step that replaces the entry by others
    have replace : ∀ (q2 : NQueue δ) (es : List (NEntry δ)), q2.Ok → (q2.oom = false → q2.items.Perm (es ++ q1.items)) →
        (q2.oom = true → ∃ c, alloc c = false) → es.flatMap (below segs.length search) = below segs.length search e →
        (∀ x ∈ es, EOk f segs search sd x) → (∀ x ∈ es, ∀ v, Wt f segs search sd x v → v < w) → (H → ∀ x ∈ es, e.dist ≤ x.dist) →
        (∀ (σ : Type u) (iter : Seg α → δ → Nat → σ → σ × Bool) (st : σ) (fuel : Nat),
          nearestLoop alloc f ring search sd iter (fuel + 1) q st = nearestLoop alloc f ring search sd iter fuel q2 st) →
        ∃ l done rest N, Delivers.{u} H alloc f ring segs search sd q R l done rest N := by
      intro q2 es hq2 hp2 hoom2 hb hes hwt hgr hrun
      obtain ⟨T, hT1, hT2⟩ := c.weights es hes
      have hlow : H → ∀ d, (q.oom = false → ∀ x ∈ q.items, d ≤ x.dist) → q2.oom = false → ∀ x ∈ q2.items, d ≤ x.dist := by
        intro hH d hd ho2 x hx
        have hde : d ≤ e.dist := hd ho e (hperm.mem_iff.2 (List.mem_cons_self ..))
        rcases List.mem_append.1 ((hp2 ho2).mem_iff.1 hx) with h | h
        · exact hde.trans (hgr hH x h)
        · exact hde.trans (hle x h)
      obtain ⟨l, done, rest, N, hd⟩ := ih (T + W1) (hcut T (fun x hx => by
          obtain ⟨y, hy1, hy2⟩ := hT2 x hx
          exact hwt y hy1 x hy2)) q2 R hq2 hoom2 (fun ho2 => by
          refine ⟨?_, ?_, ?_⟩
          · intro x hx
            rcases List.mem_append.1 ((hp2 ho2).mem_iff.1 hx) with h | h
            · exact hes x h
            · exact k1' x h
          · have : (q2.items : Multiset (NEntry δ)) = (es : Multiset (NEntry δ)) + q1.items := by
              rw [Multiset.coe_add]; exact Multiset.coe_eq_coe.2 (hp2 ho2)
            rw [this]
            exact Multiset.Rel.add hT1 hW1
          · refine hR.trans ?_
            have := (hp2 ho2).flatMap_right (f := below segs.length search)
            rw [List.flatMap_append, hb] at this
            exact this.symm)
      exact ⟨l, done, rest, N + 1, hd.step hlow hrun⟩
    cases hr : e.isRect with
    | true =>
      have ke' := ke
      simp only [EOk, hr, ↓reduceIte] at ke'
      obtain ⟨ix, rd, r, m, e1, e2, e3, e4, e5⟩ := ke'
      have hw' := hw
      simp only [Wt, hr, ↓reduceIte] at hw'
      obtain ⟨ix', rd', r', w1, w2, w3, w4⟩ := hw'
      rw [e1] at w1
      cases w1
      rw [e2] at w2
      cases w2
      by_cases hm : e.more = 0
      · obtain ⟨q2, es, a1, a2, a3, a4, a5, a6, a7, a8⟩ := c.pushBelow_ok alloc hq1 e1 e2 e4 (by rw [e5]; exact hm)
        refine replace q2 es a2 (fun h => (a3 h).2) (fun h => a4 ho1 h) ?_ a6 ?_ ?_ ?_
        · rw [a5]; simp [below, hr, e1]
        · intro x hx v hv
          exact wt_lt_of_fst (by rw [w3]; exact a7 x hx v hv)
        · intro hH x hx
          have := a8 hH x hx
          rwa [e5] at this
        · intro σ iter st fuel
          rw [nearestLoop, hpop]
          simp only [hr, ↓reduceIte, e1, hm, ne_eq, not_true_eq_false]
          rw [← e1, a1]
      · obtain ⟨q2, a1, a2, a3, a4, a5⟩ := push_ok alloc hq1 
          { e with dist := (rd (f.wideRect r) e.more).1, more := (rd (f.wideRect r) e.more).2 }
        have hne : (rd (f.wideRect r) m).2 ≠ 0 := by rw [e5]; exact hm
        have hcall : Called (rd (f.wideRect r)) e.more := by
          have := Called.again e4 hne
          rwa [e5] at this
        refine replace q2 [_] a2 (fun h => a3 ho1 h) (fun h => a5 ho1 h) ?_ ?_ ?_ ?_ ?_
        · simp [below, hr, e1]
        · intro x hx
          rw [List.mem_singleton] at hx
          subst hx
          simp only [EOk, hr, ↓reduceIte]
          exact ⟨ix, rd, r, e.more, e1, e2, e3, hcall, rfl⟩
        · intro x hx v hv
          rw [List.mem_singleton] at hx
          subst hx
          simp only [Wt, hr, ↓reduceIte] at hv
          obtain ⟨ix', rd', r', v1, v2, v3, v4⟩ := hv
          rw [e1] at v1
          cases v1
          rw [e2] at v2
          cases v2
          refine wt_lt_of_snd (by rw [v3, w3]) ?_
          rcases w4 with ⟨w4, -⟩ | ⟨-, k, d, w4, w5⟩
          · exact absurd w4 hm
          · rw [w5]
            rcases v4 with ⟨v4, v5⟩ | ⟨v4, k', d', v5, v6⟩
            · omega
            · obtain ⟨k'', z1, z2⟩ := Settles.next w4 v4
              have := settles_unique v5 z2
              omega
        · intro hH x hx
          rw [List.mem_singleton] at hx
          subst hx
          have := c.rect_grows hH ix rd e1 _ m e4 hne
          rwa [e5] at this
        · intro σ iter st fuel
          rw [nearestLoop, hpop]
          simp only [hr, ↓reduceIte, e1, hm, ne_eq, not_false_eq_true, e2]
          rw [hr] at a1
          rw [← e1, a1]
    | false =>
      have ke' := ke
      simp only [EOk, hr, Bool.false_eq_true, ↓reduceIte] at ke'
      obtain ⟨s, m, e2, e4, e5⟩ := ke'
      have hw' := hw
      simp only [Wt, hr, Bool.false_eq_true, ↓reduceIte] at hw'
      obtain ⟨s', w2, w3, w4⟩ := hw'
      rw [e2] at w2
      cases w2
      have hseg := c.seg _ _ e2
      have hsm : s ∈ segs := List.mem_of_getElem? e2
      by_cases hm : e.more = 0
      · -- delivered
        obtain ⟨l, done, rest, N, hd⟩ := ih (0 + W1) (hcut 0 (by simp)) q1 (q1.items.flatMap (below segs.length search)) hq1
          (by simp [ho1]) (fun _ => ⟨k1', by rw [zero_add]; exact hW1, .refl _⟩)
        obtain ⟨n, d, hset⟩ := c.seg_ends s hsm
        obtain ⟨k, hk⟩ := Called.settles e4 hset
        have hdist : d = e.dist := by rw [Settles.value hk (by rw [e5]; exact hm), e5]
        subst hdist
        refine ⟨(s, e.dist, e.index) :: l, done, rest, N + 1, ?_, hd.done_rest, hd.failed, ?_, ?_, ?_, ?_⟩
        · refine hR.trans ?_
          simp only [below, hr, Bool.false_eq_true, ↓reduceIte, List.map_cons, List.cons_append, List.nil_append]
          exact List.Perm.cons _ hd.perm
        · intro x hx
          rcases List.mem_cons.1 hx with rfl | hx
          · exact ⟨e2, n, hset⟩
          · exact hd.seg x hx
        · intro hH d' hd' x hx
          have hde : d' ≤ e.dist := hd' ho e (hperm.mem_iff.2 (List.mem_cons_self ..))
          rcases List.mem_cons.1 hx with rfl | hx
          · exact hde
          · exact hd.low hH d' (fun _ y hy => hde.trans (hle y hy)) x hx
        · intro hH
          exact List.pairwise_cons.2 ⟨fun x hx => hd.low hH e.dist (fun _ y hy => hle y hy) x hx, hd.sorted hH⟩
        · intro σ iter st fuel hfuel
          obtain ⟨k, rfl⟩ : ∃ k, fuel = k + 1 := ⟨fuel - 1, by omega⟩
          rw [nearestLoop, hpop]
          simp only [hr, Bool.false_eq_true, ↓reduceIte, hseg, hm, ne_eq, not_true_eq_false]
          rw [deliver]
          rcases hi : iter s e.dist e.index st with ⟨st', b⟩
          cases b with
          | true => simpa using hd.run σ iter st' k (by omega)
          | false => simp [ho1]
      · obtain ⟨q2, a1, a2, a3, a4, a5⟩ := push_ok alloc hq1 { e with dist := (sd s e.more).1, more := (sd s e.more).2 }
        have hne : (sd s m).2 ≠ 0 := by rw [e5]; exact hm
        have hcall : Called (sd s) e.more := by
          have := Called.again e4 hne
          rwa [e5] at this
        refine replace q2 [_] a2 (fun h => a3 ho1 h) (fun h => a5 ho1 h) ?_ ?_ ?_ ?_ ?_
        · simp [below, hr]
        · intro x hx
          rw [List.mem_singleton] at hx
          subst hx
          simp only [EOk, hr, Bool.false_eq_true, ↓reduceIte]
          exact ⟨s, e.more, e2, hcall, rfl⟩
        · intro x hx v hv
          rw [List.mem_singleton] at hx
          subst hx
          simp only [Wt, hr, Bool.false_eq_true, ↓reduceIte] at hv
          obtain ⟨s', v2, v3, v4⟩ := hv
          rw [e2] at v2
          cases v2
          refine wt_lt_of_snd (by rw [v3, w3]) ?_
          rcases w4 with ⟨w4, -⟩ | ⟨-, k, d, w4, w5⟩
          · exact absurd w4 hm
          · rw [w5]
            rcases v4 with ⟨v4, v5⟩ | ⟨v4, k', d', v5, v6⟩
            · omega
            · obtain ⟨k'', z1, z2⟩ := Settles.next w4 v4
              have := settles_unique v5 z2
              omega
        · intro hH x hx
          rw [List.mem_singleton] at hx
          subst hx
          have := c.seg_grows hH s hsm m e4 hne
          rwa [e5] at this
        · intro σ iter st fuel
          rw [nearestLoop, hpop]
          simp only [hr, Bool.false_eq_true, ↓reduceIte, hseg, hm, ne_eq, not_false_eq_true]
          rw [hr] at a1
          rw [a1]

/-- The first entries. -/
theorem NCtx.start_ok (c : NCtx H f ring segs search sd) (alloc : Nat → Bool) {q : NQueue δ} (hq : q.Ok) (hi : q.items = []) (ho : q.oom = false) :
    ∃ q', nearestStart alloc f ring search sd q = some q' ∧ q'.Ok ∧ (q'.oom = true → ∃ c, alloc c = false) ∧
      (q'.oom = false → ∃ W, QOk f segs search sd q' (List.range segs.length) W) := by
  have fin : ∀ (q' : NQueue δ) (es : List (NEntry δ)), q'.items.Perm (es ++ q.items) → es.flatMap (below segs.length search) = List.range segs.length →
      (∀ x ∈ es, EOk f segs search sd x) → ∃ W, QOk f segs search sd q' (List.range segs.length) W := by
    intro q' es hp hb hes
    rw [hi, List.append_nil] at hp
    obtain ⟨W, hW, -⟩ := c.weights es hes
    refine ⟨W, fun x hx => hes x (hp.mem_iff.1 hx), ?_, ?_⟩
    · rw [Multiset.coe_eq_coe.2 hp]; exact hW
    · rw [← hb]; exact (hp.flatMap_right (f := below segs.length search)).symm
  unfold nearestStart
  match hs : search with
  | none =>
    dsimp only
    rw [c.nsegs]
    obtain ⟨q', a1, a2, a3, a4⟩ := pushRange_ok alloc (mk := segEntry ring.points sd) segs.length 0 q hq
      (fun j h1 h2 => by obtain ⟨s, -, h⟩ := c.segEntry_ok (show j < segs.length by omega); exact ⟨_, h⟩)
    refine ⟨q', a1, a2, a4 ho, fun h => fin q' _ (a3 h).2 ?_ ?_⟩
    · rw [flatMap_filterMap (C := fun j => [j]) _ _ (by
        intro j h1 h2
        obtain ⟨s, -, h⟩ := c.segEntry_ok (show j < segs.length by omega)
        exact ⟨_, h, by simp [below]⟩)]
      simp [List.range_eq_range']
    · intro e he
      obtain ⟨j, h1, h2, h3⟩ := mem_filterMap_range he
      obtain ⟨s, h, h'⟩ := c.segEntry_ok (show j < segs.length by omega)
      rw [h'] at h3
      cases h3
      simp only [EOk, Bool.false_eq_true, ↓reduceIte]
      exact ⟨s, 0, h, .first, rfl⟩
  | some (ix, rd) =>
    dsimp only
    have sh := c.shape ix rd rfl
    have h0 : 0 < ix.levels.length := List.length_pos_iff.2 sh.nonempty
    have hget := List.getElem?_eq_getElem h0
    rw [hget]
    dsimp only
    obtain ⟨hlen, -, -⟩ := sh.levels.get hget
    obtain ⟨q', a1, a2, a3, a4⟩ := pushRange_ok alloc (mk := rectEntry f ix rd 0) ix.levels[0].length 0 q hq
      (fun j h1 h2 => by obtain ⟨s, -, h⟩ := rectEntry_ok (f := f) (rd := rd) hget (show j < _ by omega); exact ⟨_, h⟩)
    refine ⟨q', a1, a2, a4 ho, fun h => fin q' _ (a3 h).2 ?_ ?_⟩
    · rw [flatMap_filterMap (C := block (ix.spread ^ ix.levels.length) segs.length) _ _ (by
        intro j h1 h2
        obtain ⟨s, -, h⟩ := rectEntry_ok (f := f) (rd := rd) hget (show j < _ by omega)
        exact ⟨_, h, by simp [below]⟩)]
      rw [block_flatMap, List.range_eq_range', Nat.zero_mul, Nat.zero_add, Nat.sub_zero]
      congr 1
      rw [Nat.sub_zero] at hlen
      have : segs.length ≤ ix.levels[0].length * ix.spread ^ ix.levels.length := by
        rw [← numKeys_le_iff sh.spread]; omega
      omega
    · intro e he
      obtain ⟨j, h1, h2, h3⟩ := mem_filterMap_range he
      obtain ⟨r', h, h'⟩ := rectEntry_ok (f := f) (rd := rd) hget (show j < _ by omega)
      rw [h'] at h3
      cases h3
      simp only [EOk, ↓reduceIte]
      exact ⟨ix, rd, r', 0, rfl, h, h0, .first, rfl⟩

/-- The whole iteration. -/
theorem NCtx.nearest_ok (c : NCtx H f ring segs search sd) (alloc : Nat → Bool) :
    ∃ q l done rest N, nearestStart alloc f ring search sd (NQueue.init 256) = some q ∧
      Delivers.{u} H alloc f ring segs search sd q (List.range segs.length) l done rest N := by
  obtain ⟨q, h1, h2, h3, h4⟩ := c.start_ok alloc (NQueue.init_ok (show 0 < 256 by omega)) rfl rfl
  cases ho : q.oom with
  | true =>
    exact ⟨q, _, _, _, _, h1, Delivers.oom _ h2 ho (h3 ho)⟩
  | false =>
    obtain ⟨W, hW⟩ := h4 ho
    obtain ⟨l, done, rest, N, hd⟩ := c.loop_ok alloc W q _ h2 h3 (fun _ => hW)
    exact ⟨q, l, done, rest, N, h1, hd⟩

end Tg.S
