import Verif.Model.Nearest
import Verif.Spec.Nearest
import Mathlib.Data.List.Perm.Basic
import Mathlib.Order.Basic
/-! The priority queue is a binary heap. -/
namespace Tg.S
open Spec

set_option linter.unusedSectionVars false

variable {δ : Type*} [LinearOrder δ]

theorem nqswap_some {ε : Type*} {l : List ε} {i j : Nat} (hi : i < l.length) (hj : j < l.length) :
    ∃ l', nqswap l i j = some l' ∧ l'.Perm l ∧ l'.length = l.length ∧
      ∀ k, l'[k]? = if k = j then l[i]? else if k = i then l[j]? else l[k]? := by
  unfold nqswap
  rw [List.getElem?_eq_getElem hi, List.getElem?_eq_getElem hj]
  refine ⟨_, rfl, List.set_set_perm hi hj, by simp, ?_⟩
  intro k
  rw [List.getElem?_set, List.getElem?_set, List.length_set]
  by_cases h1 : j = k
  · subst h1; simp [hj]
  · by_cases h2 : i = k
    · subst h2; simp [h1, hi, Ne.symm h1]
    · simp [h1, h2, Ne.symm h1, Ne.symm h2]

/-- The key at a place, if there is one, relates to the key at another place. -/
def LeAt (l : List (NEntry δ)) (i j : Nat) : Prop := ∀ a b, l[i]? = some a → l[j]? = some b → a.dist ≤ b.dist

/-- A heap: parents are not greater than their children. -/
def Heap (l : List (NEntry δ)) : Prop := ∀ j, 0 < j → LeAt l ((j - 1) / 2) j

theorem Heap.first {l : List (NEntry δ)} (h : Heap l) : ∀ j, LeAt l 0 j := by
  intro j
  induction j using Nat.strong_induction_on with
  | _ j ih =>
    rcases Nat.eq_zero_or_pos j with rfl | hj
    · intro a b ha hb; rw [ha] at hb; cases hb; exact le_rfl
    · intro a b ha hb
      have hlt : j < l.length := (List.getElem?_eq_some_iff.1 hb).1
      have hp : (j - 1) / 2 < l.length := by omega
      exact (ih _ (by omega) a _ ha (List.getElem?_eq_getElem hp)).trans (h j hj _ _ (List.getElem?_eq_getElem hp) hb)

theorem nqcompare_some {l : List (NEntry δ)} {i j : Nat} (hi : i < l.length) (hj : j < l.length) :
    ∃ c, nqcompare l i j = some c ∧ (c > 0 ↔ l[j].dist < l[i].dist) ∧ (c ≤ 0 ↔ l[i].dist ≤ l[j].dist) := by
  unfold nqcompare
  rw [List.getElem?_eq_getElem hi, List.getElem?_eq_getElem hj]
  dsimp only
  refine ⟨_, rfl, ?_, ?_⟩
  · split_ifs with h1 h2
    · simp [h1.le]
    · simp [h2]
    · simp only [gt_iff_lt, lt_irrefl, false_iff]; exact h2
  · split_ifs with h1 h2
    · simp [h1.le]
    · simpa using h2
    · simpa using h2

/-- The loop of push: if only the place `i` violates the heap property, it is restored. -/
theorem siftUp_ok : ∀ (fuel : Nat) (l : List (NEntry δ)) (i : Nat), i < l.length → i < fuel →
    (∀ j, 0 < j → j ≠ i → LeAt l ((j - 1) / 2) j) →
    (0 < i → ∀ j, 0 < j → (j - 1) / 2 = i → LeAt l ((i - 1) / 2) j) →
    ∃ l', siftUp fuel l i = some l' ∧ l'.Perm l ∧ Heap l'
  | 0, l, i, _, hf, _, _ => by omega
  | fuel + 1, l, i, hi, hf, h1, h2 => by
    rw [siftUp]
    by_cases h0 : i = 0
    · rw [if_pos h0]
      subst h0
      exact ⟨l, rfl, .refl _, fun j hj => h1 j hj (by omega)⟩
    · rw [if_neg h0]
      have hp : (i - 1) / 2 < l.length := by omega
      obtain ⟨c, e1, e2, e3⟩ := nqcompare_some hp hi
      rw [e1]
      dsimp only
      by_cases hc : c > 0
      · rw [if_pos hc]
        obtain ⟨l', g1, g2, g3, g4⟩ := nqswap_some hp hi
        rw [g1]
        dsimp only
        have hlt := e2.1 hc
        obtain ⟨l'', r1, r2, r3⟩ := siftUp_ok fuel l' ((i - 1) / 2) (by omega) (by omega)
          (by
            intro j hj hne a b ha hb
            rw [g4] at ha hb
            by_cases hji : j = i
            · subst hji
              rw [if_neg (by omega), if_pos rfl] at ha
              rw [if_pos rfl] at hb
              rw [List.getElem?_eq_getElem hi] at ha
              rw [List.getElem?_eq_getElem hp] at hb
              cases ha; cases hb
              exact hlt.le
            · rw [if_neg hji, if_neg hne] at hb
              by_cases hpi : (j - 1) / 2 = i
              · rw [if_pos hpi] at ha
                exact h2 (by omega) j hj hpi a b ha hb
              · rw [if_neg hpi] at ha
                by_cases hpp : (j - 1) / 2 = (i - 1) / 2
                · rw [if_pos hpp, List.getElem?_eq_getElem hi] at ha
                  cases ha
                  refine hlt.le.trans (h1 j hj hji _ b ?_ hb)
                  rw [hpp]; exact List.getElem?_eq_getElem hp
                · rw [if_neg hpp] at ha
                  exact h1 j hj hji a b ha hb)
          (by
            intro hpos j hj hjp a b ha hb
            have key : LeAt l (((i - 1) / 2 - 1) / 2) ((i - 1) / 2) := h1 _ hpos (by omega)
            rw [g4, if_neg (by omega), if_neg (by omega)] at ha
            rw [g4] at hb
            by_cases hji : j = i
            · rw [if_pos hji] at hb
              exact key a b ha hb
            · rw [if_neg hji, if_neg (by omega)] at hb
              have := h1 j hj hji
              rw [hjp] at this
              exact (key a _ ha (List.getElem?_eq_getElem hp)).trans (this _ b (List.getElem?_eq_getElem hp) hb))
        exact ⟨l'', r1, r2.trans g2, r3⟩
      · rw [if_neg hc]
        refine ⟨l, rfl, .refl _, fun j hj => ?_⟩
        by_cases hji : j = i
        · subst hji
          intro a b ha hb
          rw [List.getElem?_eq_getElem hp] at ha
          rw [List.getElem?_eq_getElem hi] at hb
          cases ha; cases hb
          exact e3.1 (by omega)
        · exact h1 j hj hji

theorem smaller_ok {l : List (NEntry δ)} {c s : Nat} (hs : s < l.length) :
    ∃ r, smaller l c s = some r ∧ (r = c ∨ r = s) ∧ r < l.length ∧ LeAt l r s ∧ (c < l.length → LeAt l r c) := by
  unfold smaller
  by_cases hc : c < l.length
  · rw [if_pos hc]
    obtain ⟨v, e1, e2, e3⟩ := nqcompare_some hc hs
    rw [e1]
    dsimp only
    refine ⟨_, rfl, ?_⟩
    have cc : ∀ i, LeAt l i i := fun i a b ha hb => by rw [ha] at hb; cases hb; exact le_rfl
    have up : ∀ {i j} (hi : i < l.length) (hj : j < l.length), l[i].dist ≤ l[j].dist → LeAt l i j := by
      intro i j hi hj h a b ha hb
      rw [List.getElem?_eq_getElem hi] at ha
      rw [List.getElem?_eq_getElem hj] at hb
      cases ha; cases hb; exact h
    split_ifs with h
    · exact ⟨Or.inl rfl, hc, up hc hs (e3.1 h), fun _ => cc _⟩
    · exact ⟨Or.inr rfl, hs, cc _, fun _ => up hs hc (e2.1 (by omega)).le⟩
  · rw [if_neg hc]
    exact ⟨s, rfl, Or.inr rfl, hs, fun a b ha hb => by rw [ha] at hb; cases hb; exact le_rfl, fun h => absurd h hc⟩

/-- The loop of pop: if only the children of `i` violate the heap property, it is restored. -/
theorem siftDown_ok : ∀ (fuel : Nat) (l : List (NEntry δ)) (i : Nat), i < l.length → l.length < fuel + i + 1 →
    (∀ j, 0 < j → (j - 1) / 2 ≠ i → LeAt l ((j - 1) / 2) j) →
    (0 < i → ∀ j, 0 < j → (j - 1) / 2 = i → LeAt l ((i - 1) / 2) j) →
    ∃ l', siftDown fuel l i = some l' ∧ l'.Perm l ∧ Heap l'
  | 0, l, i, hi, hf, _, _ => by omega
  | fuel + 1, l, i, hi, hf, h1, h2 => by
    rw [siftDown]
    obtain ⟨s1, a1, a2, a3, a4, a5⟩ := smaller_ok (l := l) (c := i * 2 + 1) hi
    rw [a1]
    dsimp only
    obtain ⟨s, b1, b2, b3, b4, b5⟩ := smaller_ok (l := l) (c := i * 2 + 2) a3
    rw [b1]
    dsimp only
    have trans : ∀ {x y z : Nat}, y < l.length → LeAt l x y → LeAt l y z → LeAt l x z := by
      intro x y z hy h h' a b ha hb
      exact (h a _ ha (List.getElem?_eq_getElem hy)).trans (h' _ b (List.getElem?_eq_getElem hy) hb)
    have hsi : LeAt l s i := trans a3 b4 a4
    have hs1 : i * 2 + 1 < l.length → LeAt l s (i * 2 + 1) := fun h => trans a3 b4 (a5 h)
    have hch : ∀ j, 0 < j → (j - 1) / 2 = i → LeAt l s j := by
      intro j hj hji a b ha hb
      have hlt : j < l.length := (List.getElem?_eq_some_iff.1 hb).1
      rcases (show j = i * 2 + 1 ∨ j = i * 2 + 2 by omega) with e | e
      · subst e; exact hs1 hlt a b ha hb
      · subst e; exact b5 hlt a b ha hb
    by_cases hs : s = i
    · rw [if_pos hs]
      refine ⟨l, rfl, .refl _, fun j hj => ?_⟩
      by_cases hji : (j - 1) / 2 = i
      · rw [hji]
        have := hch j hj hji
        rw [hs] at this
        exact this
      · exact h1 j hj hji
    · rw [if_neg hs]
      have hs' : s = i * 2 + 1 ∨ s = i * 2 + 2 := by
        rcases b2 with h | h
        · exact Or.inr h
        · rcases a2 with h' | h'
          · exact Or.inl (h.trans h')
          · exact absurd (h.trans h') hs
      obtain ⟨l', g1, g2, g3, g4⟩ := nqswap_some b3 hi
      rw [g1]
      dsimp only
      obtain ⟨l'', r1, r2, r3⟩ := siftDown_ok fuel l' s (by omega) (by omega)
        (by
          intro j hj hne a b ha hb
          rw [g4] at ha hb
          by_cases hji : j = i
          · subst hji
            rw [if_neg (by omega), if_neg hne] at ha
            rw [if_pos rfl] at hb
            exact h2 (by omega) s (by omega) (by omega) a b ha hb
          · rw [if_neg hji] at hb
            by_cases hpi : (j - 1) / 2 = i
            · rw [if_pos hpi] at ha
              by_cases hjs : j = s
              · rw [if_pos hjs] at hb
                exact hsi a b ha hb
              · rw [if_neg hjs] at hb
                exact hch j hj hpi a b ha hb
            · rw [if_neg hpi, if_neg hne] at ha
              rw [if_neg (by omega)] at hb
              exact h1 j hj hpi a b ha hb)
        (by
          intro hpos j hj hjs a b ha hb
          rw [g4, if_pos (by omega)] at ha
          rw [g4, if_neg (by omega), if_neg (by omega)] at hb
          have := h1 j hj (by omega)
          rw [hjs] at this
          exact this a b ha hb)
      exact ⟨l'', r1, r2.trans g2, r3⟩

/-- A queue in good state. -/
structure NQueue.Ok (q : NQueue δ) : Prop where
  heap : q.oom = false → Heap q.items
  len : q.items.length ≤ q.cap
  cap : 0 < q.cap

theorem NQueue.init_ok {cap : Nat} (h : 0 < cap) : (NQueue.init cap : NQueue δ).Ok :=
  ⟨fun _ j _ a b ha => by simp [NQueue.init] at ha, by simp [NQueue.init], h⟩

theorem growCap_gt {cap : Nat} (h : 0 < cap) : cap < growCap cap := by
  unfold growCap; split <;> omega

theorem pushItem_ok {items : List (NEntry δ)} {cap : Nat} {e : NEntry δ} (hh : Heap items) (hc : items.length < cap) :
    ∃ q', pushItem items cap e = some q' ∧ q'.Ok ∧ q'.oom = false ∧ q'.items.Perm (e :: items) := by
  unfold pushItem
  rw [if_pos hc]
  obtain ⟨l', h1, h2, h3⟩ := siftUp_ok (items.length + 1) (items ++ [e]) items.length (by simp) (by omega)
    (by
      intro j hj hne a b ha hb
      have hlt : j < (items ++ [e]).length := (List.getElem?_eq_some_iff.1 hb).1
      simp only [List.length_append, List.length_singleton] at hlt
      rw [List.getElem?_append_left (by omega)] at ha hb
      exact hh j hj a b ha hb)
    (by
      intro _ j hj hjp a b ha hb
      have hlt : j < (items ++ [e]).length := (List.getElem?_eq_some_iff.1 hb).1
      simp only [List.length_append, List.length_singleton] at hlt
      omega)
  rw [h1]
  have hp : l'.Perm (e :: items) := h2.trans (List.perm_append_singleton e items)
  exact ⟨_, rfl, ⟨fun _ => h3, by have := hp.length_eq; simp only [List.length_cons] at this; show l'.length ≤ cap; omega, by show 0 < cap; omega⟩, rfl, hp⟩

/-- Push never fails on a queue in good state. Unless it is out of memory it adds the entry. -/
theorem push_ok (alloc : Nat → Bool) {q : NQueue δ} (h : q.Ok) (e : NEntry δ) :
    ∃ q', q.push alloc e = some q' ∧ q'.Ok ∧
      (q.oom = false → q'.oom = false → q'.items.Perm (e :: q.items)) ∧
      (q'.oom = false → q.oom = false) ∧ (q.oom = false → q'.oom = true → ∃ c, alloc c = false) := by
  unfold NQueue.push
  by_cases ho : q.oom = true
  · rw [if_pos ho]
    exact ⟨q, rfl, h, by simp [ho], id, by simp [ho]⟩
  · rw [if_neg ho]
    rw [Bool.not_eq_true] at ho
    by_cases hl : q.items.length = q.cap
    · rw [if_pos hl]
      by_cases ha : alloc (growCap q.cap) = true
      · rw [if_pos ha]
        obtain ⟨q', h1, h2, h3, h4⟩ := pushItem_ok (e := e) (h.heap ho) (show q.items.length < growCap q.cap by
          rw [hl]; exact growCap_gt h.cap)
        exact ⟨q', h1, h2, fun _ _ => h4, fun _ => ho, by simp [h3]⟩
      · rw [if_neg ha]
        exact ⟨_, rfl, ⟨by simp, h.len, h.cap⟩, by simp, fun _ => ho, fun _ _ => ⟨_, by simpa using ha⟩⟩
    · rw [if_neg hl]
      obtain ⟨q', h1, h2, h3, h4⟩ := pushItem_ok (e := e) (h.heap ho) (show q.items.length < q.cap by
        have := h.len; omega)
      exact ⟨q', h1, h2, fun _ _ => h4, fun _ => ho, by simp [h3]⟩

/-- Pop never fails on a queue in good state. It yields a least entry and removes it. -/
theorem pop_ok {q : NQueue δ} (h : q.Ok) :
    ((q.items = [] ∨ q.oom = true) ∧ q.pop = some (none, q)) ∨
    ∃ e q', q.oom = false ∧ q.pop = some (some e, q') ∧ q'.Ok ∧ q'.oom = false ∧ q.items.Perm (e :: q'.items) ∧
      ∀ x ∈ q.items, e.dist ≤ x.dist := by
  unfold NQueue.pop
  by_cases hc : q.items.length = 0 ∨ q.oom = true
  · rw [if_pos hc]
    exact Or.inl ⟨by rcases hc with h | h; exacts [Or.inl (List.length_eq_zero_iff.1 h), Or.inr h], rfl⟩
  · rw [if_neg hc]
    right
    rw [not_or] at hc
    obtain ⟨hlen, ho⟩ := hc
    rw [Bool.not_eq_true] at ho
    have hh := h.heap ho
    have hpos : 0 < q.items.length := by omega
    obtain ⟨l, g1, g2, g3, g4⟩ := nqswap_some (l := q.items) (i := 0) (j := q.items.length - 1) hpos (by omega)
    rw [g1]
    dsimp only
    have hl : l[l.length - 1]? = some q.items[0] := by
      rw [g4, g3, if_pos rfl, List.getElem?_eq_getElem hpos]
    rw [hl]
    -- what the loop needs
    have hsd : ∃ l', siftDown l.length (l.take (l.length - 1)) 0 = some l' ∧ l'.Perm (l.take (l.length - 1)) ∧ Heap l' := by
      rcases Nat.lt_or_ge 1 l.length with h1 | h1
      · refine siftDown_ok l.length _ 0 (by rw [List.length_take]; omega) (by rw [List.length_take]; omega) ?_ (by omega)
        intro j hj hne a b ha hb
        have hlt : j < (l.take (l.length - 1)).length := (List.getElem?_eq_some_iff.1 hb).1
        rw [List.length_take] at hlt
        rw [List.getElem?_take_of_lt (by omega), g4, if_neg (by omega), if_neg (by omega)] at ha hb
        exact hh j hj a b ha hb
      · have e1 : l.length = 1 := by omega
        rw [e1]
        refine ⟨[], ?_, by simp, ?_⟩
        · simp [siftDown, smaller]
        · intro j _ a b ha; simp at ha
    obtain ⟨l', r1, r2, r3⟩ := hsd
    rw [r1]
    have hp : q.items.Perm (q.items[0] :: l') := by
      have e1 : l = l.take (l.length - 1) ++ [q.items[0]] := by
        have h1 := (List.getElem?_eq_some_iff.1 hl).2
        conv_lhs => rw [← List.take_append_drop (l.length - 1) l]
        congr 1
        rw [List.drop_eq_getElem_cons (by omega), h1, List.drop_eq_nil_of_le (by omega)]
      refine g2.symm.trans ?_
      rw [e1]
      refine (List.perm_append_singleton _ _).trans (List.Perm.cons _ r2.symm)
    refine ⟨_, _, ho, rfl, ⟨fun _ => r3, ?_, h.cap⟩, ho, hp, ?_⟩
    · have := hp.length_eq
      simp only [List.length_cons] at this
      have := h.len
      show l'.length ≤ q.cap
      omega
    · intro x hx
      obtain ⟨j, hj, rfl⟩ := List.mem_iff_getElem.1 hx
      exact hh.first j _ _ (List.getElem?_eq_getElem hpos) (List.getElem?_eq_getElem hj)

end Tg.S
