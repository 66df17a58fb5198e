import Verif.Lemmas.Jordan
/-! The first point of a boundary along a segment, and regions of two closed chains that have a point in common. -/
set_option linter.unusedSectionVars false
namespace Tg.S

variable {K : Type*} [Field K] [LinearOrder K] [IsStrictOrderedRing K] [FloorRing K]

/-- The least solution of `c.2 ≤ c.1 * t` for all `c`. -/
def least : List (K × K) → K
  | [] => 0
  | c :: cs => if 0 < c.1 then max (c.2 / c.1) (least cs) else least cs

theorem least_nonneg : ∀ cs : List (K × K), 0 ≤ least cs
  | [] => le_rfl
  | c :: cs => by
    rw [least]
    split_ifs
    · exact (least_nonneg cs).trans (le_max_right _ _)
    · exact least_nonneg cs

theorem least_le : ∀ {cs : List (K × K)} {t : K}, 0 ≤ t → (∀ c ∈ cs, c.2 ≤ c.1 * t) → least cs ≤ t
  | [], _, h, _ => h
  | c :: cs, t, h, hc => by
    have ih := least_le (cs := cs) h fun d hd => hc d (by simp [hd])
    rw [least]
    split_ifs with h0
    · refine max_le ((div_le_iff₀ h0).2 ?_) ih
      rw [mul_comm]
      exact hc c (by simp)
    · exact ih

theorem le_least : ∀ {cs : List (K × K)} {c : K × K}, c ∈ cs → 0 < c.1 → c.2 ≤ c.1 * least cs
  | d :: cs, c, h, h0 => by
    rw [least]
    rcases List.mem_cons.1 h with rfl | h
    · rw [if_pos h0]
      have := (div_le_iff₀ h0).1 (le_max_left (c.2 / c.1) (least cs))
      rw [mul_comm] at this
      exact this
    · have ih := le_least h h0
      split_ifs
      · exact ih.trans (mul_le_mul_of_nonneg_left (le_max_right _ _) h0.le)
      · exact ih

theorem least_solves {cs : List (K × K)} {t : K} (h : 0 ≤ t) (hc : ∀ c ∈ cs, c.2 ≤ c.1 * t) : ∀ c ∈ cs, c.2 ≤ c.1 * least cs := by
  intro c hm
  rcases lt_or_ge 0 c.1 with h0 | h0
  · exact le_least hm h0
  · have := mul_le_mul_of_nonpos_left (least_le h hc) h0
    exact (hc c hm).trans this

/-- The point of the segment from `z` to `w` at a parameter. -/
def along (z w : Pt K) (t : K) : Pt K := ⟨z.x + t * (w.x - z.x), z.y + t * (w.y - z.y)⟩

theorem along_on (z w : Pt K) {t : K} (h0 : 0 ≤ t) (h1 : t ≤ 1) : OnSeg ⟨z, w⟩ (along z w t) := ⟨t, h0, h1, rfl, rfl⟩

/-- The first parameter at which the segment meets an edge. -/
theorem first_edge (e : Seg K) (z w : Pt K) (h : ∃ t, 0 ≤ t ∧ t ≤ 1 ∧ OnSeg e (along z w t)) :
    ∃ t, 0 ≤ t ∧ t ≤ 1 ∧ OnSeg e (along z w t) ∧ ∀ r, 0 ≤ r → r ≤ 1 → OnSeg e (along z w r) → t ≤ r := by
  let c := (w.x - z.x) * (e.b.y - e.a.y) - (e.b.x - e.a.x) * (w.y - z.y)
  let d := (e.b.x - e.a.x) * (z.y - e.a.y) - (z.x - e.a.x) * (e.b.y - e.a.y)
  let cs : List (K × K) := [(w.x - z.x, e.rect.lo.x - z.x), (-(w.x - z.x), z.x - e.rect.hi.x), (w.y - z.y, e.rect.lo.y - z.y),
    (-(w.y - z.y), z.y - e.rect.hi.y), (c, d), (-c, -d), (-1, -1)]
  have key : ∀ t : K, (∀ x ∈ cs, x.2 ≤ x.1 * t) ↔ t ≤ 1 ∧ OnSeg e (along z w t) := by
    intro t
    rw [onSeg_iff, Rect.Has]
    simp only [cs, c, d, List.forall_mem_cons, List.not_mem_nil, false_imp_iff, implies_true, and_true, along]
    constructor
    · rintro ⟨h1, h2, h3, h4, h5, h6, h7⟩
      refine ⟨by linarith, ⟨by linarith, by linarith, by linarith, by linarith⟩, ?_⟩
      apply le_antisymm <;> nlinarith
    · rintro ⟨h7, ⟨h1, h2, h3, h4⟩, h5⟩
      refine ⟨by linarith, by linarith, by linarith, by linarith, ?_, ?_, by linarith⟩ <;> nlinarith
  obtain ⟨t, t0, t1, ht⟩ := h
  have hf := (key t).2 ⟨t1, ht⟩
  obtain ⟨k1, k2⟩ := (key (least cs)).1 (least_solves t0 hf)
  exact ⟨least cs, least_nonneg cs, k1, k2, fun r r0 r1 hr => least_le r0 ((key r).2 ⟨r1, hr⟩)⟩

/-- The first parameter at which the segment meets the boundary. -/
theorem first_boundary (z w : Pt K) : ∀ es : List (Seg K), (∃ t, 0 ≤ t ∧ t ≤ 1 ∧ OnBoundary es (along z w t)) →
    ∃ t, 0 ≤ t ∧ t ≤ 1 ∧ OnBoundary es (along z w t) ∧ ∀ r, 0 ≤ r → r ≤ 1 → OnBoundary es (along z w r) → t ≤ r
  | [], ⟨_, _, _, s, hs, _⟩ => by simp at hs
  | e :: es, h => by
    by_cases h1 : ∃ t, 0 ≤ t ∧ t ≤ 1 ∧ OnSeg e (along z w t)
    · obtain ⟨a, a0, a1, a2, a3⟩ := first_edge e z w h1
      by_cases h2 : ∃ t, 0 ≤ t ∧ t ≤ 1 ∧ OnBoundary es (along z w t)
      · obtain ⟨b, b0, b1, ⟨s, hs, b2⟩, b3⟩ := first_boundary z w es h2
        rcases le_total a b with hab | hab
        · refine ⟨a, a0, a1, ⟨e, by simp, a2⟩, ?_⟩
          rintro r r0 r1 ⟨t, ht, hr⟩
          rcases List.mem_cons.1 ht with rfl | ht
          · exact a3 r r0 r1 hr
          · exact hab.trans (b3 r r0 r1 ⟨t, ht, hr⟩)
        · refine ⟨b, b0, b1, ⟨s, by simp [hs], b2⟩, ?_⟩
          rintro r r0 r1 ⟨t, ht, hr⟩
          rcases List.mem_cons.1 ht with rfl | ht
          · exact hab.trans (a3 r r0 r1 hr)
          · exact b3 r r0 r1 ⟨t, ht, hr⟩
      · refine ⟨a, a0, a1, ⟨e, by simp, a2⟩, ?_⟩
        rintro r r0 r1 ⟨t, ht, hr⟩
        rcases List.mem_cons.1 ht with rfl | ht
        · exact a3 r r0 r1 hr
        · exact absurd ⟨r, r0, r1, t, ht, hr⟩ h2
    · have h2 : ∃ t, 0 ≤ t ∧ t ≤ 1 ∧ OnBoundary es (along z w t) := by
        obtain ⟨t, t0, t1, s, hs, hr⟩ := h
        rcases List.mem_cons.1 hs with rfl | hs
        · exact absurd ⟨t, t0, t1, hr⟩ h1
        · exact ⟨t, t0, t1, s, hs, hr⟩
      obtain ⟨b, b0, b1, ⟨s, hs, b2⟩, b3⟩ := first_boundary z w es h2
      refine ⟨b, b0, b1, ⟨s, by simp [hs], b2⟩, ?_⟩
      rintro r r0 r1 ⟨t, ht, hr⟩
      rcases List.mem_cons.1 ht with rfl | ht
      · exact absurd ⟨r, r0, r1, hr⟩ h1
      · exact b3 r r0 r1 ⟨t, ht, hr⟩

/-- What does not change along the edges is the same at all vertices. -/
theorem chain_const {f : Pt K → Prop} : ∀ {l : List (Pt K)}, (∀ s ∈ edges l, f s.a ↔ f s.b) → ∀ u ∈ l, ∀ v ∈ l, f u ↔ f v
  | [], _, u, hu, _, _ => by simp at hu
  | [a], _, u, hu, v, hv => by simp only [List.mem_singleton] at hu hv; rw [hu, hv]
  | a :: b :: t, h, u, hu, v, hv => by
    have e : edges (a :: b :: t) = ⟨a, b⟩ :: edges (b :: t) := rfl
    rw [e] at h
    have ih := chain_const (l := b :: t) (f := f) fun s hs => h s (by simp [hs])
    have hab : f a ↔ f b := h ⟨a, b⟩ (by simp)
    have hb : ∀ x ∈ a :: b :: t, f x ↔ f b := by
      intro x hx
      rcases List.mem_cons.1 hx with rfl | hx
      · exact hab
      · exact ih x hx b (by simp)
    rw [hb u hu, hb v hv]

/-- If the boundary of the second chain avoids the region of the first, and the regions have a point in common, then the first is inside of the second. -/
theorem inside_of_common {l m : List (Pt K)} (hl : l.head? = l.getLast?) (hm : m.head? = m.getLast?)
    (hav : ∀ w, OnBoundary (edges m) w → ¬ InRegion (edges l) w) {z : Pt K} (z1 : InRegion (edges l) z) (z2 : InRegion (edges m) z) :
    ∀ v ∈ l, Inside (edges m) v := by
  classical
  have zm : Inside (edges m) z := by
    rcases z2 with h | h
    · exact absurd z1 (hav z h)
    · exact h
  -- a point of the boundary of the first that is inside of the second
  have hu : ∃ u, OnBoundary (edges l) u ∧ Inside (edges m) u := by
    rcases z1 with h | h
    · exact ⟨z, h, zm⟩
    · obtain ⟨h1, h2⟩ := h
      have hpos : 0 < ncross (edges l) z := by omega
      obtain ⟨s, hs, hc⟩ := List.countP_pos_iff.1 hpos
      obtain ⟨-, -, x, hx, hon⟩ := of_decide_eq_true hc
      let w : Pt K := ⟨x, z.y⟩
      have hw : along z w 1 = w := by apply Pt.ext <;> simp [along]
      obtain ⟨t, t0, t1, hb, hmin⟩ := first_boundary z w (edges l ++ edges m) ⟨1, zero_le_one, le_rfl, s, by simp [hs], by rw [hw]; exact hon⟩
      have hsub : ∀ v, OnSeg ⟨z, along z w t⟩ v → ∃ r, 0 ≤ r ∧ r ≤ 1 ∧ r ≤ t ∧ v = along z w r := by
        rintro v ⟨r, r0, r1, rx, ry⟩
        refine ⟨r * t, mul_nonneg r0 t0, mul_le_one₀ r1 t0 t1, mul_le_of_le_one_left t0 r1, ?_⟩
        simp only [along] at rx ry
        apply Pt.ext
        · rw [rx, along]; ring
        · rw [ry, along]; ring
      have hfirst : ∀ v, OnSeg ⟨z, along z w t⟩ v → OnBoundary (edges l ++ edges m) v → v = along z w t := by
        intro v hv hb'
        obtain ⟨r, r0, r1, r2, rfl⟩ := hsub v hv
        rw [le_antisymm r2 (hmin r r0 r1 hb')]
      by_cases hbl : OnBoundary (edges l) (along z w t)
      · refine ⟨_, hbl, fun h => hav _ h (.inl hbl), ?_⟩
        rw [← parity_same hm (p := z) (q := along z w t)]
        · exact zm.2
        · rintro s' hs' ⟨v, v1, v2⟩
          have := hfirst v v1 ⟨s', by simp [hs'], v2⟩
          subst this
          exact hav _ ⟨s', hs', v2⟩ (.inl hbl)
      · exfalso
        have hbm : OnBoundary (edges m) (along z w t) := by
          obtain ⟨s', hs', h'⟩ := hb
          rcases List.mem_append.1 hs' with hs' | hs'
          · exact absurd ⟨s', hs', h'⟩ hbl
          · exact ⟨s', hs', h'⟩
        refine hav _ hbm (.inr ⟨hbl, ?_⟩)
        rw [← parity_same hl (p := z) (q := along z w t)]
        · exact h2
        · rintro s' hs' ⟨v, v1, v2⟩
          have := hfirst v v1 ⟨s', by simp [hs'], v2⟩
          subst this
          exact hbl ⟨s', hs', v2⟩
  obtain ⟨u, ⟨s, hs, hus⟩, hum⟩ := hu
  -- the parity does not change along the boundary of the first
  have hpar : ∀ s ∈ edges l, ∀ a b, OnSeg s a → OnSeg s b → ncross (edges m) a % 2 = ncross (edges m) b % 2 := by
    intro s hs a b ha hb
    refine parity_same hm ?_
    rintro s' hs' ⟨v, v1, v2⟩
    exact hav v ⟨s', hs', v2⟩ (.inl ⟨s, hs, onSeg_mono (t := ⟨a, b⟩) ha hb v1⟩)
  have hc := chain_const (l := l) (f := fun v => ncross (edges m) v % 2 = 1) fun s hs => by
    rw [hpar s hs s.a s.b (onSeg_left s) (onSeg_right s)]
  have hsa : ncross (edges m) s.a % 2 = 1 := by rw [hpar s hs s.a u (onSeg_left s) hus]; exact hum.2
  intro v hv
  have hvb : OnBoundary (edges l) v := by
    by_contra hn
    -- a vertex is on an edge, if there is an edge
    match l, hs, hv with
    | a :: b :: t, _, hv =>
      have : ∀ (l : List (Pt K)) (x : Pt K), ∀ v ∈ x :: l, l ≠ [] → ∃ s ∈ edges (x :: l), OnSeg s v := by
        intro l
        induction l with
        | nil => intro x v _ h; exact absurd rfl h
        | cons y l ih =>
          intro x v hv _
          have e : edges (x :: y :: l) = ⟨x, y⟩ :: edges (y :: l) := rfl
          rw [e]
          rcases List.mem_cons.1 hv with rfl | hv
          · exact ⟨⟨v, y⟩, by simp, onSeg_left (⟨v, y⟩ : Seg K)⟩
          · rcases List.mem_cons.1 hv with rfl | hv'
            · exact ⟨⟨x, v⟩, by simp, onSeg_right (⟨x, v⟩ : Seg K)⟩
            · obtain ⟨s, h1, h2⟩ := ih y v (by simp [hv']) (by rintro rfl; simp at hv')
              exact ⟨s, by simp [h1], h2⟩
      obtain ⟨s, h1, h2⟩ := this (b :: t) a v hv (by simp)
      exact hn ⟨s, h1, h2⟩
  exact ⟨fun h => hav v h (.inl hvb), (hc s.a (edge_ends hs).1 v hv).1 hsa⟩

end Tg.S
