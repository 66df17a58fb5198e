import Verif.Lemmas.SeriesApi
import Mathlib.Data.Rat.Floor
/-!
Properties C19 to C24 and C35: rings and lines, their bounding rectangle, their indexes and the searches.

Coordinates are elements of a linear order, see `Model/Series`. `f` is the conversion to the coordinates of index rectangles, `A` the arithmetic of the
predicates on segments; both are arbitrary up to the laws stated. `Model/Exact` gives an instance of both.
-/
namespace Tg
open S

variable {α β : Type*} [LinearOrder α] [LinearOrder β]

/-! ### C35  Index options -/

/-- C35. The kind (four bits) and the spread, limited to 2 .. 4096, come back. Spread 0 means the default of the environment. -/
theorem C35_index_options (e : Env) (ix : BitVec 32) (spread : Int) :
    extractSpread e (indexWithSpread ix spread) = (ix &&& 15#32, if spread = 0 then e.spread else max 2 (min spread 4096)) := by
  have key : ∀ m : Nat, m ≤ 4095 → ((((ix &&& 15#32) ||| (BitVec.ofInt 32 m <<< 4)) >>> 4) &&& 4095#32).toNat = m ∧
      (((ix &&& 15#32) ||| (BitVec.ofInt 32 m <<< 4)) &&& 15#32) = ix &&& 15#32 := by
    intro m hm
    have h15 : (ix &&& 15#32).toNat < 2 ^ 4 := by
      rw [BitVec.toNat_and, show (15#32 : BitVec 32).toNat = 2 ^ 4 - 1 from rfl, Nat.and_two_pow_sub_one_eq_mod]
      exact Nat.mod_lt _ (by decide)
    have hsh : (BitVec.ofInt 32 m <<< 4).toNat = m <<< 4 := by
      rw [BitVec.toNat_shiftLeft, BitVec.ofInt_natCast, BitVec.toNat_ofNat, Nat.mod_eq_of_lt (a := m) (by omega)]
      apply Nat.mod_eq_of_lt
      rw [Nat.shiftLeft_eq]
      omega
    have hor : ((ix &&& 15#32) ||| (BitVec.ofInt 32 m <<< 4)).toNat = m * 16 + (ix &&& 15#32).toNat := by
      rw [BitVec.toNat_or, hsh, Nat.or_comm, ← Nat.shiftLeft_add_eq_or_of_lt h15, Nat.shiftLeft_eq]
    constructor
    · rw [BitVec.toNat_and, BitVec.toNat_ushiftRight, hor, show (4095#32 : BitVec 32).toNat = 2 ^ 12 - 1 from rfl,
        Nat.and_two_pow_sub_one_eq_mod, Nat.shiftRight_eq_div_pow]
      omega
    · apply BitVec.eq_of_toNat_eq
      rw [BitVec.toNat_and, hor, show (15#32 : BitVec 32).toNat = 2 ^ 4 - 1 from rfl, Nat.and_two_pow_sub_one_eq_mod]
      omega
  unfold extractSpread indexWithSpread
  dsimp only
  by_cases h0 : spread = 0
  · subst h0
    obtain ⟨k1, k2⟩ := key 0 (by omega)
    simp only [Nat.cast_zero] at k1 k2
    simp only [ne_eq, not_true_eq_false, ↓reduceIte]
    rw [k1, k2]
    simp
  · rw [if_pos h0, if_neg h0]
    obtain ⟨m, hm, hm'⟩ : ∃ m : Nat, (if spread < 2 then (2 : Int) else if spread > 4096 then 4096 else spread) - 1 = (m : Int) ∧ 1 ≤ m ∧ m ≤ 4095 := by
      refine ⟨((if spread < 2 then (2 : Int) else if spread > 4096 then 4096 else spread) - 1).toNat, ?_, ?_⟩ <;> split_ifs <;> omega
    rw [hm]
    obtain ⟨k1, k2⟩ := key m (by omega)
    rw [k1, k2]
    refine Prod.ext rfl ?_
    dsimp only
    have : (m : Int) + 1 = max 2 (min spread 4096) := by rw [← hm]; split_ifs <;> omega
    rw [← this]
    split_ifs <;> omega

/-- C35. The setters of the environment accept the three kinds and the spreads 2 .. 4096 and ignore everything else, so the default
spread stays in range. -/
theorem C35_env (e : Env) (he : e.Ok) (ix : BitVec 32) (spread : Int) :
    (e.setSpread spread).spread = (if 2 ≤ spread ∧ spread ≤ 4096 then spread else e.spread) ∧
    (e.setSpread spread).index = e.index ∧ (e.setIndex ix).spread = e.spread ∧
    ((e.setIndex ix).index = if ix = 1#32 ∨ ix = 2#32 ∨ ix = 3#32 then ix else e.index) ∧
    (e.setSpread spread).Ok ∧ (e.setIndex ix).Ok ∧ Env.initial.Ok := by
  unfold Env.setSpread Env.setIndex
  refine ⟨by split_ifs <;> simp_all, by split_ifs <;> rfl, by split_ifs <;> rfl, by split_ifs <;> rfl, ?_, ?_, by
    exact ⟨by decide, by decide⟩⟩
  · split_ifs with h
    · exact h
    · exact he
  · split_ifs
    · exact he
    · exact he

/-- C35. The kind and spread decide what is built: which index, from `2 * spread` points on. -/
theorem C35_what_is_built [Zero α] {f : Ix α β} (hf : f.Lawful) {A : Arith α} {e : Env} (he : e.Ok) {pts : List (Pt α)} {closed : Bool}
    (kind : BitVec 32) (hk : kind = 1#32 ∨ kind = 2#32 ∨ kind = 3#32) (spread : Int) (hs : 2 ≤ spread ∧ spread ≤ 4096)
    {ring : Ring α β} (h : newIx f A e pts closed (indexWithSpread kind spread) = some ring) :
    (ring.index.isSome = true ↔ kind ≠ 1#32 ∧ 2 * spread ≤ pts.length) ∧
    (ring.ystripes.isSome = true ↔ kind = 3#32 ∧ closed = true ∧ 2 * spread ≤ pts.length) ∧
    ∀ ix, ring.index = some ix → (ix.spread : Int) = spread := by
  obtain ⟨h1, h2, h3, -⟩ := newIx_some hf he h
  have hx := C35_index_options e kind spread
  rw [if_neg (by omega), show max 2 (min spread 4096) = spread by omega] at hx
  have e15 : kind &&& 15#32 = kind := by rcases hk with rfl | rfl | rfl <;> rfl
  rw [e15] at hx
  have hsp : spreadOf e (indexWithSpread kind spread) = spread.toNat := by unfold spreadOf; rw [hx]
  have hkinds : kindsOf e pts.length closed (indexWithSpread kind spread) = indexKinds pts.length spread.toNat closed kind.toNat e.index.toNat := by
    unfold kindsOf; rw [hsp, hx]
  rw [hkinds] at h2 h3
  refine ⟨h2.trans ?_, h3.trans ?_, ?_⟩
  · by_cases hn : pts.length ≥ spread.toNat * 2
    · rcases hk with rfl | rfl | rfl <;> simp [indexKinds, hn] <;> omega
    · simp only [indexKinds, hn, ↓reduceIte, Bool.false_eq_true, false_iff]; omega
  · by_cases hn : pts.length ≥ spread.toNat * 2
    · rcases hk with rfl | rfl | rfl <;> simp [indexKinds, hn] <;> omega
    · simp only [indexKinds, hn, ↓reduceIte, Bool.false_eq_true, false_iff]; omega
  · intro ix hix
    have := (h1.index_spread ix hix).1
    rw [hsp] at this
    omega

example : extractSpread Env.initial (indexWithSpread 3#32 100) = (3#32, 100) := by decide

/-! ### C19  Bounding rectangle -/

theorem S.exists_le_of (g : Pt α → α) : ∀ {pts : List (Pt α)}, pts ≠ [] → ∃ q ∈ pts, ∀ p ∈ pts, g q ≤ g p
  | [], h => absurd rfl h
  | [a], _ => ⟨a, by simp, by simp⟩
  | a :: b :: l, _ => by
    obtain ⟨q, h1, h2⟩ := S.exists_le_of g (pts := b :: l) (by simp)
    rcases le_total (g a) (g q) with h | h
    · exact ⟨a, by simp, fun p hp => (List.mem_cons.1 hp).elim (fun e => by rw [e]) (fun hp => h.trans (h2 p hp))⟩
    · exact ⟨q, List.mem_cons_of_mem _ h1, fun p hp => (List.mem_cons.1 hp).elim (fun e => by rw [e]; exact h) (h2 p)⟩

theorem S.exists_ge_of (g : Pt α → α) : ∀ {pts : List (Pt α)}, pts ≠ [] → ∃ q ∈ pts, ∀ p ∈ pts, g p ≤ g q
  | [], h => absurd rfl h
  | [a], _ => ⟨a, by simp, by simp⟩
  | a :: b :: l, _ => by
    obtain ⟨q, h1, h2⟩ := S.exists_ge_of g (pts := b :: l) (by simp)
    rcases le_total (g q) (g a) with h | h
    · exact ⟨a, by simp, fun p hp => (List.mem_cons.1 hp).elim (fun e => by rw [e]) (fun hp => (h2 p hp).trans h)⟩
    · exact ⟨q, List.mem_cons_of_mem _ h1, fun p hp => (List.mem_cons.1 hp).elim (fun e => by rw [e]; exact h) (h2 p)⟩

/-- C19. The rectangle of a ring or line of two or more points contains all of them, and each of its sides has one of them on it. -/
theorem C19_rect_exact [Zero α] {f : Ix α β} (hf : f.Lawful) {A : Arith α} {e : Env} (he : e.Ok) {pts : List (Pt α)} {closed : Bool}
    {ix : BitVec 32} (h2 : 2 ≤ pts.length) {ring : Ring α β} (h : newIx f A e pts closed ix = some ring) :
    (∀ q ∈ pts, ring.rect.lo.x ≤ q.x ∧ q.x ≤ ring.rect.hi.x ∧ ring.rect.lo.y ≤ q.y ∧ q.y ≤ ring.rect.hi.y) ∧
    (∃ q ∈ pts, q.x = ring.rect.lo.x) ∧ (∃ q ∈ pts, q.x = ring.rect.hi.x) ∧
    (∃ q ∈ pts, q.y = ring.rect.lo.y) ∧ (∃ q ∈ pts, q.y = ring.rect.hi.y) := by
  obtain ⟨h1, -⟩ := newIx_some hf he h
  have hne : pts ≠ [] := by rintro rfl; simp at h2
  obtain ⟨q1, m1, l1⟩ := S.exists_le_of Pt.x hne
  obtain ⟨q2, m2, l2⟩ := S.exists_ge_of Pt.x hne
  obtain ⟨q3, m3, l3⟩ := S.exists_le_of Pt.y hne
  obtain ⟨q4, m4, l4⟩ := S.exists_ge_of Pt.y hne
  have hh := h1.rect_has h2
  obtain ⟨g1, g2, g3, g4⟩ := h1.rect_least h2 ⟨⟨q1.x, q3.y⟩, ⟨q2.x, q4.y⟩⟩ (fun q hq => ⟨l1 q hq, l2 q hq, l3 q hq, l4 q hq⟩)
  exact ⟨hh, ⟨q1, m1, le_antisymm g1 (hh q1 m1).1⟩, ⟨q2, m2, le_antisymm (hh q2 m2).2.1 g2⟩,
    ⟨q3, m3, le_antisymm g3 (hh q3 m3).2.2.1⟩, ⟨q4, m4, le_antisymm (hh q4 m4).2.2.2 g4⟩⟩

/-! ### C20  Rectangle predicates -/

/-- C20. For rectangles (`min` not above `max`), `tg_rect_intersects_rect` holds exactly if the closed boxes share a point. -/
theorem C20_intersects (a b : Rect α) (ha : a.Valid) (hb : b.Valid) :
    a.intersects b = true ↔ ∃ p : Pt α, a.Has p ∧ b.Has p := by
  rw [intersects_iff]
  constructor
  · rintro ⟨h1, h2, h3, h4⟩
    exact ⟨⟨max a.lo.x b.lo.x, max a.lo.y b.lo.y⟩, ⟨le_max_left _ _, max_le ha.1 h1, le_max_left _ _, max_le ha.2 h3⟩,
      ⟨le_max_right _ _, max_le h2 hb.1, le_max_right _ _, max_le h4 hb.2⟩⟩
  · rintro ⟨p, ⟨a1, a2, a3, a4⟩, ⟨b1, b2, b3, b4⟩⟩
    exact ⟨b1.trans a2, a1.trans b2, b3.trans a4, a3.trans b4⟩

/-- C20. `tg_rect_covers_rect` holds exactly if the first box contains the second one. -/
theorem C20_covers (a b : Rect α) (hb : b.Valid) : a.covers b = true ↔ ∀ p : Pt α, b.Has p → a.Has p := by
  rw [covers_iff]
  constructor
  · exact fun h p hp => hp.mono h
  · intro h
    have h1 := h b.lo ⟨le_rfl, hb.1, le_rfl, hb.2⟩
    have h2 := h b.hi ⟨hb.1, le_rfl, hb.2, le_rfl⟩
    exact ⟨h1.1, h2.2.1, h1.2.2.1, h2.2.2.2⟩

/-- C20. `tg_rect_covers_point`. -/
theorem C20_covers_point (a : Rect α) (p : Pt α) :
    a.coversPt p = true ↔ a.lo.x ≤ p.x ∧ p.x ≤ a.hi.x ∧ a.lo.y ≤ p.y ∧ p.y ≤ a.hi.y := coversPt_iff a p

/-- C20. `tg_rect_expand` covers both and is covered by everything that covers both. -/
theorem C20_expand (a b : Rect α) :
    (a.inflate b).covers a = true ∧ (a.inflate b).covers b = true ∧
    ∀ c : Rect α, c.covers a = true → c.covers b = true → c.covers (a.inflate b) = true := by
  simp only [covers_iff]
  exact ⟨Rect.le_inflate_left a b, Rect.le_inflate_right a b, fun c h1 h2 => Rect.inflate_le h1 h2⟩

/-- C20. `tg_rect_expand_point` likewise. -/
theorem C20_expand_point (a : Rect α) (p : Pt α) :
    (a.inflatePt p).covers a = true ∧ (a.inflatePt p).coversPt p = true ∧
    ∀ c : Rect α, c.covers a = true → c.coversPt p = true → c.covers (a.inflatePt p) = true := by
  simp only [covers_iff, coversPt_iff]
  exact ⟨Rect.le_inflatePt a p, Rect.has_inflatePt a p, fun c h1 h2 => Rect.inflatePt_le h1 h2⟩

example : (⟨⟨0, 0⟩, ⟨2, 3⟩⟩ : Rect ℤ).Valid ∧ (⟨⟨2, 3⟩, ⟨5, 5⟩⟩ : Rect ℤ).Valid := by unfold Rect.Valid; decide

/-- The predicate on rectangles that are inside out is a comparison of bounds: here it holds although one box is empty. -/
theorem C20_inside_out : (⟨⟨0, 0⟩, ⟨4, 4⟩⟩ : Rect ℤ).intersects ⟨⟨3, 3⟩, ⟨1, 1⟩⟩ = true ∧
    ¬ ∃ p : Pt ℤ, (⟨⟨3, 3⟩, ⟨1, 1⟩⟩ : Rect ℤ).Has p := by
  refine ⟨by decide, ?_⟩
  rintro ⟨p, h1, h2, -⟩
  simp only at h1 h2
  omega

/-! ### C21  Index -/

/-- C21. The index of a line, of a closed ring, or of a ring whose number of points is a multiple of the spread. Level `k` counted from the
root, of `L` levels, has `ceil(n / spread^(L - k))` rectangles (`i` is below that exactly if `i * spread^(L - k) < n`), at most `spread` at the root;
rectangle `i` of a level covers the rectangles `i * spread .. (i+1) * spread - 1` of the level below; those of the bottom level cover the rounded boxes
of the segments. -/
theorem C21_index [Zero α] {f : Ix α β} (hf : f.Lawful) {A : Arith α} {e : Env} (he : e.Ok) {pts : List (Pt α)} {closed : Bool}
    {ix : BitVec 32} {ring : Ring α β} (h : newIx f A e pts closed ix = some ring)
    (hc : (segments pts closed).length < pts.length ∨ pts.length % spreadOf e ix = 0)
    {index : Index β} (hi : ring.index = some index) :
    let s := index.spread
    let segs := segments pts closed
    s = spreadOf e ix ∧ index.levels ≠ [] ∧
    (∀ root, index.levels[0]? = some root → root.length ≤ s) ∧
    (∀ k l, index.levels[k]? = some l → ∀ i, i < l.length ↔ i * s ^ (index.levels.length - k) < segs.length) ∧
    (∀ k l l', index.levels[k]? = some l → index.levels[k + 1]? = some l' → ∀ i r j r', l[i]? = some r → l'[j]? = some r' →
      i * s ≤ j → j < (i + 1) * s → r.covers r' = true) ∧
    (∀ l, index.levels.getLast? = some l → ∀ i r j sg, l[i]? = some r → segs[j]? = some sg →
      i * s ≤ j → j < (i + 1) * s → r.covers (f.rect sg.rect) = true) := by
  obtain ⟨h1, -⟩ := newIx_some hf he h
  have hsp := (h1.index_spread _ hi).1
  have ok := h1.index_ok _ hi hc
  refine ⟨hsp, ok.nonempty, ?_, ?_, ?_, ?_⟩
  · intro root hr
    have hl := (ok.levels.at 0 root hr).1
    rw [hl, Nat.sub_zero, numKeys_le_iff ok.spread]
    exact ok.root
  · intro k l hl i
    rw [(ok.levels.at k l hl).1]
    exact lt_numKeys_iff ok.spread
  · intro k l l' hl hl' i r j r' hr hr' h1 h2
    rw [covers_iff]
    exact (ok.levels.at k l hl).2.1 l' hl' i r hr j r' h1 h2 hr'
  · intro l hl i r j sg hr hsg h1 h2
    rw [covers_iff]
    rw [List.getLast?_eq_getElem?] at hl
    have hlen : 0 < index.levels.length := List.length_pos_iff.2 ok.nonempty
    refine (ok.levels.at _ l hl).2.2 (by omega) i r hr j _ h1 h2 ?_ ?_
    · by_contra hj
      rw [List.getElem?_eq_none (by omega)] at hsg
      cases hsg
    · rw [extOf, hsg]; rfl

/-! ### C22  Segment search -/

/-- C22. The search of a ring or line, whichever the options, hands the segments whose box meets the query to the callback, in order and with
their numbers, until the callback returns false. What is missing from the full statement is an indexed ring that is not closed by its
last point and whose number of points is not a multiple of the spread: there it fails (`C22_open_ring_missed`). -/
theorem C22_search_partial [Zero α] {f : Ix α β} (hf : f.Lawful) {A : Arith α} {e : Env} (he : e.Ok) {pts : List (Pt α)} {closed : Bool}
    {ix : BitVec 32} {ring : Ring α β} (h : newIx f A e pts closed ix = some ring)
    (hc : (segments pts closed).length < pts.length ∨ pts.length % spreadOf e ix = 0 ∨ ring.index = none)
    (q : Rect α) (hq : q.Valid) [DecidablePred fun x : Seg α × Nat => Meets q x.1] {σ : Type*} (iter : Iter α σ) (st : σ) :
    (ringSearch f ring q iter st).map (·.1) = 
      some (visit (fun x : Seg α × Nat => iter x.1 x.2) ((segments pts closed).zipIdx.filter fun x => Meets q x.1) st) := by
  obtain ⟨h1, -⟩ := newIx_some hf he h
  rw [ringSearch_eq hf h1 (by rcases hc with h | h | h; exacts [.inl (.inl h), .inl (.inr h), .inr h]), h1.nsegs_eq]
  rw [forRange_search _ _ _ (by
    intro j s hs
    have hj : j < (segments pts closed).length := by
      by_contra hj
      rw [List.getElem?_eq_none (by omega)] at hs
      cases hs
    rw [Nat.zero_add, h1.segAt hj, ← List.getElem?_eq_getElem hj, hs])]
  congr 2
  apply List.filter_congr
  rintro ⟨s, i⟩ -
  exact Bool.eq_iff_iff.2 (by rw [decide_eq_true_eq]; exact intersects_iff_meets hq s)

/-! ### C23  Pairs of segments -/

/-- C23. The search for the pairs of intersecting segments hands the same pairs to the callback, each once, whichever the options of
the two rings or lines, in an order that does not depend on the callback. Missing from the full statement: the indexed rings of `C22_search_partial`, and the arithmetic has
to give the same answer for the two orders of a pair, as the segments are swapped if only one side is indexed. -/
theorem C23_pairs_partial.{u} [Zero α] {f : Ix α β} (hf : f.Lawful) {A : Arith α} (hA : ∀ s t, A.segX s t = A.segX t s)
    {e₁ e₂ : Env} (he₁ : e₁.Ok) (he₂ : e₂.Ok) {pa pb : List (Pt α)} {ca cb : Bool} {ix₁ ix₂ : BitVec 32} {a b : Ring α β}
    (ha : newIx f A e₁ pa ca ix₁ = some a) (hb : newIx f A e₂ pb cb ix₂ = some b)
    (hca : (segments pa ca).length < pa.length ∨ pa.length % spreadOf e₁ ix₁ = 0 ∨ a.index = none)
    (hcb : (segments pb cb).length < pb.length ∨ pb.length % spreadOf e₂ ix₂ = 0 ∨ b.index = none)
    (hta : f.Tight (segments pa ca)) (htb : f.Tight (segments pb cb)) :
    ∃ l : List (Pair α), l.Perm (((segments pa ca).zipIdx.product (segments pb cb).zipIdx).filter fun x => segIntersects A x.1.1 x.2.1) ∧
      ∀ (σ : Type u) (iter : Iter2 α σ) (st : σ), (ringRingSearch f A a b iter st).map (·.1) =
        some (visit (fun x : Pair α => iter x.1.1 x.1.2 x.2.1 x.2.2) l st) := by
  obtain ⟨h1, -⟩ := newIx_some hf he₁ ha
  obtain ⟨h2, -⟩ := newIx_some hf he₂ hb
  exact (ringRingSearch_del hf hA h1 h2 (by rcases hca with h | h | h; exacts [.inl (.inl h), .inl (.inr h), .inr h]) (by rcases hcb with h | h | h; exacts [.inl (.inl h), .inl (.inr h), .inr h])
    hta htb).perm

/-! ### C24  Point in ring -/

/-- C24. Two rings over the same points with different options give the same answer. Missing from the full statement: the rings of
`C22_search_partial` for the natural index, and points at the very top of a ring with Y-stripes if the ring has a segment that lies at the top
(`OffTop`), where it fails: `C24_top_edge_missed`. The laws of the stripe number (`StripeOk`) hold in exact arithmetic, see `C24_exact_partial`. -/
theorem C24_index_independent_partial [Zero α] {f : Ix α β} (hf : f.Lawful) {A : Arith α} {e₁ e₂ : Env} (he₁ : e₁.Ok) (he₂ : e₂.Ok)
    {pts : List (Pt α)} {closed : Bool} {ix₁ ix₂ : BitVec 32} {r₁ r₂ : Ring α β} (h2 : 2 ≤ pts.length)
    (h₁ : newIx f A e₁ pts closed ix₁ = some r₁) (h₂ : newIx f A e₂ pts closed ix₂ = some r₂)
    (hc₁ : (segments pts closed).length < pts.length ∨ pts.length % spreadOf e₁ ix₁ = 0 ∨ r₁.index = none ∨ r₁.ystripes ≠ none)
    (hc₂ : (segments pts closed).length < pts.length ∨ pts.length % spreadOf e₂ ix₂ = 0 ∨ r₂.index = none ∨ r₂.ystripes ≠ none)
    (p : Pt α) (edge : Bool)
    (hs : r₁.ystripes ≠ none ∨ r₂.ystripes ≠ none → StripeOk A r₁.rect.lo.y r₁.rect.hi.y (stripesOf A pts) ∧ 
      OffTop A r₁.rect (stripesOf A pts) (segments pts closed) p) :
    ringContainsPoint f A r₁ p edge = ringContainsPoint f A r₂ p edge := by
  obtain ⟨a1, -, -, a4⟩ := newIx_some hf he₁ h₁
  obtain ⟨b1, -, -, b4⟩ := newIx_some hf he₂ h₂
  have hrect : r₂.rect = r₁.rect :=
    Rect.ext_of_le (b1.rect_least h2 _ (a1.rect_has h2)) (a1.rect_least h2 _ (b1.rect_has h2))
  have hsegs : ∀ s ∈ segments pts closed, r₁.rect.Has s.a ∧ r₁.rect.Has s.b := fun s hs =>
    ⟨a1.rect_has h2 _ (seg_mem_pts hs).1, a1.rect_has h2 _ (seg_mem_pts hs).2⟩
  have main : r₁.ystripes ≠ none ∨ r₂.ystripes ≠ none → ∃ st, processStripes A r₁.rect (stripesOf A pts) (segments pts closed) = some st ∧
      StripesOk A (segments pts closed) r₁.rect st ∧ OffTop A r₁.rect st.length (segments pts closed) p := by
    intro h
    obtain ⟨s1, s2⟩ := hs h
    obtain ⟨st, p1, p2, p3⟩ := processStripes_ok (segs := segments pts closed) (show 0 < stripesOf A pts by unfold stripesOf; omega) s1 hsegs
    exact ⟨st, p1, p2, by rw [p3]; exact s2⟩
  have k1 : ∀ st, r₁.ystripes = some st → StripesOk A (segments pts closed) r₁.rect st ∧ OffTop A r₁.rect st.length (segments pts closed) p := by
    intro st' hst
    obtain ⟨st, p1, p2⟩ := main (.inl (by rw [hst]; simp))
    have := a4 st' hst
    rw [p1] at this
    cases this
    exact p2
  have k2 : ∀ st, r₂.ystripes = some st → StripesOk A (segments pts closed) r₂.rect st ∧ OffTop A r₂.rect st.length (segments pts closed) p := by
    intro st' hst
    obtain ⟨st, p1, p2⟩ := main (.inr (by rw [hst]; simp))
    have := b4 st' hst
    rw [hrect, p1] at this
    cases this
    rw [hrect]
    exact p2
  rw [ringContainsPoint_eq hf a1 h2 (fun st h => (k1 st h).1) ?_ p edge (fun st h => (k1 st h).2), 
    ringContainsPoint_eq hf b1 h2 (fun st h => (k2 st h).1) ?_ p edge (fun st h => (k2 st h).2), hrect]
  · rcases hc₂ with h | h | h
    exacts [.inl (.inl h), .inl (.inr h), .inr h]
  · rcases hc₁ with h | h | h
    exacts [.inl (.inl h), .inl (.inr h), .inr h]

section exact
variable {K : Type*} [Field K] [LinearOrder K] [IsStrictOrderedRing K] [FloorRing K]

/-- C24 in exact arithmetic: the natural index and no index agree for every ring that is closed or has a number of points that is a multiple of the spread; Y-stripes
agree with them if the ring is not flat and the point is below its top or no segment lies at the top. -/
theorem C24_exact_partial {ε : K} {ns : List (Pt K) → Nat} {e₁ e₂ : Env} (he₁ : e₁.Ok) (he₂ : e₂.Ok)
    {pts : List (Pt K)} {closed : Bool} {ix₁ ix₂ : BitVec 32} {r₁ r₂ : Ring K K} (h2 : 2 ≤ pts.length)
    (h₁ : newIx Ix.exact (exact ε ns) e₁ pts closed ix₁ = some r₁) (h₂ : newIx Ix.exact (exact ε ns) e₂ pts closed ix₂ = some r₂)
    (hc₁ : (segments pts closed).length < pts.length ∨ pts.length % spreadOf e₁ ix₁ = 0 ∨ r₁.index = none ∨ r₁.ystripes ≠ none)
    (hc₂ : (segments pts closed).length < pts.length ∨ pts.length % spreadOf e₂ ix₂ = 0 ∨ r₂.index = none ∨ r₂.ystripes ≠ none)
    (p : Pt K) (edge : Bool)
    (hs : r₁.ystripes ≠ none ∨ r₂.ystripes ≠ none → r₁.rect.lo.y < r₁.rect.hi.y ∧ 
      (p.y < r₁.rect.hi.y ∨ ∀ s ∈ segments pts closed, s.a.y < r₁.rect.hi.y ∨ s.b.y < r₁.rect.hi.y)) :
    ringContainsPoint Ix.exact (exact ε ns) r₁ p edge = ringContainsPoint Ix.exact (exact ε ns) r₂ p edge := by
  refine C24_index_independent_partial Ix.exact_lawful he₁ he₂ h2 h₁ h₂ hc₁ hc₂ p edge (fun h => ?_)
  obtain ⟨h1, h3⟩ := hs h
  have hn : 0 < stripesOf (exact ε ns) pts := by unfold stripesOf; omega
  refine ⟨exact_stripeOk h1, ?_⟩
  rcases h3 with h3 | h3
  · exact .inl fun k hk => exact_stripe_lt hn h1 h3 hk
  · exact .inr fun s hsm k hk => exact_stripe_lt hn h1 (min_lt_iff.2 (h3 s hsm)) hk

end exact

/-! ### Witnesses -/

/-- Construction succeeds without Y-stripes, and with them if the stripe numbers are defined. -/
theorem C24_built [Zero α] {f : Ix α β} (hf : f.Lawful) (A : Arith α) {e : Env} (he : e.Ok) (pts : List (Pt α)) (closed : Bool)
    (ix : BitVec 32) (hs : (kindsOf e pts.length closed ix).2 = true → ∀ r : Rect α, (∀ q ∈ pts, r.Has q) → (∀ T : Rect α, (∀ q ∈ pts, T.Has q) → r.Le T) →
      StripeOk A r.lo.y r.hi.y (stripesOf A pts)) : ∃ ring, newIx f A e pts closed ix = some ring := by
  cases hk : (kindsOf e pts.length closed ix).2 with
  | false =>
    obtain ⟨ring, h, -⟩ := seriesNew_ok hf A pts closed (extractSpread_ge he ix) hk
    exact ⟨ring, h⟩
  | true =>
    obtain ⟨ring, h, -⟩ := seriesNew_stripes (ix := (extractSpread e ix).1.toNat) (dflt := e.index.toNat) (closed := closed) hf (extractSpread_ge he ix) (hs hk)
    exact ⟨ring, h⟩

/-- The arithmetic of the examples. -/
def S.arithQ : Arith ℚ := exact (1/1000) fun _ => 0

/-- Five points, not closed by the last one. -/
def S.openRing : List (Pt ℚ) := [⟨0, 0⟩, ⟨4, 0⟩, ⟨4, 4⟩, ⟨2, 6⟩, ⟨0, 4⟩]

/-- A square. -/
def S.square : List (Pt ℚ) := [⟨0, 0⟩, ⟨4, 0⟩, ⟨4, 4⟩, ⟨0, 4⟩, ⟨0, 0⟩]

/-- The numbers of the segments that a search finds. -/
def S.found (pts : List (Pt ℚ)) (closed : Bool) (ix : BitVec 32) (q : Rect ℚ) : Option (List Nat) :=
  (newIx Ix.exact arithQ Env.initial pts closed ix).bind fun ring =>
    (ringSearch Ix.exact ring q (fun _ i l => (l ++ [i], true)) []).map (·.1)

/-- What the point test says. -/
def S.inside (pts : List (Pt ℚ)) (ix : BitVec 32) (p : Pt ℚ) (edge : Bool) : Option Pip :=
  (newIx Ix.exact arithQ Env.initial pts true ix).bind fun ring => ringContainsPoint Ix.exact arithQ ring p edge

/-- The full statement of C22 fails: in a ring that is not closed the last leaf of the index does not cover the closing segment, and
the search with an index misses it. -/
theorem C22_open_ring_missed :
    found openRing true (indexWithSpread 1#32 2) ⟨⟨-1, 1⟩, ⟨1, 2⟩⟩ = some [4] ∧
    found openRing true (indexWithSpread 2#32 2) ⟨⟨-1, 1⟩, ⟨1, 2⟩⟩ = some [] := by
  refine ⟨?_, ?_⟩ <;> decide +kernel

/-- The same for C24: the point is on the closing segment; without an index it is reported as on it, with one as in the interior. -/
theorem C24_open_ring_missed :
    inside openRing (indexWithSpread 1#32 2) ⟨0, 1⟩ false = some (false, some 4) ∧
    inside openRing (indexWithSpread 2#32 2) ⟨0, 1⟩ false = some (true, none) := by
  refine ⟨?_, ?_⟩ <;> decide +kernel

/-- The full statement of C24 fails for Y-stripes: a point on the top edge of a square is not found. -/
theorem C24_top_edge_missed :
    inside square (indexWithSpread 1#32 2) ⟨2, 4⟩ true = some (true, some 2) ∧
    inside square (indexWithSpread 2#32 2) ⟨2, 4⟩ true = some (true, some 2) ∧
    inside square (indexWithSpread 3#32 2) ⟨2, 4⟩ true = some (false, none) := by
  refine ⟨?_, ?_, ?_⟩ <;> decide +kernel

/-- A ring without height has no defined stripe numbers: `0.0 / 0.0` is converted to `int`. -/
theorem C24_flat_ring_undefined :
    inside [⟨0, 0⟩, ⟨4, 0⟩, ⟨2, 0⟩, ⟨0, 0⟩] (indexWithSpread 3#32 2) ⟨2, 0⟩ true = none ∧
    inside [⟨0, 0⟩, ⟨4, 0⟩, ⟨2, 0⟩, ⟨0, 0⟩] (indexWithSpread 2#32 2) ⟨2, 0⟩ true = some (true, some 2) := by
  refine ⟨?_, ?_⟩ <;> decide +kernel

/-- The hypotheses of C19 to C24 hold for the square with each of the three kinds of index; all three answer the same inside. -/
example : (segments square true).length < square.length ∧ Env.initial.Ok ∧
    (inside square (indexWithSpread 1#32 2) ⟨1, 1⟩ true = some (true, none) ∧ found square true (indexWithSpread 1#32 2) ⟨⟨3, 1⟩, ⟨5, 5⟩⟩ = some [1, 2]) ∧
    (inside square (indexWithSpread 2#32 2) ⟨1, 1⟩ true = some (true, none) ∧ found square true (indexWithSpread 2#32 2) ⟨⟨3, 1⟩, ⟨5, 5⟩⟩ = some [1, 2]) ∧
    (inside square (indexWithSpread 3#32 2) ⟨1, 1⟩ true = some (true, none) ∧ found square true (indexWithSpread 3#32 2) ⟨⟨3, 1⟩, ⟨5, 5⟩⟩ = some [1, 2]) := by
  refine ⟨by decide +kernel, ⟨by decide, by decide⟩, ⟨?_, ?_⟩, ⟨?_, ?_⟩, ?_, ?_⟩ <;> decide +kernel

/-- The number of levels of the index: 9 segments with spread 2 give levels of 2, 3 and 5 rectangles. -/
example : ((newIx Ix.exact arithQ Env.initial (openRing ++ [⟨0, 1⟩, ⟨1, 3⟩, ⟨2, 2⟩, ⟨1, 0⟩, ⟨0, 0⟩]) true (indexWithSpread 2#32 2)).bind fun r =>
    r.index.map fun i => i.levels.map List.length) = some [2, 3, 5] := by decide +kernel

end Tg
