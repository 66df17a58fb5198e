import Verif.Spec.LineTouch
import Verif.Lemmas.GeneralRel
/-! `tg_line_touches_line`, with exact arithmetic. -/
set_option linter.unusedSectionVars false
namespace Tg.S

variable {K : Type*} [Field K] [LinearOrder K] [IsStrictOrderedRing K] [FloorRing K] {ε : K} {ns : List (Pt K) → Nat}

theorem segTouches0_covers {s : Seg K} {a b : Pt K} (h : segTouches0 (exact ε ns) s a b = true) : OnSeg s a := by
  by_contra hn
  rw [segTouches0_false hn] at h
  cases h

/-- A segment starts on another and has nothing else in common with it. -/
theorem segTouches0_iff {t : Seg K} {a b : Pt K} (ht : t.a ≠ t.b) (hab : a ≠ b) (hu : ∀ u v, OnSeg t u → OnSeg ⟨a, b⟩ u → OnSeg t v → OnSeg ⟨a, b⟩ v → u = v) :
    segTouches0 (exact ε ns) t a b = true ↔ OnSeg t a := by
  refine ⟨segTouches0_covers, fun ha => ?_⟩
  rw [segTouches0, (segCoversPt_iff t a).2 ha]
  simp only [Bool.not_true, Bool.false_eq_true, if_false]
  have only : ∀ u, OnSeg t u → OnSeg ⟨a, b⟩ u → u = a := fun u h1 h2 => hu u a h1 h2 ha (onSeg_left (⟨a, b⟩ : Seg K))
  by_cases hc : collinear (exact ε ns) t.a t.b b = true
  · simp only [hc, Bool.not_true, Bool.false_eq_true, if_false]
    by_cases h1 : pteq t.a a = true
    · rw [if_pos h1, Bool.not_eq_true', ← Bool.not_eq_true, segCoversPt_iff]
      intro h
      have := only t.b (onSeg_right t) h
      exact ht ((pteq_iff _ _).1 h1 |>.trans this.symm)
    rw [if_neg h1]
    by_cases h2 : pteq t.b a = true
    · rw [if_pos h2, Bool.not_eq_true', ← Bool.not_eq_true, segCoversPt_iff]
      intro h
      have := only t.a (onSeg_left t) h
      exact ht (this.trans ((pteq_iff _ _).1 h2).symm)
    exfalso
    rw [pteq_iff] at h1 h2
    rw [exact_collinear, exactCollinear_iff ht] at hc
    obtain ⟨σ, hb1, hb2⟩ := param_of_cross ht hc
    obtain ⟨τ, t0, t1, ha1, ha2⟩ := ha
    have hne : σ ≠ τ := by
      rintro rfl
      exact hab (Pt.ext (ha1.trans hb1.symm) (ha2.trans hb2.symm))
    rcases lt_or_gt_of_ne hne with hlt | hgt
    · by_cases h0 : 0 ≤ σ
      · exact hab (only b ⟨σ, h0, by linarith, hb1, hb2⟩ (onSeg_right (⟨a, b⟩ : Seg K))).symm
      · have hd : 0 < τ - σ := by linarith
        refine h1 (only t.a (onSeg_left t) ⟨τ / (τ - σ), div_nonneg t0 hd.le, (div_le_one hd).2 (by linarith [not_le.1 h0]), ?_, ?_⟩)
        · rw [hb1, ha1]; field_simp; ring
        · rw [hb2, ha2]; field_simp; ring
    · by_cases h0 : σ ≤ 1
      · exact hab (only b ⟨σ, by linarith, h0, hb1, hb2⟩ (onSeg_right (⟨a, b⟩ : Seg K))).symm
      · have hd : 0 < σ - τ := by linarith
        refine h2 (only t.b (onSeg_right t) ⟨(1 - τ) / (σ - τ), div_nonneg (by linarith) hd.le, (div_le_one hd).2 (by linarith [not_le.1 h0]), ?_, ?_⟩)
        · rw [hb1, ha1]; field_simp; ring
        · rw [hb2, ha2]; field_simp; ring
  · simp only [Bool.not_eq_true] at hc
    simp [hc]


theorem onSeg_rev {a b w : Pt K} (h : OnSeg ⟨a, b⟩ w) : OnSeg ⟨b, a⟩ w := by
  obtain ⟨t, h1, h2, h3, h4⟩ := h
  exact ⟨1 - t, by linarith, by linarith, by rw [h3]; ring, by rw [h4]; ring⟩

/-- The first segment starts at the start of the line, the last one ends at its end. -/
theorem edges_head {pts : List (Pt K)} {s : Seg K} (h : (edges pts)[0]? = some s) : pts.head? = some s.a := by
  match pts, h with
  | a :: b :: l, h =>
    simp only [edges, List.getElem?_cons_zero, Option.some.injEq] at h
    rw [← h]; rfl
  | [], h => simp [edges] at h
  | [_], h => simp [edges] at h

theorem edges_last : ∀ {pts : List (Pt K)} {s : Seg K} {i : Nat}, (edges pts)[i]? = some s → i + 1 = (edges pts).length → pts.getLast? = some s.b
  | [], s, i, h, _ => by simp [edges] at h
  | [_], s, i, h, _ => by simp [edges] at h
  | [a, b], s, i, h, hi => by
    simp only [edges, List.length_cons, List.length_nil] at h hi
    rw [show i = 0 by omega] at h
    simp at h
    rw [← h]; rfl
  | a :: b :: c :: l, s, i, h, hi => by
    rw [List.getLast?_cons_cons]
    rw [show edges (a :: b :: c :: l) = ⟨a, b⟩ :: edges (b :: c :: l) from rfl] at h hi
    cases i with
    | zero => simp [edges] at hi
    | succ i =>
      rw [List.getElem?_cons_succ] at h
      exact edges_last h (by simpa using hi)

/-- `any_touching` of two segments with one point in common: it is an end of one of the lines. -/
theorem anyTouching_iff {pts qts : List (Pt K)} (ea : EndsOnce pts) (eb : EndsOnce qts) (ra : NoRepeat pts) (rb : NoRepeat qts) (no : NoOverlap pts qts)
    {s t : Seg K} {i j : Nat} (hs : (edges pts)[i]? = some s) (ht : (edges qts)[j]? = some t) {w : Pt K} (w1 : OnSeg s w) (w2 : OnSeg t w) :
    anyTouching (exact ε ns) s i (edges pts).length t j (edges qts).length = true ↔ IsEnd pts w ∨ IsEnd qts w := by
  have ms := List.mem_of_getElem? hs
  have mt := List.mem_of_getElem? ht
  have uniq := no s ms t mt
  have sa : segTouches0 (exact ε ns) t s.a s.b = true ↔ OnSeg t s.a := segTouches0_iff (rb t mt) (ra s ms) fun u v h1 h2 h3 h4 => uniq u v h2 h1 h4 h3
  have sb : segTouches0 (exact ε ns) t s.b s.a = true ↔ OnSeg t s.b :=
    segTouches0_iff (rb t mt) (ra s ms).symm fun u v h1 h2 h3 h4 => uniq u v (onSeg_rev h2) h1 (onSeg_rev h4) h3
  have ta : segTouches0 (exact ε ns) s t.a t.b = true ↔ OnSeg s t.a := segTouches0_iff (ra s ms) (rb t mt) fun u v h1 h2 h3 h4 => uniq u v h1 h2 h3 h4
  have tb : segTouches0 (exact ε ns) s t.b t.a = true ↔ OnSeg s t.b :=
    segTouches0_iff (ra s ms) (rb t mt).symm fun u v h1 h2 h3 h4 => uniq u v h1 (onSeg_rev h2) h3 (onSeg_rev h4)
  have eqw : ∀ u, OnSeg s u → OnSeg t u → u = w := fun u h1 h2 => uniq u w h1 h2 w1 w2
  rw [anyTouching]
  simp only [Bool.or_eq_true, Bool.and_eq_true, beq_iff_eq, sa, sb, ta, tb]
  constructor
  · rintro (((⟨rfl, h⟩ | ⟨hi, h⟩) | ⟨rfl, h⟩) | ⟨hj, h⟩)
    · exact .inl (.inl (by rw [edges_head hs, eqw _ (onSeg_left s) h]))
    · exact .inl (.inr (by rw [edges_last hs hi, eqw _ (onSeg_right s) h]))
    · exact .inr (.inl (by rw [edges_head ht, eqw _ h (onSeg_left t)]))
    · exact .inr (.inr (by rw [edges_last ht hj, eqw _ h (onSeg_right t)]))
  · rintro (h | h)
    · rcases ea i s w hs w1 h with ⟨rfl, h⟩ | ⟨hi, h⟩
      · rw [edges_head hs] at h
        exact .inl (.inl (.inl ⟨rfl, by rw [Option.some.inj h]; exact w2⟩))
      · rw [edges_last hs hi] at h
        exact .inl (.inl (.inr ⟨hi, by rw [Option.some.inj h]; exact w2⟩))
    · rcases eb j t w ht w2 h with ⟨rfl, h⟩ | ⟨hi, h⟩
      · rw [edges_head ht] at h
        exact .inl (.inr ⟨rfl, by rw [Option.some.inj h]; exact w1⟩)
      · rw [edges_last ht hi] at h
        exact .inr ⟨hi, by rw [Option.some.inj h]; exact w1⟩

theorem visit_every {γ : Type*} (p : γ → Bool) : ∀ (l : List γ) (b : Bool), visit (fun x (_ : Bool) => if p x then (true, true) else (false, false)) l b =
    if l = [] then b else l.all p
  | [], b => rfl
  | x :: l, b => by
    rw [visit]
    cases hx : p x with
    | false => simp [hx]
    | true =>
      simp only [if_true, hx, List.all_cons, Bool.true_and, reduceCtorEq, if_false]
      rw [visit_every p l true]
      cases l <;> simp

section
variable {P : Par K K} (hPf : P.f = Ix.exact) (hPA : P.A = exact ε ns) {s t : Series K} (hs : s.e.Ok) (ht : t.e.Ok) {a b : Ring K K}
  (ha : newIx Ix.exact (exact ε ns) s.e s.pts false s.ix = some a) (hb : newIx Ix.exact (exact ε ns) t.e t.pts false t.ix = some b)
include hPf hPA hs ht ha hb

/-- The answer: there are segments in common, and each pair of them touches. -/
theorem lineTouches_pairs : ∃ r, lineTouchesLine P a b = some r ∧ (r = true ↔
      (∃ w, OnBoundary (edges s.pts) w ∧ OnBoundary (edges t.pts) w) ∧ ∀ u i v j, (edges s.pts)[i]? = some u → (edges t.pts)[j]? = some v → Share u v →
        anyTouching (exact ε ns) u i (edges s.pts).length v j (edges t.pts).length = true) := by
  have hlen : ∀ {e : Env} {pts : List (Pt K)} {ix : BitVec 32} {line : Ring K K}, (segments pts false).length < pts.length ∨
      pts.length % spreadOf e ix = 0 ∨ line.index = none := by
    intro e pts ix line
    cases pts with
    | nil => right; left; simp
    | cons a l => left; rw [segments]; simp [edges_length]
  obtain ⟨l, -, h1, h2⟩ := C23_exact_partial hs ht ha hb hlen hlen
  obtain ⟨a1, -⟩ := newIx_some Ix.exact_lawful hs ha
  obtain ⟨b1, -⟩ := newIx_some Ix.exact_lawful ht hb
  rw [lineTouchesLine, hPf, hPA]
  have := h2 Bool (fun s i t j _ => if anyTouching (exact ε ns) s i a.nsegs t j b.nsegs then (true, true) else (false, false)) false
  rw [this, a1.nsegs_eq, b1.nsegs_eq, edges_segments, edges_segments]
  refine ⟨_, rfl, ?_⟩
  simp only [edges_segments] at h1
  have hv := visit_every (fun x : (Seg K × Nat) × (Seg K × Nat) => anyTouching (exact ε ns) x.1.1 x.1.2 (edges s.pts).length x.2.1 x.2.2 (edges t.pts).length) l false
  rw [show (visit _ l false) = _ from hv]
  constructor
  · intro h
    rcases hl : l with _ | ⟨⟨⟨u, i⟩, ⟨v, j⟩⟩, l'⟩
    · rw [hl] at h; simp at h
    · rw [if_neg (by rw [hl]; simp)] at h
      refine ⟨?_, fun u i v j hu hv hw => ?_⟩
      · obtain ⟨k1, k2, w, w1, w2⟩ := (h1 u i v j).1 (by rw [hl]; simp)
        exact ⟨w, ⟨u, List.mem_of_getElem? k1, w1⟩, ⟨v, List.mem_of_getElem? k2, w2⟩⟩
      · exact List.all_eq_true.1 h ((u, i), (v, j)) ((h1 u i v j).2 ⟨hu, hv, hw⟩)
  · rintro ⟨⟨w, ⟨u, hu, w1⟩, ⟨v, hv, w2⟩⟩, hall⟩
    obtain ⟨i, hi⟩ := List.mem_iff_getElem?.1 hu
    obtain ⟨j, hj⟩ := List.mem_iff_getElem?.1 hv
    have hm := (h1 u i v j).2 ⟨hi, hj, w, w1, w2⟩
    rw [if_neg (List.ne_nil_of_mem hm), List.all_eq_true]
    rintro ⟨⟨u, i⟩, ⟨v, j⟩⟩ hx
    obtain ⟨k1, k2, k3⟩ := (h1 u i v j).1 hx
    exact hall u i v j k1 k2 k3

end

end Tg.S
