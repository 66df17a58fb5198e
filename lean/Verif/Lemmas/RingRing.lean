import Verif.Model.RingRing
import Verif.Lemmas.SeriesSearch
import Mathlib.Data.List.ProdSigma
import Mathlib.Data.List.Nodup
import Mathlib.Data.List.Perm.Basic
/-! The search for pairs delivers each intersecting pair once. -/
namespace Tg.S

set_option linter.unusedSectionVars false

universe u

variable {α β : Type*} [LinearOrder α] [LinearOrder β]

/-- A pair of segments with their numbers. -/
abbrev Pair (α : Type*) := (Seg α × Nat) × (Seg α × Nat)

/-- Visit a list of pairs; the flag tells whether the end was reached. -/
def visitB {σ : Type*} (iter : Iter2 α σ) : List (Pair α) → σ → σ × Bool
  | [], st => (st, true)
  | x :: xs, st =>
    match iter x.1.1 x.1.2 x.2.1 x.2.2 st with
    | (st, true) => visitB iter xs st
    | (st, false) => (st, false)

theorem visitB_fst {σ : Type*} (iter : Iter2 α σ) : ∀ (l : List (Pair α)) (st : σ),
    (visitB iter l st).1 = visit (fun x : Pair α => iter x.1.1 x.1.2 x.2.1 x.2.2) l st
  | [], st => rfl
  | x :: xs, st => by
    rw [visitB, visit]
    rcases h : iter x.1.1 x.1.2 x.2.1 x.2.2 st with ⟨st', _ | _⟩
    · simp
    · simpa using visitB_fst iter xs st'

theorem visitB_append {σ : Type*} (iter : Iter2 α σ) : ∀ (l l' : List (Pair α)) (st : σ),
    some (visitB iter (l ++ l') st) = andThen (some (visitB iter l st)) (fun st => some (visitB iter l' st))
  | [], l', st => rfl
  | x :: xs, l', st => by
    rw [List.cons_append, visitB, visitB]
    rcases h : iter x.1.1 x.1.2 x.2.1 x.2.2 st with ⟨st', _ | _⟩
    · rfl
    · exact visitB_append iter xs l' st'

/-- A procedure with a callback: it delivers exactly the pairs with property `Q`, each once, in an order that does not
depend on the callback, until the callback returns false. -/
def Del (run : (σ : Type u) → Iter2 α σ → σ → Option (σ × Bool)) (Q : Pair α → Prop) : Prop :=
  ∃ l : List (Pair α), l.Nodup ∧ (∀ x, x ∈ l ↔ Q x) ∧ ∀ σ iter st, run σ iter st = some (visitB iter l st)

theorem Del.congr {run : (σ : Type u) → Iter2 α σ → σ → Option (σ × Bool)} {Q Q' : Pair α → Prop} (h : Del run Q)
    (hq : ∀ x, Q x ↔ Q' x) : Del run Q' := by
  obtain ⟨l, h1, h2, h3⟩ := h
  exact ⟨l, h1, fun x => (h2 x).trans (hq x), h3⟩

theorem Del.of_eq {run run' : (σ : Type u) → Iter2 α σ → σ → Option (σ × Bool)} {Q : Pair α → Prop}
    (he : ∀ σ iter st, run σ iter st = run' σ iter st) (h : Del run' Q) : Del run Q := by
  obtain ⟨l, h1, h2, h3⟩ := h
  exact ⟨l, h1, h2, fun σ iter st => (he σ iter st).trans (h3 σ iter st)⟩

theorem Del.skip {Q : Pair α → Prop} (hq : ∀ x, ¬ Q x) : Del (fun (σ : Type u) _ (st : σ) => some (st, true)) Q :=
  ⟨[], List.nodup_nil, fun x => by simp [hq x], fun _ _ _ => rfl⟩

theorem Del.range {R : Nat → (σ : Type u) → Iter2 α σ → σ → Option (σ × Bool)} {Q : Nat → Pair α → Prop}
    (hdis : ∀ i i' x, Q i x → Q i' x → i = i') : ∀ (k s : Nat), (∀ i, s ≤ i → i < s + k → Del (R i) (Q i)) →
    Del (fun σ iter => forRange (fun i => R i σ iter) s k) (fun x => ∃ i, s ≤ i ∧ i < s + k ∧ Q i x)
  | 0, s, _ => ⟨[], List.nodup_nil, fun x => by
      simp only [List.not_mem_nil, false_iff]; rintro ⟨i, h1, h2, -⟩; omega, fun _ _ _ => rfl⟩
  | k + 1, s, h => by
    obtain ⟨l, h1, h2, h3⟩ := h s le_rfl (by omega)
    obtain ⟨l', g1, g2, g3⟩ := Del.range hdis k (s + 1) (fun i hi1 hi2 => h i (by omega) (by omega))
    refine ⟨l ++ l', ?_, ?_, ?_⟩
    · refine List.nodup_append'.2 ⟨h1, g1, ?_⟩
      intro x hx hx'
      obtain ⟨i, e1, e2, e3⟩ := (g2 x).1 hx'
      have := hdis _ _ _ ((h2 x).1 hx) e3
      omega
    · intro x
      rw [List.mem_append, h2, g2]
      constructor
      · rintro (hx | ⟨i, e1, e2, e3⟩)
        · exact ⟨s, le_rfl, by omega, hx⟩
        · exact ⟨i, by omega, by omega, e3⟩
      · rintro ⟨i, e1, e2, e3⟩
        rcases Nat.eq_or_lt_of_le e1 with rfl | hlt
        · exact Or.inl e3
        · exact Or.inr ⟨i, hlt, by omega, e3⟩
    · intro σ iter st
      rw [visitB_append, ← h3]
      dsimp only
      rw [forRange_succ]
      congr 1
      funext st
      exact g3 σ iter st

theorem Del.gated {c : Option Bool} {call : (σ : Type u) → Iter2 α σ → σ → Option (σ × Bool)} {Q : Pair α → Prop} {b : Bool}
    (hc : c = some b) (h : b = true → Del call Q) (hskip : b = false → ∀ x, ¬ Q x) :
    Del (fun σ iter => gate c (call σ iter)) Q := by
  subst hc
  cases b with
  | true => exact h rfl
  | false => exact Del.skip (hskip rfl)

/-- `x` is a numbered segment of the list with a number in a range. -/
def InNode (segs : List (Seg α)) (lo hi : Nat) (x : Seg α × Nat) : Prop := lo ≤ x.2 ∧ x.2 < hi ∧ segs[x.2]? = some x.1

theorem InNode.lt {segs : List (Seg α)} {lo hi : Nat} {x : Seg α × Nat} (h : InNode segs lo hi x) : x.2 < segs.length := by
  by_contra hc
  have := h.2.2
  rw [List.getElem?_eq_none (by omega)] at this
  cases this

theorem segIntersects_rect {A : Arith α} {s t : Seg α} (h : segIntersects A s t = true) : s.rect.intersects t.rect = true := by
  unfold segIntersects at h
  by_contra hc
  rw [Bool.not_eq_true] at hc
  rw [hc] at h
  simp at h

theorem rect_intersects_comm (a b : Rect α) : a.intersects b = true ↔ b.intersects a = true := by
  rw [intersects_iff, intersects_iff]; tauto

/-- The points are in the range where widening the rounded value gives a bound. -/
structure Ix.Tight (f : Ix α β) (segs : List (Seg α)) : Prop where
  wide_mono : ∀ x y, x ≤ y → f.wide x ≤ f.wide y
  down : ∀ s ∈ segs, ∀ p : Pt α, p = s.a ∨ p = s.b → f.wide (f.down p.x) ≤ p.x ∧ f.wide (f.down p.y) ≤ p.y
  up : ∀ s ∈ segs, ∀ p : Pt α, p = s.a ∨ p = s.b → p.x ≤ f.wide (f.up p.x) ∧ p.y ≤ f.wide (f.up p.y)

theorem Ix.Tight.le {f : Ix α β} {segs : List (Seg α)} (h : f.Tight segs) {s : Seg α} (hs : s ∈ segs) {r : Rect β}
    (hle : (f.rect s.rect).Le r) : s.rect.Le (f.wideRect r) := by
  have da := h.down s hs s.a (Or.inl rfl)
  have db := h.down s hs s.b (Or.inr rfl)
  have ua := h.up s hs s.a (Or.inl rfl)
  have ub := h.up s hs s.b (Or.inr rfl)
  refine ⟨(h.wide_mono _ _ hle.1).trans ?_, le_trans ?_ (h.wide_mono _ _ hle.2.1), (h.wide_mono _ _ hle.2.2.1).trans ?_,
    le_trans ?_ (h.wide_mono _ _ hle.2.2.2)⟩
  · show f.wide (f.down (min s.a.x s.b.x)) ≤ min s.a.x s.b.x
    rcases min_choice s.a.x s.b.x with e | e <;> rw [e]
    exacts [da.1, db.1]
  · show max s.a.x s.b.x ≤ f.wide (f.up (max s.a.x s.b.x))
    rcases max_choice s.a.x s.b.x with e | e <;> rw [e]
    exacts [ua.1, ub.1]
  · show f.wide (f.down (min s.a.y s.b.y)) ≤ min s.a.y s.b.y
    rcases min_choice s.a.y s.b.y with e | e <;> rw [e]
    exacts [da.2, db.2]
  · show max s.a.y s.b.y ≤ f.wide (f.up (max s.a.y s.b.y))
    rcases max_choice s.a.y s.b.y with e | e <;> rw [e]
    exacts [ua.2, ub.2]

theorem Rect.intersects_mono {a a' b b' : Rect α} (h : a.intersects b = true) (ha : a.Le a') (hb : b.Le b') :
    a'.intersects b' = true := by
  rw [intersects_iff] at *
  obtain ⟨h1, h2, h3, h4⟩ := h
  exact ⟨hb.1.trans (h1.trans ha.2.1), ha.1.trans (h2.trans hb.2.1), hb.2.2.1.trans (h3.trans ha.2.2.2),
    ha.2.2.1.trans (h4.trans hb.2.2.2)⟩

/-- The pairs of two ranges that intersect. -/
def Hits (A : Arith α) (sa sb : List (Seg α)) (alo ahi blo bhi : Nat) (x : Pair α) : Prop :=
  InNode sa alo ahi x.1 ∧ InNode sb blo bhi x.2 ∧ segIntersects A x.1.1 x.2.1 = true

/-- Two nested loops over entries of size `P` and `R`. -/
theorem Del.loops {A : Arith α} {sa sb : List (Seg α)} {P R ai acnt bi bcnt alen blen : Nat} (hP : 0 < P) (hR : 0 < R)
    (hal : sa.length ≤ alen * P) (hbl : sb.length ≤ blen * R)
    {body : Nat → Nat → (σ : Type u) → Iter2 α σ → σ → Option (σ × Bool)}
    (h : ∀ i j, i < alen → j < blen → Del (body i j) (Hits A sa sb (i * P) ((i + 1) * P) (j * R) ((j + 1) * R))) :
    Del (fun σ iter => forRange (fun i => forRange (fun j => body i j σ iter) bi (min (bi + bcnt) blen - bi)) ai
        (min (ai + acnt) alen - ai))
      (Hits A sa sb (ai * P) ((ai + acnt) * P) (bi * R) ((bi + bcnt) * R)) := by
  have blk : ∀ {P i i' m : Nat}, 0 < P → i * P ≤ m → m < (i + 1) * P → i' * P ≤ m → m < (i' + 1) * P → i = i' := by
    intro P i i' m hP h1 h2 h3 h4
    have e1 : m / P = i := Nat.div_eq_of_lt_le h1 h2
    have e2 : m / P = i' := Nat.div_eq_of_lt_le h3 h4
    omega
  have find : ∀ {P len a c m n : Nat}, 0 < P → n ≤ len * P → m < n → 
      ((∃ i, a ≤ i ∧ i < a + (min (a + c) len - a) ∧ i * P ≤ m ∧ m < (i + 1) * P) ↔ a * P ≤ m ∧ m < (a + c) * P) := by
    intro P len a c m n hP hl hm
    constructor
    · rintro ⟨i, h1, h2, h3, h4⟩
      have := Nat.mul_le_mul_right P h1
      have := Nat.mul_le_mul_right P (show i + 1 ≤ a + c by omega)
      omega
    · rintro ⟨h1, h2⟩
      have d1 : a ≤ m / P := (Nat.le_div_iff_mul_le hP).2 h1
      have d2 : m / P < a + c := (Nat.div_lt_iff_lt_mul hP).2 h2
      have d3 : m / P < len := (Nat.div_lt_iff_lt_mul hP).2 (by omega)
      refine ⟨m / P, d1, by omega, Nat.div_mul_le_self m P, ?_⟩
      rw [Nat.mul_comm]
      exact Nat.lt_mul_div_succ m hP
  refine (Del.range (Q := fun i x => ∃ j, bi ≤ j ∧ j < bi + (min (bi + bcnt) blen - bi) ∧ 
    Hits A sa sb (i * P) ((i + 1) * P) (j * R) ((j + 1) * R) x) ?_ _ _ ?_).congr ?_
  · rintro i i' x ⟨j, -, -, hx, -⟩ ⟨j', -, -, hx', -⟩
    exact blk hP hx.1 hx.2.1 hx'.1 hx'.2.1
  · intro i hi1 hi2
    refine Del.range ?_ _ _ ?_
    · rintro j j' x ⟨-, hx, -⟩ ⟨-, hx', -⟩
      exact blk hR hx.1 hx.2.1 hx'.1 hx'.2.1
    · intro j hj1 hj2
      exact h i j (by omega) (by omega)
  · intro x
    constructor
    · rintro ⟨i, hi1, hi2, j, hj1, hj2, ⟨hxa, hxb, hint⟩⟩
      have ha := (find (P := P) (len := alen) (a := ai) (c := acnt) (m := x.1.2) (n := sa.length) hP hal hxa.lt).1 
        ⟨i, hi1, hi2, hxa.1, hxa.2.1⟩
      have hb := (find (P := R) (len := blen) (a := bi) (c := bcnt) (m := x.2.2) (n := sb.length) hR hbl hxb.lt).1 
        ⟨j, hj1, hj2, hxb.1, hxb.2.1⟩
      exact ⟨⟨ha.1, ha.2, hxa.2.2⟩, ⟨hb.1, hb.2, hxb.2.2⟩, hint⟩
    · rintro ⟨hxa, hxb, hint⟩
      obtain ⟨i, hi1, hi2, hi3, hi4⟩ := (find (P := P) (len := alen) (a := ai) (c := acnt) (m := x.1.2) (n := sa.length) hP hal hxa.lt).2
        ⟨hxa.1, hxa.2.1⟩
      obtain ⟨j, hj1, hj2, hj3, hj4⟩ := (find (P := R) (len := blen) (a := bi) (c := bcnt) (m := x.2.2) (n := sb.length) hR hbl hxb.lt).2
        ⟨hxb.1, hxb.2.1⟩
      exact ⟨i, hi1, hi2, j, hj1, hj2, ⟨hi3, hi4, hxa.2.2⟩, ⟨hj3, hj4, hxb.2.2⟩, hint⟩

theorem pairLeaf_del {A : Arith α} {sa sb : List (Seg α)} {ap bp : List (Pt α)} {i j : Nat} (hi : i < sa.length) (hj : j < sb.length)
    (ha : segAt ap i = some sa[i]) (hb : segAt bp j = some sb[j]) :
    Del (fun (σ : Type u) (iter : Iter2 α σ) => pairLeaf A ap bp iter i j)
      (Hits A sa sb (i * 1) ((i + 1) * 1) (j * 1) ((j + 1) * 1)) := by
  have hiff : ∀ x : Pair α, Hits A sa sb (i * 1) ((i + 1) * 1) (j * 1) ((j + 1) * 1) x ↔
      x = ((sa[i], i), (sb[j], j)) ∧ segIntersects A sa[i] sb[j] = true := by
    rintro ⟨⟨s, i'⟩, ⟨t, j'⟩⟩
    constructor
    · rintro ⟨⟨h1, h2, h3⟩, ⟨g1, g2, g3⟩, h⟩
      simp only at *
      obtain rfl : i' = i := by omega
      obtain rfl : j' = j := by omega
      rw [List.getElem?_eq_getElem hi] at h3
      rw [List.getElem?_eq_getElem hj] at g3
      cases h3
      cases g3
      exact ⟨rfl, h⟩
    · rintro ⟨he, h⟩
      cases he
      exact ⟨⟨by simp, by simp, List.getElem?_eq_getElem hi⟩, ⟨by simp, by simp, List.getElem?_eq_getElem hj⟩, h⟩
  by_cases hx : segIntersects A sa[i] sb[j] = true
  · refine ⟨[((sa[i], i), (sb[j], j))], List.nodup_singleton _, ?_, ?_⟩
    · intro x
      rw [List.mem_singleton, hiff]
      exact ⟨fun h => ⟨h, hx⟩, fun h => h.1⟩
    · intro σ iter st
      simp only [pairLeaf, ha, hb]
      rw [if_pos hx, visitB]
      rcases iter sa[i] i sb[j] j st with ⟨st', _ | _⟩ <;> rfl
  · refine ⟨[], List.nodup_nil, ?_, ?_⟩
    · intro x
      rw [hiff]
      simp [hx]
    · intro σ iter st
      simp only [pairLeaf, ha, hb]
      rw [if_neg hx]
      rfl

/-- The recursive search delivers the intersecting pairs of the two ranges. -/
theorem ringRingIx_del {f : Ix α β} (hf : f.Lawful) {A : Arith α} {sa sb : List (Seg α)} {ap bp : List (Pt α)} {P R : Nat}
    (hP : 2 ≤ P) (hR : 2 ≤ R) (hta : f.Tight sa) (htb : f.Tight sb)
    (ha : ∀ i (h : i < sa.length), segAt ap i = some sa[i]) (hb : ∀ i (h : i < sb.length), segAt bp i = some sb[i]) :
    ∀ (n : Nat) (la lb : List (List (Rect β))), la.length + lb.length = n → Levels P sa.length (extOf f sa) la →
    Levels R sb.length (extOf f sb) lb → ∀ (ai asp bi bsp : Nat), (la ≠ [] → asp = P) → (lb ≠ [] → bsp = R) →
    Del (fun (σ : Type u) (iter : Iter2 α σ) => ringRingIx f A ap bp sa.length sb.length P R iter la lb ai asp bi bsp)
      (Hits A sa sb (ai * P ^ la.length) ((ai + asp) * P ^ la.length) (bi * R ^ lb.length) ((bi + bsp) * R ^ lb.length)) := by
  intro n
  induction n using Nat.strong_induction_on with
  | _ n ih =>
  have cov : ∀ {P : Nat} {sa : List (Seg α)} {l : List (Rect β)} {ls : List (List (Rect β))} {i : Nat} (hi : i < l.length) 
      {x : Seg α × Nat}, 2 ≤ P → Levels P sa.length (extOf f sa) (l :: ls) → 
      InNode sa (i * P ^ (ls.length + 1)) ((i + 1) * P ^ (ls.length + 1)) x → (f.rect x.1.rect).Le l[i] := by
    intro P sa l ls i hi x hP hl hx
    refine hl.covers hP ls l i l[i] (List.getElem?_eq_getElem hi) x.2 _ hx.1 hx.2.1 hx.lt ?_
    rw [extOf, hx.2.2]
    rfl
  have e1 : ∀ i P k : Nat, i * P * P ^ k = i * P ^ (k + 1) := by intro i P k; ring
  have e2 : ∀ i P k : Nat, (i * P + P) * P ^ k = (i + 1) * P ^ (k + 1) := by intro i P k; ring
  intro la lb hn hla hlb ai asp bi bsp hasp hbsp
  match la, lb with
  | [], [] =>
    simp only [List.length_nil, pow_zero]
    refine Del.of_eq (fun σ iter st => ringRingIx.eq_1 ..) ?_
    refine Del.loops (sa := sa) (sb := sb) (P := 1) (R := 1) (alen := sa.length) (blen := sb.length) (by omega) (by omega) (by omega) (by omega) ?_
    intro i j hi hj
    exact pairLeaf_del hi hj (ha i hi) (hb j hj)
  | [], l :: ls =>
    obtain rfl := hbsp (by simp)
    simp only [List.length_nil, pow_zero, List.length_cons]
    refine Del.of_eq (fun σ iter st => ringRingIx.eq_2 ..) ?_
    refine Del.loops (sa := sa) (sb := sb) (P := 1) (R := bsp ^ (ls.length + 1)) (alen := sa.length) (blen := l.length) (by omega) (Nat.pow_pos (by omega)) (by omega)
      (by rw [← numKeys_le_iff hR, hlb.1]) ?_
    intro i j hi hj
    refine Del.gated (b := sa[i].rect.intersects (f.wideRect l[j])) ?_ ?_ ?_
    · rw [testLeafBranch, ha i hi, List.getElem?_eq_getElem hj]
    · intro _
      have := ih ls.length (by simp only [List.length_cons, List.length_nil] at hn; omega) [] ls (by simp) trivial hlb.2.2 i 1 (j * bsp) bsp
        (by simp) (by simp)
      rwa [List.length_nil, pow_zero, e1, e2] at this
    · rintro hfalse ⟨x, y⟩ ⟨hx, hy, hxy⟩
      have hle := cov hj hR hlb hy
      have hsx : x.1 = sa[i] := by
        have h1 := hx.1
        have h2 := hx.2.1
        have h3 := hx.2.2
        have : x.2 = i := by dsimp only at h1 h2; omega
        rw [this, List.getElem?_eq_getElem hi] at h3
        exact (Option.some.inj h3).symm
      have := Rect.intersects_mono (segIntersects_rect hxy) (Rect.Le.refl _) (htb.le (List.mem_of_getElem? hy.2.2) hle)
      rw [hsx, hfalse] at this
      cases this
  | l :: ls, [] =>
    obtain rfl := hasp (by simp)
    simp only [List.length_nil, pow_zero, List.length_cons]
    refine Del.of_eq (fun σ iter st => ringRingIx.eq_3 ..) ?_
    refine Del.loops (sa := sa) (sb := sb) (P := asp ^ (ls.length + 1)) (R := 1) (alen := l.length) (blen := sb.length) (Nat.pow_pos (by omega)) (by omega) 
      (by rw [← numKeys_le_iff hP, hla.1]) (by omega) ?_
    intro i j hi hj
    refine Del.gated (b := (f.wideRect l[i]).intersects sb[j].rect) ?_ ?_ ?_
    · rw [testBranchLeaf, hb j hj, List.getElem?_eq_getElem hi]
    · intro _
      have := ih ls.length (by simp only [List.length_cons, List.length_nil] at hn; omega) ls [] (by simp) hla.2.2 trivial (i * asp) asp j 1
        (by simp) (by simp)
      rwa [List.length_nil, pow_zero, e1, e2] at this
    · rintro hfalse ⟨x, y⟩ ⟨hx, hy, hxy⟩
      have hle := cov hi hP hla hx
      have hsy : y.1 = sb[j] := by
        have h1 := hy.1
        have h2 := hy.2.1
        have h3 := hy.2.2
        have : y.2 = j := by dsimp only at h1 h2; omega
        rw [this, List.getElem?_eq_getElem hj] at h3
        exact (Option.some.inj h3).symm
      have := Rect.intersects_mono (segIntersects_rect hxy) (hta.le (List.mem_of_getElem? hx.2.2) hle) (Rect.Le.refl _)
      rw [hsy, hfalse] at this
      cases this
  | l :: ls, m :: ms =>
    obtain rfl := hasp (by simp)
    obtain rfl := hbsp (by simp)
    simp only [List.length_cons]
    refine Del.of_eq (fun σ iter st => ringRingIx.eq_4 ..) ?_
    refine Del.loops (sa := sa) (sb := sb) (alen := l.length) (blen := m.length) (P := asp ^ (ls.length + 1)) (R := bsp ^ (ms.length + 1)) (Nat.pow_pos (by omega)) (Nat.pow_pos (by omega)) 
      (by rw [← numKeys_le_iff hP, hla.1]) (by rw [← numKeys_le_iff hR, hlb.1]) ?_
    intro i j hi hj
    refine Del.gated (b := ixIntersects l[i] m[j]) ?_ ?_ ?_
    · rw [testBranches, List.getElem?_eq_getElem hi, List.getElem?_eq_getElem hj]
    · intro _
      have := ih (ls.length + ms.length) (by simp only [List.length_cons] at hn; omega) ls ms rfl hla.2.2 hlb.2.2 (i * asp) asp
        (j * bsp) bsp (by simp) (by simp)
      rwa [e1, e2, e1, e2] at this
    · rintro hfalse ⟨x, y⟩ ⟨hx, hy, hxy⟩
      have hlx := cov hi hP hla hx
      have hly := cov hj hR hlb hy
      have := hf.search_maybe (q := y.1.rect) (s := x.1) (r := l[i]) hlx
        ((rect_intersects_comm _ _).1 (segIntersects_rect hxy))
      rw [ixIntersects_iff] at this
      have h2 : ixIntersects l[i] m[j] = true := by
        rw [ixIntersects_iff]
        exact ⟨this.1.trans hly.2.2.2, hly.2.2.1.trans this.2.1, this.2.2.1.trans hly.2.1, hly.1.trans this.2.2.2⟩
      rw [h2] at hfalse
      cases hfalse

/-- One search of the other ring for a segment. -/
theorem search_del {f : Ix α β} (hf : f.Lawful) {pts : List (Pt α)} {closed : Bool} {ixspread : Nat} {ring : Ring α β}
    (h : RingOk f pts closed ixspread ring) (hc : LeavesCover pts closed ixspread ∨ ring.index = none)
    {A : Arith α} (seg : Seg α) (k : Nat) (mk : Seg α × Nat → Pair α) (hmk : ∀ x y, mk x = mk y → x = y)
    (swapped : Bool) (hsw : ∀ x, mk x = if swapped then ((seg, k), x) else (x, (seg, k)))  :
    Del (fun (σ : Type u) (iter : Iter2 α σ) => ringSearch f ring seg.rect (ringRingIter A iter seg k swapped))
      (fun p => ∃ x, p = mk x ∧ InNode (segments pts closed) 0 (segments pts closed).length x ∧ segIntersects A x.1 seg = true) := by
  have hstep : ∀ i, i < (segments pts closed).length →
      Del (fun (σ : Type u) (iter : Iter2 α σ) => searchLeaf ring.points seg.rect (ringRingIter A iter seg k swapped) i)
        (fun p => ∃ x, p = mk x ∧ x.2 = i ∧ (segments pts closed)[i]? = some x.1 ∧ segIntersects A x.1 seg = true) := by
    intro i hi
    by_cases hx : segIntersects A (segments pts closed)[i] seg = true
    · refine ⟨[mk ((segments pts closed)[i], i)], List.nodup_singleton _, ?_, ?_⟩
      · intro p
        rw [List.mem_singleton]
        constructor
        · rintro rfl
          exact ⟨_, rfl, rfl, List.getElem?_eq_getElem hi, hx⟩
        · rintro ⟨⟨s, i'⟩, rfl, rfl, h3, -⟩
          rw [List.getElem?_eq_getElem hi, Option.some.injEq] at h3
          rw [h3]
      · intro σ iter st
        simp only [searchLeaf, h.segAt hi]
        rw [if_pos ((rect_intersects_comm _ _).1 (segIntersects_rect hx)), ringRingIter, if_pos hx, visitB, hsw]
        cases swapped
        · simp only [Bool.false_eq_true, ↓reduceIte]
          rcases iter (segments pts closed)[i] i seg k st with ⟨st', _ | _⟩ <;> rfl
        · simp only [↓reduceIte]
          rcases iter seg k (segments pts closed)[i] i st with ⟨st', _ | _⟩ <;> rfl
    · refine ⟨[], List.nodup_nil, ?_, ?_⟩
      · intro p
        simp only [List.not_mem_nil, false_iff]
        rintro ⟨⟨s, i'⟩, rfl, rfl, h3, h4⟩
        rw [List.getElem?_eq_getElem hi, Option.some.injEq] at h3
        rw [h3] at hx
        exact hx h4
      · intro σ iter st
        simp only [searchLeaf, h.segAt hi, ringRingIter]
        rw [if_neg hx, ite_self]
        rfl
  refine Del.of_eq (fun σ iter st => ringSearch_eq hf h hc _ _ _) ?_
  refine (Del.range (R := fun i σ iter => searchLeaf ring.points seg.rect (ringRingIter A iter seg k swapped) i) 
    (Q := fun i p => ∃ x, p = mk x ∧ x.2 = i ∧ (segments pts closed)[i]? = some x.1 ∧ segIntersects A x.1 seg = true) 
    ?_ ring.nsegs 0 ?_).congr ?_
  · rintro i i' p ⟨x, rfl, rfl, -⟩ ⟨y, hy, rfl, -⟩
    rw [hmk _ _ hy]
  · intro i _ hi
    exact hstep i (by rw [← h.nsegs_eq]; omega)
  · intro p
    constructor
    · rintro ⟨i, -, hi, x, rfl, rfl, h3, h4⟩
      exact ⟨x, rfl, ⟨by omega, by rw [← h.nsegs_eq]; omega, h3⟩, h4⟩
    · rintro ⟨x, rfl, ⟨-, h2, h3⟩, h4⟩
      exact ⟨x.2, by omega, by rw [h.nsegs_eq]; omega, x, rfl, rfl, h3, h4⟩

theorem isEmpty_segments {f : Ix α β} {pts : List (Pt α)} {closed : Bool} {ixspread : Nat} {ring : Ring α β}
    (h : RingOk f pts closed ixspread ring) (he : ring.isEmpty = true) : segments pts closed = [] := by
  rw [Ring.isEmpty, h.closed_eq, h.npoints_eq, Bool.or_eq_true, Bool.and_eq_true, decide_eq_true_eq, decide_eq_true_eq] at he
  apply List.eq_nil_of_length_eq_zero
  unfold segments
  split_ifs with h1 h2 h3
  · rw [edges_length]
    rcases he with ⟨rfl, he⟩ | he
    · simp at h1
    · omega
  · rfl
  · omega
  · omega

/-- The arithmetic with the segments exchanged. -/
def Arith.flip (A : Arith α) : Arith α := { A with segX := fun s t => A.segX t s }

theorem segIntersects_flip (A : Arith α) (s t : Seg α) : segIntersects A.flip s t = segIntersects A t s := by
  unfold segIntersects
  have h1 : t.rect.intersects s.rect = s.rect.intersects t.rect := by
    rw [Bool.eq_iff_iff]; exact rect_intersects_comm _ _
  have h2 : (pteq t.a s.a || pteq t.a s.b || pteq t.b s.a || pteq t.b s.b) = (pteq s.a t.a || pteq s.a t.b || pteq s.b t.a || pteq s.b t.b) := by
    rw [Bool.eq_iff_iff]
    simp only [Bool.or_eq_true, pteq_iff]
    constructor <;> (rintro (((h | h) | h) | h) <;> simp [h])
  rw [h1, h2]
  rfl

/-- The order in which `tg_ring_ring_search` hands two segments to the test: exchanged if only the second ring has an index (tg.c:2472-2484). -/
def Arith.order (A : Arith α) (a b : Ring α β) : Arith α := if a.index = none ∧ b.index ≠ none then A.flip else A

theorem Arith.flip_symm {A : Arith α} (hA : ∀ s t, A.segX s t = A.segX t s) : A.flip = A := by
  unfold Arith.flip
  have : (fun s t => A.segX t s) = A.segX := by funext s t; exact hA t s
  rw [this]

/-- `tg_ring_ring_search` delivers the intersecting pairs, whatever the arithmetic. -/
theorem ringRingSearch_order {f : Ix α β} (hf : f.Lawful) {A : Arith α}
    {pa pb : List (Pt α)} {ca cb : Bool} {spa spb : Nat} {a b : Ring α β} (ha : RingOk f pa ca spa a) (hb : RingOk f pb cb spb b)
    (hca : LeavesCover pa ca spa ∨ a.index = none) (hcb : LeavesCover pb cb spb ∨ b.index = none)
    (hta : f.Tight (segments pa ca)) (htb : f.Tight (segments pb cb)) :
    Del (fun (σ : Type u) (iter : Iter2 α σ) => ringRingSearch f A a b iter)
      (Hits (A.order a b) (segments pa ca) (segments pb cb) 0 (segments pa ca).length 0 (segments pb cb).length) := by
  unfold ringRingSearch
  by_cases h0 : (a.isEmpty || b.isEmpty || !a.rect.intersects b.rect) = true
  · refine Del.of_eq (fun σ iter st => if_pos h0) (Del.skip ?_)
    rintro ⟨x, y⟩ ⟨hx, hy, hxy⟩
    have hx' : x.1 ∈ segments pa ca := List.mem_of_getElem? hx.2.2
    have hy' : y.1 ∈ segments pb cb := List.mem_of_getElem? hy.2.2
    rw [Bool.or_eq_true, Bool.or_eq_true] at h0
    rcases h0 with (h0 | h0) | h0
    · rw [isEmpty_segments ha h0] at hx'; cases hx'
    · rw [isEmpty_segments hb h0] at hy'; cases hy'
    · have two : ∀ {pts : List (Pt α)} {c : Bool} {s : Seg α}, s ∈ segments pts c → 2 ≤ pts.length := by
        intro pts c s hs
        by_contra hlt
        have : (segments pts c).length = 0 := by
          unfold segments
          split_ifs <;> simp [edges_length] <;> omega
        rw [List.eq_nil_of_length_eq_zero this] at hs
        cases hs
      obtain ⟨a1, a2⟩ := seg_mem_pts hx'
      obtain ⟨b1, b2⟩ := seg_mem_pts hy'
      have := Rect.intersects_mono (segIntersects_rect hxy) (Seg.rect_le (ha.rect_has (two hx') _ a1) (ha.rect_has (two hx') _ a2))
        (Seg.rect_le (hb.rect_has (two hy') _ b1) (hb.rect_has (two hy') _ b2))
      rw [this] at h0
      cases h0
  · refine Del.of_eq (fun σ iter st => if_neg h0) ?_
    have sA : ∀ i (h : i < (segments pa ca).length), segAt a.points i = some (segments pa ca)[i] := fun i h => ha.segAt h
    have sB : ∀ i (h : i < (segments pb cb).length), segAt b.points i = some (segments pb cb)[i] := fun i h => hb.segAt h
    cases hia : a.index with
    | some ia =>
      have hoka := ha.index_ok ia hia (by rcases hca with h | h; exacts [h, by rw [hia] at h; cases h])
      cases hib : b.index with
      | some ib =>
        rw [Arith.order, if_neg (by rw [hia]; simp)]
        have hokb := hb.index_ok ib hib (by rcases hcb with h | h; exacts [h, by rw [hib] at h; cases h])
        dsimp only
        rw [ha.nsegs_eq, hb.nsegs_eq]
        refine (ringRingIx_del hf hoka.spread hokb.spread hta htb sA sB _ ia.levels ib.levels rfl hoka.levels hokb.levels
          0 ia.spread 0 ib.spread (fun _ => rfl) (fun _ => rfl)).congr ?_
        intro x
        have ra := hoka.root
        have rb := hokb.root
        constructor
        · rintro ⟨h1, h2, h3⟩
          exact ⟨⟨Nat.zero_le _, h1.lt, h1.2.2⟩, ⟨Nat.zero_le _, h2.lt, h2.2.2⟩, h3⟩
        · rintro ⟨h1, h2, h3⟩
          have := h1.lt
          have := h2.lt
          exact ⟨⟨by simp, by rw [Nat.zero_add]; omega, h1.2.2⟩, ⟨by simp, by rw [Nat.zero_add]; omega, h2.2.2⟩, h3⟩
      | none =>
        rw [Arith.order, if_neg (by rw [hia]; simp)]
        dsimp only
        rw [hb.nsegs_eq]
        refine (Del.range (R := fun i σ iter => oneIndexBody f A a b iter false i) (Q := fun i p => 
          (∃ x, p = (x, ((segments pb cb)[i]?.getD ⟨p.2.1.a, p.2.1.b⟩, i)) ∧ InNode (segments pa ca) 0 (segments pa ca).length x ∧ 
            segIntersects A x.1 ((segments pb cb)[i]?.getD ⟨p.2.1.a, p.2.1.b⟩) = true)) ?_ _ 0 ?_).congr ?_
        · rintro i i' p ⟨x, h1, -⟩ ⟨y, h2, -⟩
          rw [h1] at h2
          simp only [Prod.mk.injEq] at h2
          exact h2.2.2
        · intro i _ hi
          have hi' : i < (segments pb cb).length := by omega
          rw [List.getElem?_eq_getElem hi']
          refine Del.of_eq (run' := fun σ iter => ringSearch f a (segments pb cb)[i].rect
            (ringRingIter A iter (segments pb cb)[i] i false)) ?_ ?_
          · intro σ iter st
            rw [oneIndexBody, sB i hi']
          · exact search_del hf ha hca (segments pb cb)[i] i (fun x => (x, ((segments pb cb)[i], i)))
              (fun x y h => (Prod.mk.inj h).1) false (fun x => rfl)
        · rintro ⟨x, y⟩
          constructor
          · rintro ⟨i, -, hi, x', he, hn, hint⟩
            have hi' : i < (segments pb cb).length := by omega
            rw [List.getElem?_eq_getElem hi'] at he hint
            simp only [Option.getD_some, Prod.mk.injEq] at he hint
            obtain ⟨rfl, rfl⟩ := he
            exact ⟨hn, ⟨Nat.zero_le _, hi', List.getElem?_eq_getElem hi'⟩, hint⟩
          · rintro ⟨h1, h2, h3⟩
            refine ⟨y.2, Nat.zero_le _, by have := h2.lt; dsimp only at this; omega, x, ?_, h1, ?_⟩
            · rw [h2.2.2]; rfl
            · rw [h2.2.2]; exact h3
    | none =>
      cases hib : b.index with
      | some ib =>
        dsimp only
        rw [ha.nsegs_eq]
        refine (Del.range (R := fun i σ iter => oneIndexBody f A b a iter true i) (Q := fun i p => 
          (∃ x, p = (((segments pa ca)[i]?.getD ⟨p.1.1.a, p.1.1.b⟩, i), x) ∧ InNode (segments pb cb) 0 (segments pb cb).length x ∧ 
            segIntersects A x.1 ((segments pa ca)[i]?.getD ⟨p.1.1.a, p.1.1.b⟩) = true)) ?_ _ 0 ?_).congr ?_
        · rintro i i' p ⟨x, h1, -⟩ ⟨y, h2, -⟩
          rw [h1] at h2
          simp only [Prod.mk.injEq] at h2
          exact h2.1.2
        · intro i _ hi
          have hi' : i < (segments pa ca).length := by omega
          rw [List.getElem?_eq_getElem hi']
          refine Del.of_eq (run' := fun σ iter => ringSearch f b (segments pa ca)[i].rect
            (ringRingIter A iter (segments pa ca)[i] i true)) ?_ ?_
          · intro σ iter st
            rw [oneIndexBody, sA i hi']
          · exact search_del hf hb hcb (segments pa ca)[i] i (fun x => (((segments pa ca)[i], i), x))
              (fun x y h => (Prod.mk.inj h).2) true (fun x => rfl)
        · rintro ⟨x, y⟩
          constructor
          · rintro ⟨i, -, hi, x', he, hn, hint⟩
            have hi' : i < (segments pa ca).length := by omega
            rw [List.getElem?_eq_getElem hi'] at he hint
            simp only [Option.getD_some, Prod.mk.injEq] at he hint
            obtain ⟨rfl, rfl⟩ := he
            exact ⟨⟨Nat.zero_le _, hi', List.getElem?_eq_getElem hi'⟩, hn, by rw [Arith.order, if_pos ⟨hia, by rw [hib]; simp⟩, segIntersects_flip]; exact hint⟩
          · rintro ⟨h1, h2, h3⟩
            refine ⟨x.2, Nat.zero_le _, by have := h1.lt; dsimp only at this; omega, y, ?_, h2, ?_⟩
            · rw [h1.2.2]; rfl
            · rw [h1.2.2]; rw [Arith.order, if_pos ⟨hia, by rw [hib]; simp⟩, segIntersects_flip] at h3; exact h3
      | none =>
        rw [Arith.order, if_neg (by rw [hib]; simp)]
        dsimp only
        have := Del.loops (A := A) (sa := segments pa ca) (sb := segments pb cb) (P := 1) (R := 1) (ai := 0)
          (acnt := (segments pa ca).length) (bi := 0) (bcnt := (segments pb cb).length) (alen := (segments pa ca).length)
          (blen := (segments pb cb).length) (by omega) (by omega) (by omega) (by omega)
          (body := fun i j (σ : Type u) (iter : Iter2 α σ) => pairLeaf A a.points b.points iter i j) (by
            intro i j hi hj
            exact pairLeaf_del hi hj (sA i hi) (sB j hj))
        simpa [ha.nsegs_eq, hb.nsegs_eq] using this

/-- `tg_ring_ring_search` delivers the intersecting pairs. -/
theorem ringRingSearch_del {f : Ix α β} (hf : f.Lawful) {A : Arith α} (hA : ∀ s t, A.segX s t = A.segX t s)
    {pa pb : List (Pt α)} {ca cb : Bool} {spa spb : Nat} {a b : Ring α β} (ha : RingOk f pa ca spa a) (hb : RingOk f pb cb spb b)
    (hca : LeavesCover pa ca spa ∨ a.index = none) (hcb : LeavesCover pb cb spb ∨ b.index = none)
    (hta : f.Tight (segments pa ca)) (htb : f.Tight (segments pb cb)) :
    Del (fun (σ : Type u) (iter : Iter2 α σ) => ringRingSearch f A a b iter)
      (Hits A (segments pa ca) (segments pb cb) 0 (segments pa ca).length 0 (segments pb cb).length) := by
  have := ringRingSearch_order hf (A := A) ha hb hca hcb hta htb
  rwa [Arith.order, Arith.flip_symm hA, ite_self] at this

/-- In terms of lists: the delivered pairs are the intersecting ones, in some order. -/
theorem Del.perm {run : (σ : Type u) → Iter2 α σ → σ → Option (σ × Bool)} {A : Arith α} {sa sb : List (Seg α)}
    (h : Del run (Hits A sa sb 0 sa.length 0 sb.length)) :
    ∃ l : List (Pair α), l.Perm ((sa.zipIdx.product sb.zipIdx).filter fun x => segIntersects A x.1.1 x.2.1) ∧
      ∀ σ iter st, (run σ iter st).map (·.1) = some (visit (fun x : Pair α => iter x.1.1 x.1.2 x.2.1 x.2.2) l st) := by
  obtain ⟨l, h1, h2, h3⟩ := h
  have hzip : ∀ (l : List (Seg α)), l.zipIdx.Nodup := by
    intro l
    have : (l.zipIdx.map Prod.snd).Nodup := by
      rw [List.zipIdx_map_snd]
      exact List.nodup_range'
    exact List.Nodup.of_map _ this
  refine ⟨l, ?_, fun σ iter st => by rw [h3]; simp [visitB_fst]⟩
  refine (List.perm_ext_iff_of_nodup h1 ?_).2 ?_
  · exact (List.Nodup.product (hzip sa) (hzip sb)).filter _
  · rintro ⟨⟨s, i⟩, ⟨t, j⟩⟩
    rw [h2, List.mem_filter, List.pair_mem_product]
    simp only [Hits, InNode, List.mem_zipIdx_iff_getElem?]
    constructor
    · rintro ⟨⟨-, -, a3⟩, ⟨-, -, b3⟩, h⟩
      exact ⟨⟨a3, b3⟩, h⟩
    · rintro ⟨⟨a3, b3⟩, h⟩
      have ha : i < sa.length := by
        by_contra hc; rw [List.getElem?_eq_none (by omega)] at a3; cases a3
      have hb : j < sb.length := by
        by_contra hc; rw [List.getElem?_eq_none (by omega)] at b3; cases b3
      exact ⟨⟨Nat.zero_le _, ha, a3⟩, ⟨Nat.zero_le _, hb, b3⟩, h⟩

end Tg.S
