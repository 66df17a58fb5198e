import Verif.Lemmas.ExactRay
import Verif.Lemmas.SeriesApi
import Verif.Lemmas.SeriesPip
import Mathlib.Data.List.Rotate
/-! The answer of the point test as a function of the set of segments. -/
namespace Tg.S

set_option linter.unusedSectionVars false

section order
variable {α β : Type*} [LinearOrder α] [LinearOrder β]

/-- The answer for a list of segments. -/
def pipAns (A : Arith α) (p : Pt α) (edge : Bool) (segs : List (Seg α)) : Bool :=
  if ∃ s ∈ segs, raycast A s p = .on then edge else decide ((segs.countP fun s => raycast A s p = .in_) % 2 = 1)

theorem pipAns_perm {A : Arith α} {p : Pt α} {edge : Bool} {l m : List (Seg α)} (h : l.Perm m) : pipAns A p edge l = pipAns A p edge m := by
  unfold pipAns
  rw [h.countP_eq]
  simp only [h.mem_iff]

/-- The segment in the other direction. -/
def Seg.swap (s : Seg α) : Seg α := ⟨s.b, s.a⟩

theorem pipAns_swap {A : Arith α} {p : Pt α} {edge : Bool} (l : List (Seg α)) : pipAns A p edge (l.map Seg.swap) = pipAns A p edge l := by
  unfold pipAns
  have h : ∀ s : Seg α, raycast A s.swap p = raycast A s p := fun s => raycast_swap A s p
  have h2 : ((fun s => decide (raycast A s p = Ray.in_)) ∘ Seg.swap) = fun s => decide (raycast A s p = Ray.in_) := by
    funext s
    simp only [Function.comp, h]
  simp only [List.mem_map, List.countP_map, exists_exists_and_eq_and, h, h2]

theorem pipAll_ans (A : Arith α) (p : Pt α) (edge : Bool) (l : List (Seg α × Nat)) :
    (pipAll A p edge l (false, none)).1 = pipAns A p edge (l.map (·.1)) := by
  rw [pipAll_none, pipAns]
  simp only [List.mem_map, List.countP_map, exists_exists_and_eq_and, Bool.false_xor]
  rfl

theorem addStripes_some {A : Arith α} {r : Rect α} {n : Nat} :
    ∀ (l : List (Nat × Seg α)) (st st' : List (List Nat)), addStripes A r n l st = some st' → st'.length = st.length ∧
      ∀ j is, st[j]? = some is → st'[j]? = some (is ++ (l.filter fun x => inStripe A r n x.2 j).map (·.1))
  | [], st, st', h => by
    rw [addStripes, Option.some.injEq] at h
    subst h
    exact ⟨rfl, by intro j is h; simp [h]⟩
  | (i, s) :: rest, st, st', h => by
    rw [addStripes] at h
    rcases hr : stripeRange A r n s with _ | ⟨lo, hi⟩
    · rw [hr] at h; cases h
    rw [hr] at h
    dsimp only at h
    obtain ⟨h2, h3⟩ := addStripes_some rest _ _ h
    refine ⟨by rw [h2, addRange_length], ?_⟩
    intro j is hj
    have := h3 j (if lo ≤ (j : Int) ∧ (j : Int) ≤ hi then is ++ [i] else is) (by rw [addRange_getElem?, hj, Nat.zero_add]; rfl)
    rw [this, List.filter_cons]
    have hin : inStripe A r n s j = decide (lo ≤ (j : Int) ∧ (j : Int) ≤ hi) := by rw [inStripe, hr]
    simp only [hin]
    by_cases hc : lo ≤ (j : Int) ∧ (j : Int) ≤ hi
    · simp [hc]
    · simp [hc]

theorem processStripes_some {A : Arith α} {segs : List (Seg α)} {r : Rect α} {n : Nat} {st : List (List Nat)}
    (h : processStripes A r n segs = some st) : st.length = n ∧
      ∀ j, j < n → st[j]? = some ((segs.zipIdx.filter fun x => inStripe A r n x.1 j).map (·.2)) := by
  obtain ⟨h2, h3⟩ := addStripes_some _ _ _ h
  have hlen : st.length = n := by simpa using h2
  refine ⟨hlen, ?_⟩
  intro j hj
  rw [h3 j [] (by rw [List.getElem?_replicate, if_pos (by omega)])]
  simp only [List.nil_append]
  congr 1
  generalize segs.zipIdx = l
  induction l with
  | nil => rfl
  | cons x l ih =>
    rw [List.map_cons, List.filter_cons, List.filter_cons]
    split_ifs
    · simp [ih]
    · exact ih

theorem stripeLoop_all {A : Arith α} {points : List (Pt α)} {p : Pt α} {edge : Bool} :
    ∀ (l : List (Seg α × Nat)) (st : Pip), (∀ x ∈ l, segAt points x.2 = some x.1) →
    stripeLoop A points p edge (l.map (·.2)) st = some (pipAll A p edge l st)
  | [], st, _ => rfl
  | (s, i) :: rest, st, h1 => by
    have ih := fun st => stripeLoop_all (A := A) (p := p) (edge := edge) rest st (fun x hx => h1 x (by simp [hx]))
    rw [pipAll, List.map_cons, stripeLoop, pipLeaf, h1 (s, i) (by simp)]
    dsimp only
    rw [pipEval_eq, ih]

/-- The point test with Y-stripes: the segments of the stripe of the point. -/
theorem ringContainsPoint_stripes {f : Ix α β} {A : Arith α} {pts : List (Pt α)} {closed : Bool} {ixspread : Nat}
    {ring : Ring α β} (h : RingOk f pts closed ixspread ring) {st : List (List Nat)} (hys : ring.ystripes = some st) {n : Nat} (hn : 0 < n)
    (hst : processStripes A ring.rect n (segments pts closed) = some st) {p : Pt α} {edge : Bool} (hp : ring.rect.coversPt p = true) :
    (ringContainsPoint f A ring p edge).map (·.1) = (A.stripe ring.rect.lo.y ring.rect.hi.y n p.y).map fun k =>
      pipAns A p edge ((segments pts closed).filter fun s => inStripe A ring.rect n s (clampStripe k n).toNat) := by
  obtain ⟨s1, s2⟩ := processStripes_some hst
  unfold ringContainsPoint
  rw [hp, hys]
  simp only [Bool.not_true, Bool.false_eq_true, ↓reduceIte, s1]
  cases hk : A.stripe ring.rect.lo.y ring.rect.hi.y n p.y with
  | none => rfl
  | some k =>
    dsimp only
    have hlt : (clampStripe k n).toNat < n := by
      rw [clampStripe]
      omega
    rw [s2 _ hlt]
    dsimp only
    rw [stripeLoop_all]
    · simp only [Option.map_some, pipAll_ans]
      congr 2
      generalize (clampStripe k n).toNat = j
      have : (segments pts closed) = (segments pts closed).zipIdx.map Prod.fst := by rw [List.zipIdx_map_fst]
      conv_rhs => rw [this, List.filter_map]
      rfl
    · rintro ⟨s, i⟩ hx
      rw [List.mem_filter] at hx
      have hx := hx.1
      rw [List.mem_zipIdx_iff_getElem?] at hx
      simp only at hx
      have hml : i < (segments pts closed).length := by
        by_contra hcon
        rw [List.getElem?_eq_none (by omega)] at hx
        cases hx
      simp only
      rw [h.segAt hml, ← hx, List.getElem?_eq_getElem hml]

theorem edges_snoc : ∀ (l : List (Pt α)) (x y : Pt α), edges (l ++ [x, y]) = edges (l ++ [x]) ++ [⟨x, y⟩]
  | [], x, y => rfl
  | [a], x, y => rfl
  | a :: b :: l, x, y => by
    have := edges_snoc (b :: l) x y
    simp only [List.cons_append, edges] at this ⊢
    rw [this]

theorem edges_rotate (c : List (Pt α)) : ∀ k, (edges (closeUp (c.rotate k))).Perm (edges (closeUp c))
  | 0 => by rw [List.rotate_zero]
  | k + 1 => by
    have one : ∀ d : List (Pt α), (edges (closeUp (d.rotate 1))).Perm (edges (closeUp d)) := by
      intro d
      match d with
      | [] => exact List.Perm.refl _
      | [a] => simp
      | a :: b :: l =>
        have h1 : closeUp ((a :: b :: l).rotate 1) = (b :: l) ++ [a, b] := by
          simp [closeUp, List.rotate_cons_succ]
        have h2 : closeUp (a :: b :: l) = a :: ((b :: l) ++ [a]) := rfl
        rw [h1, h2, edges_snoc]
        simp only [List.cons_append, edges]
        exact List.perm_append_singleton _ _
    rw [← List.rotate_rotate]
    exact (one _).trans (edges_rotate c k)

theorem edges_reverse : ∀ l : List (Pt α), edges l.reverse = (edges l).reverse.map Seg.swap
  | [] => rfl
  | [a] => rfl
  | a :: b :: l => by
    have ih := edges_reverse (b :: l)
    rw [edges, List.reverse_cons, List.reverse_cons, List.append_assoc]
    rw [List.reverse_cons] at ih
    rw [show [b] ++ [a] = [b, a] from rfl, edges_snoc, ih]
    simp [Seg.swap]

theorem edges_reverse_closeUp (c : List (Pt α)) : (edges (closeUp c.reverse)).Perm ((edges (closeUp c)).map Seg.swap) := by
  rcases List.eq_nil_or_concat c with rfl | ⟨l, z, rfl⟩
  · exact List.Perm.refl _
  · rw [List.concat_eq_append]
    have h1 : closeUp (l ++ [z]).reverse = (closeUp (z :: l)).reverse := by simp [closeUp]
    have h2 : (l ++ [z]) = (z :: l).rotate 1 := by simp [List.rotate_cons_succ]
    rw [h1, edges_reverse]
    refine (((List.reverse_perm _).map _)).trans (List.Perm.map _ ?_)
    rw [h2]
    exact (edges_rotate _ 1).symm

theorem segments_closeUp {c : List (Pt α)} (h : 2 ≤ c.length) : segments (closeUp c) true = edges (closeUp c) ∧
    (segments (closeUp c) true).length < (closeUp c).length ∧ (closeUp c).length = c.length + 1 := by
  have hlen : (closeUp c).length = c.length + 1 := by
    simp only [closeUp, List.length_append, List.length_take]
    omega
  have e : segments (closeUp c) true = edges (closeUp c) := by
    unfold segments
    rw [if_neg (by simp), if_neg (by omega), if_pos]
    match c, h with
    | a :: l, h =>
      show (a :: (l ++ [a])).getLast? = some a
      rw [← List.cons_append, List.getLast?_append]
      rfl
  refine ⟨e, ?_, hlen⟩
  rw [e, edges_length]
  omega

theorem mem_closeUp {c : List (Pt α)} {q : Pt α} : q ∈ closeUp c ↔ q ∈ c := by
  constructor
  · intro h
    rcases List.mem_append.1 h with h | h
    exacts [h, List.mem_of_mem_take h]
  · exact fun h => List.mem_append_left _ h

/-- The rectangles are the same if the points are. -/
theorem rect_eq_of_mem {f : Ix α β} {c d : List (Pt α)} {b b' : Bool} {s s' : Nat} {r₁ r₂ : Ring α β} (h1 : RingOk f c b s r₁) (h2 : RingOk f d b' s' r₂)
    (hc : 2 ≤ c.length) (hd : 2 ≤ d.length) (hm : ∀ q, q ∈ c ↔ q ∈ d) : r₁.rect = r₂.rect :=
  Rect.ext_of_le (h1.rect_least hc _ (fun q hq => h2.rect_has hd q ((hm q).1 hq))) (h2.rect_least hd _ (fun q hq => h1.rect_has hc q ((hm q).2 hq)))

/-- The answer of the point test depends only on the points and, up to order and direction, the segments. -/
theorem ringContainsPoint_congr [Zero α] {f : Ix α β} (hf : f.Lawful) {A : Arith α} {e : Env} (he : e.Ok) {c d : List (Pt α)}
    {ix : BitVec 32} {r₁ r₂ : Ring α β} (hc : 2 ≤ c.length) (hd : d.length = c.length) (hm : ∀ q, q ∈ c ↔ q ∈ d)
    (hA : ∀ (P : Seg α → Bool), (∀ s, P s.swap = P s) → ∀ p edge, pipAns A p edge ((edges (closeUp c)).filter P) = pipAns A p edge ((edges (closeUp d)).filter P))
    (h₁ : newIx f A e (closeUp c) true ix = some r₁) (h₂ : newIx f A e (closeUp d) true ix = some r₂) (p : Pt α) (edge : Bool)
    (hn : r₁.ystripes ≠ none → A.nstripes (closeUp c) = A.nstripes (closeUp d)) :
    (ringContainsPoint f A r₁ p edge).map (·.1) = (ringContainsPoint f A r₂ p edge).map (·.1) := by
  obtain ⟨a1, -, a3, a4⟩ := newIx_some hf he h₁
  obtain ⟨b1, -, b3, b4⟩ := newIx_some hf he h₂
  obtain ⟨c1, c2, c3⟩ := segments_closeUp hc
  obtain ⟨d1, d2, d3⟩ := segments_closeUp (c := d) (by omega)
  have hrect : r₁.rect = r₂.rect := rect_eq_of_mem a1 b1 (by omega) (by omega) (fun q => by rw [mem_closeUp, mem_closeUp, hm])
  have hlen : (closeUp c).length = (closeUp d).length := by omega
  have hall := hA (fun _ => true) (fun _ => rfl) p edge
  simp only [List.filter_true] at hall
  cases hys : r₁.ystripes with
  | none =>
    have hys2 : r₂.ystripes = none := by
      rw [← Option.not_isSome_iff_eq_none, b3, ← hlen, ← a3, hys]
      simp
    rw [ringContainsPoint_eq hf a1 (by omega) (fun st h => by rw [hys] at h; cases h) (.inl (.inl c2)) p edge (fun st h => by rw [hys] at h; cases h),
      ringContainsPoint_eq hf b1 (by omega) (fun st h => by rw [hys2] at h; cases h) (.inl (.inl d2)) p edge (fun st h => by rw [hys2] at h; cases h), hrect]
    simp only [Option.map_some]
    split_ifs
    · rw [pipAll_ans, pipAll_ans, List.zipIdx_map_fst, List.zipIdx_map_fst, c1, d1, hall]
    · rfl
  | some st =>
    obtain ⟨st2, hys2⟩ : ∃ st2, r₂.ystripes = some st2 := by
      rw [← Option.isSome_iff_exists, b3, ← hlen, ← a3, hys]
      rfl
    by_cases hp : r₂.rect.coversPt p = true
    · have e1 := a4 st hys
      have e2 := b4 st2 hys2
      have hnn : stripesOf A (closeUp d) = stripesOf A (closeUp c) := by
        unfold stripesOf
        rw [hn (by rw [hys]; simp)]
      rw [hnn] at e2
      have hpos : 0 < stripesOf A (closeUp c) := by unfold stripesOf; omega
      rw [ringContainsPoint_stripes a1 hys hpos e1 (by rw [hrect]; exact hp), ringContainsPoint_stripes b1 hys2 hpos e2 hp, hrect, c1, d1]
      congr 1
      funext k
      refine hA (fun s => inStripe A r₂.rect _ s _) (fun s => ?_) p edge
      simp only [inStripe, stripeRange, Seg.swap, min_comm, max_comm]
    · have h1 : (!r₁.rect.coversPt p) = true := by rw [hrect]; simpa using hp
      have h2 : (!r₂.rect.coversPt p) = true := by simpa using hp
      unfold ringContainsPoint
      rw [if_pos h1, if_pos h2]

end order

section exact
variable {K : Type*} [Field K] [LinearOrder K] [IsStrictOrderedRing K] [FloorRing K] {ε : K} {ns : List (Pt K) → Nat}

/-- Small for all segments. -/
theorem exists_small_all (p : Pt K) : ∀ segs : List (Seg K), ∃ ε0 > 0, ∀ ε, ε ≤ ε0 → ∀ s ∈ segs, Small ε s p
  | [] => ⟨1, one_pos, by simp⟩
  | s :: rest => by
    obtain ⟨e1, h1, h2⟩ := exists_small s p
    obtain ⟨e3, h3, h4⟩ := exists_small_all p rest
    refine ⟨min e1 e3, lt_min h1 h3, fun ε hε t ht => ?_⟩
    rcases List.mem_cons.1 ht with rfl | ht
    · exact h2 ε (hε.trans (min_le_left _ _))
    · exact h4 ε (hε.trans (min_le_right _ _)) t ht

theorem raycast_on_iff {s : Seg K} {p : Pt K} : raycast (exact ε ns) s p = .on ↔ OnSeg s p := by
  rcases le_total s.a.y s.b.y with h | h
  · exact raycast_on_low h
  · rw [← raycast_swap, raycast_on_low h]
    exact ⟨onSeg_swap, onSeg_swap⟩

theorem raycast_in_iff {s : Seg K} {p : Pt K} (hε : 0 < ε) (hs : Small ε s p) : raycast (exact ε ns) s p = .in_ ↔ Crosses s p := by
  rcases le_total s.a.y s.b.y with h | h
  · exact raycast_in_low hε hs h
  · rw [← raycast_swap, raycast_in_low hε (small_swap hs) h]
    exact ⟨crosses_swap, crosses_swap⟩

open Classical in
/-- The edges of a chain whose ends are on the same side of a height. -/
theorem straddle_parity (y : K) : ∀ (l : List (Pt K)) (a b : Pt K), l.head? = some a → l.getLast? = some b →
    ((edges l).countP fun s => decide (min s.a.y s.b.y ≤ y ∧ y < max s.a.y s.b.y)) % 2 = if (a.y ≤ y ↔ b.y ≤ y) then 0 else 1
  | [], a, b, h, _ => by simp at h
  | [c], a, b, h, h' => by
    simp only [List.head?_cons, Option.some.injEq, List.getLast?_singleton] at h h'
    simp [edges, ← h, ← h']
  | c :: d :: l, a, b, h, h' => by
    simp only [List.head?_cons, Option.some.injEq] at h
    subst h
    have ih := straddle_parity y (d :: l) d b rfl (by simpa using h')
    rw [edges, List.countP_cons]
    have key : (min c.y d.y ≤ y ∧ y < max c.y d.y) ↔ ¬ (c.y ≤ y ↔ d.y ≤ y) := by
      rw [min_le_iff, lt_max_iff, ← not_le, ← not_le]
      tauto
    simp only [key]
    split_ifs at ih ⊢ with h1 h2 h3 h4 h5 h6 <;> simp_all <;> first | omega | tauto

open Classical in
/-- Outside of the rectangle of a closed chain the number of crossings is even. -/
theorem crosses_even {l : List (Pt K)} {r : Rect K} (hr : ∀ q ∈ l, r.Has q) (hl : l.head? = l.getLast?) {p : Pt K} (hp : ¬ r.Has p) :
    ((edges l).countP fun s => decide (Crosses s p)) % 2 = 0 := by
  have hmem : ∀ s ∈ edges l, s.a ∈ l ∧ s.b ∈ l := by
    intro s hs
    exact seg_mem_pts (closed := false) (by simpa [segments] using hs)
  by_cases hx : p.x < r.lo.x
  · rcases h0 : l.head? with _ | a
    · rw [List.head?_eq_none_iff] at h0
      subst h0
      rfl
    · have := straddle_parity p.y l a a h0 (by rw [← hl, h0])
      simp only [↓reduceIte] at this
      rw [← this]
      congr 1
      refine List.countP_congr fun s hs => ?_
      rw [decide_eq_true_eq, decide_eq_true_eq, Crosses]
      refine ⟨fun h => ⟨h.1, h.2.1⟩, fun h => ⟨h.1, h.2, ?_⟩⟩
      obtain ⟨ha, hb⟩ := hmem s hs
      have h1 := (hr _ ha).1
      have h2 := (hr _ hb).1
      -- the point of the segment at that height
      have key : ∀ a b : Pt K, a.y ≤ p.y → p.y < b.y → r.lo.x ≤ a.x → r.lo.x ≤ b.x → ∃ x, p.x < x ∧ OnSeg ⟨a, b⟩ ⟨x, p.y⟩ := by
        intro a b h3 h4 h5 h6
        have := (crosses_iff (a := a) (b := b) (p := p) (by linarith)).2 ⟨h3, h4, by nlinarith⟩
        exact this.2.2
      rcases le_total s.a.y s.b.y with hab | hab
      · rw [min_eq_left hab, max_eq_right hab] at h
        exact key s.a s.b h.1 h.2 h1 h2
      · rw [min_eq_right hab, max_eq_left hab] at h
        obtain ⟨x, hx1, hx2⟩ := key s.b s.a h.1 h.2 h2 h1
        exact ⟨x, hx1, onSeg_swap hx2⟩
  · have : ((edges l).countP fun s => decide (Crosses s p)) = 0 := by
      rw [List.countP_eq_zero]
      intro s hs
      rw [decide_eq_true_eq]
      rintro ⟨h1, h2, x, h3, h4⟩
      obtain ⟨ha, hb⟩ := hmem s hs
      have ha := hr _ ha
      have hb := hr _ hb
      have h5 := (onSeg_rect h4).2.1
      refine hp ⟨not_lt.1 hx, h3.le.trans (h5.trans (max_le ha.2.1 hb.2.1)), (le_min ha.2.2.1 hb.2.2.1).trans h1, h2.le.trans (max_le ha.2.2.2 hb.2.2.2)⟩
    rw [this]

theorem pipAns_filter_congr {A : Arith K} {p : Pt K} {edge : Bool} {P Q : Seg K → Bool} {segs : List (Seg K)}
    (h : ∀ s ∈ segs, raycast A s p ≠ .out → P s = Q s) : pipAns A p edge (segs.filter P) = pipAns A p edge (segs.filter Q) := by
  unfold pipAns
  have h1 : (∃ s ∈ segs.filter P, raycast A s p = .on) ↔ ∃ s ∈ segs.filter Q, raycast A s p = .on := by
    simp only [List.mem_filter]
    constructor
    · rintro ⟨s, ⟨hs, hP⟩, hr⟩
      exact ⟨s, ⟨hs, by rw [← h s hs (by rw [hr]; simp)]; exact hP⟩, hr⟩
    · rintro ⟨s, ⟨hs, hP⟩, hr⟩
      exact ⟨s, ⟨hs, by rw [h s hs (by rw [hr]; simp)]; exact hP⟩, hr⟩
  have h2 : ((segs.filter P).countP fun s => raycast A s p = .in_) = (segs.filter Q).countP fun s => raycast A s p = .in_ := by
    rw [List.countP_filter, List.countP_filter]
    refine List.countP_congr fun s hs => ?_
    simp only [Bool.and_eq_true, decide_eq_true_eq]
    refine and_congr_right fun hr => ?_
    rw [h s hs (by rw [hr]; simp)]
  simp only [h1, h2]

theorem exact_stripe_top {lo hi : K} (h : lo < hi) {n : Nat} : (exact ε ns).stripe lo hi n hi = some (n : Int) := by
  have h0 : hi - lo ≠ 0 := sub_ne_zero.2 h.ne'
  show (if hi - lo = 0 then none else some (truncInt ((hi - lo) / (hi - lo) * n))) = _
  rw [if_neg h0, div_self h0, one_mul, truncInt, if_pos (Nat.cast_nonneg n), Int.floor_natCast]

/-- Without rounding the stripes lose only the segments at the top, for a point at the top. -/
theorem exact_stripes_ans {pts : List (Pt K)} {closed : Bool} {ixspread : Nat}
    {ring : Ring K K} (h : RingOk Ix.exact pts closed ixspread ring) (h2 : 2 ≤ pts.length) {st : List (List Nat)} (hys : ring.ystripes = some st) {n : Nat} (hn : 0 < n)
    (hst : processStripes (exact ε ns) ring.rect n (segments pts closed) = some st) {p : Pt K} {edge : Bool} (hp : ring.rect.coversPt p = true)
    (hlt : ring.rect.lo.y < ring.rect.hi.y) :
    (ringContainsPoint Ix.exact (exact ε ns) ring p edge).map (·.1) = some (pipAns (exact ε ns) p edge ((segments pts closed).filter fun s =>
      decide (p.y < ring.rect.hi.y ∨ min s.a.y s.b.y < ring.rect.hi.y))) := by
  have hok := exact_stripeOk (ε := ε) (ns := ns) (n := n) hlt
  rw [ringContainsPoint_stripes h hys hn hst hp]
  rw [coversPt_iff] at hp
  obtain ⟨k, hk⟩ := hok.some p.y hp.2.2.1 hp.2.2.2
  rw [hk]
  simp only [Option.map_some, Option.some.injEq]
  refine pipAns_filter_congr fun s hs hr => ?_
  obtain ⟨ha, hb⟩ := seg_mem_pts hs
  have ha := h.rect_has h2 _ ha
  have hb := h.rect_has h2 _ hb
  have hy : min s.a.y s.b.y ≤ p.y ∧ p.y ≤ max s.a.y s.b.y := by
    by_contra hcon
    apply hr
    apply raycast_out_y
    rw [not_and_or, not_le, not_le] at hcon
    exact hcon
  by_cases hc : p.y < ring.rect.hi.y ∨ min s.a.y s.b.y < ring.rect.hi.y
  · rw [decide_eq_true hc]
    refine inStripe_of_y (segs := [s]) hn hok (by simp) ?_ ha hb hk hy.1 hy.2
    rcases hc with hc | hc
    · exact .inl fun k hk => exact_stripe_lt hn hlt hc hk
    · exact .inr fun t ht k hk => by
        rw [List.mem_singleton] at ht
        subst ht
        exact exact_stripe_lt hn hlt hc hk
  · rw [decide_eq_false hc]
    rw [not_or, not_lt, not_lt] at hc
    have e1 : min s.a.y s.b.y = ring.rect.hi.y := le_antisymm ((min_le_left _ _).trans ha.2.2.2) hc.2
    have e2 : max s.a.y s.b.y = ring.rect.hi.y := le_antisymm (max_le ha.2.2.2 hb.2.2.2) (hc.2.trans min_le_max)
    rw [inStripe, stripeRange, e1, e2, exact_stripe_top hlt]
    dsimp only
    rw [decide_eq_false_iff_not, clampStripe]
    omega

/-- Without height there are no stripes. -/
theorem exact_stripes_flat {pts : List (Pt K)} {r : Rect K} {n : Nat} {segs : List (Seg K)} (hs : segs ≠ []) (h : r.lo.y = r.hi.y) :
    processStripes (exact ε ns) r n segs = none := by
  match segs, hs with
  | s :: segs, _ =>
    have : ∀ y, (exact ε ns).stripe r.lo.y r.hi.y n y = none := by
      intro y
      show (if r.hi.y - r.lo.y = 0 then none else _) = none
      rw [if_pos (by rw [h, sub_self])]
    simp only [processStripes, List.zipIdx_cons, List.map_cons, addStripes, stripeRange, this]

end exact

end Tg.S
