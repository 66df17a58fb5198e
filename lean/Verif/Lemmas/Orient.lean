import Verif.Model.Orient
import Verif.Lemmas.PlaneRing
/-! Area, orientation and convexity. -/
namespace Tg.S

set_option linter.unusedSectionVars false

variable {K : Type*} [Field K] [LinearOrder K] [IsStrictOrderedRing K]

theorem turn_eq (t : Pt K × Pt K × Pt K) : zCross t = turn t.1 t.2.1 t.2.2 := rfl

theorem chainTurns_length : ∀ l : List (Pt K), (chainTurns l).length = l.length - 2
  | [] => rfl
  | [_] => rfl
  | [_, _] => rfl
  | a :: b :: c :: r => by rw [chainTurns, List.length_cons, chainTurns_length]; simp

theorem chainTurns_getElem? : ∀ (l : List (Pt K)) (i : Nat), (chainTurns l)[i]? =
    match l[i]?, l[i + 1]?, l[i + 2]? with
    | some a, some b, some c => some (turn a b c)
    | _, _, _ => none
  | [], i => by simp [chainTurns]
  | [_], i => by cases i <;> simp [chainTurns]
  | [_, _], i => by rcases i with _ | _ | i <;> simp [chainTurns]
  | a :: b :: c :: r, 0 => rfl
  | a :: b :: c :: r, i + 1 => by
    rw [chainTurns, List.getElem?_cons_succ, chainTurns_getElem? (b :: c :: r) i]
    simp only [List.getElem?_cons_succ]

/-- What the three-point window is, as a position in the points followed by the first two. -/
theorem gatherWrap_eq {pts : List (Pt K)} (h2 : 2 ≤ pts.length) {i : Nat} (hi : i < pts.length) :
    ∃ a b c, gatherWrap pts i = some (a, b, c) ∧ (pts ++ pts.take 2)[i]? = some a ∧ (pts ++ pts.take 2)[i + 1]? = some b ∧
      (pts ++ pts.take 2)[i + 2]? = some c := by
  match pts, h2 with
  | p :: q :: r, h2 =>
  have ha : (p :: q :: r)[i]? = some (p :: q :: r)[i] := List.getElem?_eq_getElem hi
  have ea : ((p :: q :: r) ++ (p :: q :: r).take 2)[i]? = some (p :: q :: r)[i] := by
    rw [List.getElem?_append_left hi, ha]
  unfold gatherWrap
  dsimp only
  by_cases h1 : i + 2 < (p :: q :: r).length
  · rw [if_pos h1]
    have hb : i + 1 < (p :: q :: r).length := by omega
    refine ⟨_, (p :: q :: r)[i + 1], (p :: q :: r)[i + 2], ?_, ea, ?_, ?_⟩
    · dsimp only
      rw [ha, List.getElem?_eq_getElem hb, List.getElem?_eq_getElem h1]
    · rw [List.getElem?_append_left hb, List.getElem?_eq_getElem hb]
    · rw [List.getElem?_append_left h1, List.getElem?_eq_getElem h1]
  · rw [if_neg h1]
    by_cases h3 : i + 1 = (p :: q :: r).length
    · rw [if_pos h3]
      refine ⟨_, p, q, ?_, ea, ?_, ?_⟩
      · dsimp only
        rw [ha]
        rfl
      · rw [List.getElem?_append_right (by omega), show i + 1 - (p :: q :: r).length = 0 by omega]
        rfl
      · rw [List.getElem?_append_right (by omega), show i + 2 - (p :: q :: r).length = 1 by omega]
        rfl
    · rw [if_neg h3]
      have hb : i + 1 < (p :: q :: r).length := by omega
      refine ⟨_, (p :: q :: r)[i + 1], p, ?_, ea, ?_, ?_⟩
      · dsimp only
        rw [ha, List.getElem?_eq_getElem hb]
        rfl
      · rw [List.getElem?_append_left hb, List.getElem?_eq_getElem hb]
      · rw [List.getElem?_append_right (by omega), show i + 2 - (p :: q :: r).length = 0 by omega]
        rfl

theorem gatherNoWrap_eq {pts : List (Pt K)} {i : Nat} (hi : i + 2 < pts.length) : gatherNoWrap pts i = gatherWrap pts i := by
  unfold gatherNoWrap gatherWrap
  dsimp only
  rw [if_pos hi]

/-- The contribution of an edge to `cwc`. -/
def cwTerm (s : Seg K) : K := (s.b.x - s.a.x) * (s.b.y + s.a.y)

theorem gather_facts {pts : List (Pt K)} (h2 : 2 ≤ pts.length) {i : Nat} (hi : i < pts.length) :
    ∃ t : Pt K × Pt K × Pt K, gatherWrap pts i = some t ∧ (edges (closeUp pts))[i]? = some ⟨t.1, t.2.1⟩ ∧ (turns pts)[i]? = some (zCross t) := by
  obtain ⟨a, b, c, h, ha, hb, hc⟩ := gatherWrap_eq h2 hi
  refine ⟨(a, b, c), h, ?_, ?_⟩
  · rw [edges_getElem?, segAt]
    have e : ∀ j, j < pts.length + 1 → (closeUp pts)[j]? = (pts ++ pts.take 2)[j]? := by
      intro j hj
      unfold closeUp
      by_cases hj2 : j < pts.length
      · rw [List.getElem?_append_left hj2, List.getElem?_append_left hj2]
      · rw [List.getElem?_append_right (by omega), List.getElem?_append_right (by omega), show j - pts.length = 0 by omega,
          List.getElem?_take, List.getElem?_take]
        simp
    rw [e i (by omega), e (i + 1) (by omega), ha, hb]
  · rw [turns, chainTurns_getElem?, ha, hb, hc]
    rfl

/-- Opposite to the first turn, in the way of the code: a first turn of zero counts as left. -/
def Opposes (z0 z : K) : Prop := (0 ≤ z0 ∧ z < 0) ∨ (z0 < 0 ∧ 0 < z)

/-- What holds after `i` steps. -/
structure OInv (pts : List (Pt K)) (i : Nat) (s : OState K) : Prop where
  cwc : s.cwc = (((edges (closeUp pts)).take i).map cwTerm).sum
  start : i = 0 → s.dir = 0 ∧ s.concave = false
  dir : ∀ z0, 0 < i → (turns pts)[0]? = some z0 → s.dir = if z0 < 0 then -1 else 1
  conv : s.concave = false → ∀ z0 z j, j < i → (turns pts)[0]? = some z0 → (turns pts)[j]? = some z → ¬ Opposes z0 z
  conc : s.concave = true → ∃ z0 z j, j < i ∧ (turns pts)[0]? = some z0 ∧ (turns pts)[j]? = some z ∧ Opposes z0 z

theorem take_sum_succ {pts : List (Pt K)} {i : Nat} {e : Seg K} (he : (edges (closeUp pts))[i]? = some e) :
    (((edges (closeUp pts)).take (i + 1)).map cwTerm).sum = (((edges (closeUp pts)).take i).map cwTerm).sum + cwTerm e := by
  rw [List.take_add_one, he]
  simp

theorem opposes_self {z : K} : ¬ Opposes z z := by
  rintro (⟨h1, h2⟩ | ⟨h1, h2⟩)
  · exact absurd h1 (not_le.2 h2)
  · exact absurd h1 (not_lt.2 h2.le)

theorem OInv.clock {pts : List (Pt K)} {i : Nat} {s : OState K} {t : Pt K × Pt K × Pt K} (h : OInv pts i s) (hc : s.concave = true)
    (he : (edges (closeUp pts))[i]? = some ⟨t.1, t.2.1⟩) : OInv pts (i + 1) (s.clock t) where
  cwc := by
    rw [take_sum_succ he, ← h.cwc]
    rfl
  start h0 := by omega
  dir z0 _ hz := by
    rcases Nat.eq_zero_or_pos i with hi | hi
    · rw [(h.start hi).2] at hc; cases hc
    · exact h.dir z0 hi hz
  conv hcc := by
    have : s.concave = false := hcc
    rw [hc] at this
    cases this
  conc _ := by
    obtain ⟨z0, z, j, h1, h2⟩ := h.conc hc
    exact ⟨z0, z, j, by omega, h2⟩

theorem OInv.step {pts : List (Pt K)} {i : Nat} {s : OState K} {t : Pt K × Pt K × Pt K} (h : OInv pts i s)
    (he : (edges (closeUp pts))[i]? = some ⟨t.1, t.2.1⟩) (hz : (turns pts)[i]? = some (zCross t)) :
    OInv pts (i + 1) ((s.clock t).conc t).1 ∧ (((s.clock t).conc t).2 = true → ((s.clock t).conc t).1.concave = true) := by
  have hcw : ∀ s' : OState K, s'.cwc = (s.clock t).cwc → s'.cwc = (((edges (closeUp pts)).take (i + 1)).map cwTerm).sum := by
    intro s' hs
    rw [hs, take_sum_succ he, ← h.cwc]
    rfl
  rcases Nat.eq_zero_or_pos i with hi | hi
  · subst hi
    obtain ⟨hd, hcc⟩ := h.start rfl
    have e : (s.clock t).conc t = ({ s.clock t with dir := if zCross t < 0 then -1 else 1 }, false) := by
      unfold OState.conc
      rw [if_pos (show (s.clock t).dir = 0 from hd)]
    rw [e]
    refine ⟨⟨hcw _ rfl, by omega, ?_, ?_, ?_⟩, by simp⟩
    · intro z0 _ h0
      rw [hz, Option.some.injEq] at h0
      rw [h0]
    · intro _ z0 z j hj h0 hjz
      have : j = 0 := by omega
      subst this
      rw [h0, Option.some.injEq] at hjz
      rw [hjz]
      exact opposes_self
    · intro hh
      have : s.concave = true := hh
      rw [hcc] at this
      cases this
  · -- the direction is known
    obtain ⟨z0, h0⟩ : ∃ z0, (turns pts)[0]? = some z0 := by
      have : i < (turns pts).length := by
        by_contra hcon
        rw [List.getElem?_eq_none (by omega)] at hz
        cases hz
      exact ⟨_, List.getElem?_eq_getElem (by omega)⟩
    have hd : (s.clock t).dir = if z0 < 0 then -1 else 1 := h.dir z0 hi h0
    have hd0 : (s.clock t).dir ≠ 0 := by
      rw [hd]
      split_ifs <;> simp
    -- keeping the state
    have keep : ¬ Opposes z0 (zCross t) → OInv pts (i + 1) (s.clock t) := by
      intro hno
      refine ⟨hcw _ rfl, by omega, fun z0' _ h => by rw [h0, Option.some.injEq] at h; subst h; exact hd, ?_, ?_⟩
      · intro hcc z0' z j hj h0' hjz
        rcases Nat.lt_succ_iff_lt_or_eq.1 hj with hj | hj
        · exact h.conv hcc z0' z j hj h0' hjz
        · subst hj
          rw [hz, Option.some.injEq] at hjz
          rw [h0, Option.some.injEq] at h0'
          subst h0' hjz
          exact hno
      · intro hcc
        obtain ⟨z0', z, j, h1, h2⟩ := h.conc hcc
        exact ⟨z0', z, j, by omega, h2⟩
    have mark : Opposes z0 (zCross t) → OInv pts (i + 1) { s.clock t with concave := true } := by
      intro hop
      refine ⟨hcw _ rfl, by omega, fun z0' _ h => by rw [h0, Option.some.injEq] at h; subst h; exact hd, by simp, ?_⟩
      intro _
      exact ⟨z0, _, i, by omega, h0, hz, hop⟩
    unfold OState.conc
    dsimp only
    rw [if_neg hd0]
    by_cases hzn : zCross t < 0
    · rw [if_pos hzn]
      by_cases hd1 : (s.clock t).dir = 1
      · rw [if_pos hd1]
        refine ⟨mark (.inl ⟨?_, hzn⟩), fun _ => rfl⟩
        rw [hd] at hd1
        by_contra hc
        rw [if_pos (not_le.1 hc)] at hd1
        omega
      · rw [if_neg hd1]
        refine ⟨keep ?_, by simp⟩
        rintro (⟨h1, h2⟩ | ⟨h1, h2⟩)
        · exact hd1 (by rw [hd, if_neg (not_lt.2 h1)])
        · exact absurd h2 (not_lt.2 hzn.le)
    · rw [if_neg hzn]
      by_cases hzp : zCross t > 0
      · rw [if_pos hzp]
        by_cases hd1 : (s.clock t).dir = -1
        · rw [if_pos hd1]
          refine ⟨mark (.inr ⟨?_, hzp⟩), fun _ => rfl⟩
          rw [hd] at hd1
          by_contra hc
          rw [if_neg hc] at hd1
          omega
        · rw [if_neg hd1]
          refine ⟨keep ?_, by simp⟩
          rintro (⟨h1, h2⟩ | ⟨h1, h2⟩)
          · exact hzn h2
          · exact hd1 (by rw [hd, if_pos h1])
      · rw [if_neg hzp]
        refine ⟨keep ?_, by simp⟩
        rintro (⟨h1, h2⟩ | ⟨h1, h2⟩)
        · exact hzn h2
        · exact hzp h2

theorem convexLoop_ok {pts : List (Pt K)} (h2 : 2 ≤ pts.length) {g : Nat → Option (Pt K × Pt K × Pt K)} :
    ∀ (k i : Nat) (s : OState K), i + k ≤ pts.length → (∀ j, i ≤ j → j < i + k → g j = gatherWrap pts j) → OInv pts i s →
    ∃ s' i', convexLoop g k i s = some (s', i') ∧ i' ≤ i + k ∧ OInv pts i' s' ∧ (i' = i + k ∨ s'.concave = true)
  | 0, i, s, _, _, h => ⟨s, i, rfl, by omega, h, .inl rfl⟩
  | k + 1, i, s, hk, hg, h => by
    obtain ⟨t, ht, he, hz⟩ := gather_facts h2 (show i < pts.length by omega)
    obtain ⟨hs, hc⟩ := h.step he hz
    rw [convexLoop, hg i le_rfl (by omega), ht]
    dsimp only
    rcases hcon : (s.clock t).conc t with ⟨s', b⟩
    rw [hcon] at hs hc
    cases b with
    | true => exact ⟨s', i + 1, rfl, by omega, hs, .inr (hc rfl)⟩
    | false =>
      obtain ⟨s2, i2, h3, h4, h5, h6⟩ := convexLoop_ok h2 (g := g) k (i + 1) s' (by omega) (fun j h1 h2 => hg j (by omega) (by omega)) hs
      exact ⟨s2, i2, h3, by omega, h5, by rcases h6 with h | h; exacts [.inl (by omega), .inr h]⟩

theorem concaveLoop_ok {pts : List (Pt K)} (h2 : 2 ≤ pts.length) {g : Nat → Option (Pt K × Pt K × Pt K)} :
    ∀ (k i : Nat) (s : OState K), i + k ≤ pts.length → (∀ j, i ≤ j → j < i + k → g j = gatherWrap pts j) → OInv pts i s → (k = 0 ∨ s.concave = true) →
    ∃ s', concaveLoop g k i s = some (s', i + k) ∧ OInv pts (i + k) s' ∧ s'.concave = s.concave
  | 0, i, s, _, _, h, _ => ⟨s, rfl, h, rfl⟩
  | k + 1, i, s, hk, hg, h, hc => by
    have hc : s.concave = true := by rcases hc with h | h; omega; exact h
    obtain ⟨t, ht, he, hz⟩ := gather_facts h2 (show i < pts.length by omega)
    have hs := h.clock hc he
    rw [concaveLoop, hg i le_rfl (by omega), ht]
    dsimp only
    obtain ⟨s2, h3, h4, h5⟩ := concaveLoop_ok h2 (g := g) k (i + 1) (s.clock t) (by omega) (fun j h1 h2 => hg j (by omega) (by omega)) hs (.inr hc)
    refine ⟨s2, by rw [h3]; simp only [Option.some.injEq, Prod.mk.injEq, true_and]; omega, ?_, h5⟩
    rw [show i + (k + 1) = i + 1 + k by omega]
    exact h4

/-- The result of `process_points`: no read outside the points, and what the three values are. -/
theorem orient_ok {pts : List (Pt K)} (h2 : 2 ≤ pts.length) : ∃ o, orient pts = some o ∧
    o.clockwise = decide (((edges (closeUp pts)).map cwTerm).sum > 0) ∧ o.area = |((edges (closeUp pts)).map cwTerm).sum / 2| ∧
    (o.convex = true ↔ ∀ z0 z, (turns pts)[0]? = some z0 → z ∈ turns pts → ¬ Opposes z0 z) := by
  have h0 : OInv pts 0 (⟨0, 0, false⟩ : OState K) := ⟨by simp, fun _ => ⟨rfl, rfl⟩, by simp, fun _ _ _ _ hj => by omega, by simp⟩
  obtain ⟨s1, i1, e1, l1, v1, -⟩ := convexLoop_ok h2 (g := gatherNoWrap pts) (pts.length - 3) 0 _ (by omega)
    (fun j _ hj => gatherNoWrap_eq (by omega)) h0
  obtain ⟨s2, i2, e2, l2, v2, c2⟩ := convexLoop_ok h2 (g := gatherWrap pts) (pts.length - i1) i1 s1 (by omega) (fun _ _ _ => rfl) v1
  obtain ⟨s3, e3, v3, c3⟩ := concaveLoop_ok h2 (g := gatherNoWrap pts) (pts.length - 3 - i2) i2 s2 (by omega) (fun j _ hj => gatherNoWrap_eq (by omega)) v2
    (by rcases c2 with h | h; exacts [.inl (by omega), .inr h])
  obtain ⟨s4, e4, v4, c4⟩ := concaveLoop_ok h2 (g := gatherWrap pts) (pts.length - (i2 + (pts.length - 3 - i2))) (i2 + (pts.length - 3 - i2)) s3 (by omega) (fun _ _ _ => rfl) v3
    (by rcases c2 with h | h; exacts [.inl (by omega), .inr (by rw [c3, h])])
  have hlen : i2 + (pts.length - 3 - i2) + (pts.length - (i2 + (pts.length - 3 - i2))) = pts.length := by omega
  rw [hlen] at v4
  have hcw : s4.cwc = ((edges (closeUp pts)).map cwTerm).sum := by
    rw [v4.cwc, List.take_of_length_le]
    rw [edges_length, closeUp, List.length_append, List.length_take]
    omega
  have htl : (turns pts).length = pts.length := by
    rw [turns, chainTurns_length, List.length_append, List.length_take]
    omega
  unfold orient
  dsimp only
  rw [if_neg (by omega), e1]
  dsimp only
  rw [e2]
  dsimp only
  rw [e3]
  dsimp only
  rw [e4]
  refine ⟨_, rfl, by rw [hcw], by rw [hcw], ?_⟩
  dsimp only
  rw [Bool.not_eq_true']
  constructor
  · intro hc z0 z hz0 hz
    obtain ⟨j, hj, hjz⟩ := List.mem_iff_getElem.1 hz
    exact v4.conv hc z0 z j (by omega) hz0 (by rw [List.getElem?_eq_getElem hj, hjz])
  · intro hall
    by_contra hc
    rw [Bool.not_eq_false] at hc
    obtain ⟨z0, z, j, -, hz0, hz, hop⟩ := v4.conc hc
    exact hall z0 z hz0 (List.mem_of_getElem? hz) hop

theorem edges_diff_sum (g : Pt K → K) : ∀ (l : List (Pt K)) (a b : Pt K), l.head? = some a → l.getLast? = some b →
    ((edges l).map fun s => g s.b - g s.a).sum = g b - g a
  | [], a, b, h, _ => by simp at h
  | [c], a, b, h, h' => by
    simp only [List.head?_cons, Option.some.injEq, List.getLast?_singleton] at h h'
    simp [edges, ← h, ← h']
  | c :: d :: l, a, b, h, h' => by
    simp only [List.head?_cons, Option.some.injEq] at h
    subst h
    have ih := edges_diff_sum g (d :: l) d b rfl (by simpa using h')
    rw [edges, List.map_cons, List.sum_cons, ih]
    ring

theorem closeUp_diff_sum (g : Pt K → K) (c : List (Pt K)) : ((edges (closeUp c)).map fun s => g s.b - g s.a).sum = 0 := by
  match c with
  | [] => rfl
  | a :: l =>
    rw [edges_diff_sum g _ a a rfl, sub_self]
    show (a :: l ++ [a]).getLast? = some a
    rw [List.getLast?_append]
    rfl

/-- The sum of the code is the negated shoelace sum. -/
theorem cwSum_eq (c : List (Pt K)) : ((edges (closeUp c)).map cwTerm).sum = - shoelace c := by
  have h := closeUp_diff_sum (fun p : Pt K => p.x * p.y) c
  unfold shoelace
  rw [eq_neg_iff_add_eq_zero, ← List.sum_map_add, ← h]
  congr 1
  refine List.map_congr_left fun s _ => ?_
  simp only [cwTerm]
  ring

theorem shoelace_rotate (c : List (Pt K)) (k : Nat) : shoelace (c.rotate k) = shoelace c :=
  ((edges_rotate c k).map _).sum_eq

theorem shoelace_reverse (c : List (Pt K)) : shoelace c.reverse = - shoelace c := by
  unfold shoelace
  rw [((edges_reverse_closeUp c).map _).sum_eq, List.map_map, eq_neg_iff_add_eq_zero, ← List.sum_map_add]
  have : ∀ l : List (Seg K), (l.map fun s => ((fun s : Seg K => s.a.x * s.b.y - s.b.x * s.a.y) ∘ Seg.swap) s + (s.a.x * s.b.y - s.b.x * s.a.y)).sum = 0 := by
    intro l
    induction l with
    | nil => rfl
    | cons s l ih =>
      rw [List.map_cons, List.sum_cons, ih]
      simp only [Function.comp, Seg.swap]
      ring
  exact this _

theorem edges_map (g : Pt K → Pt K) : ∀ l : List (Pt K), edges (l.map g) = (edges l).map fun s => ⟨g s.a, g s.b⟩
  | [] => rfl
  | [_] => rfl
  | a :: b :: l => by
    have := edges_map g (b :: l)
    simp only [List.map_cons, edges] at this ⊢
    rw [this]

theorem shoelace_translate (c : List (Pt K)) (dx dy : K) : shoelace (c.map fun p => ⟨p.x + dx, p.y + dy⟩) = shoelace c := by
  have e : closeUp (c.map fun p => (⟨p.x + dx, p.y + dy⟩ : Pt K)) = (closeUp c).map fun p => ⟨p.x + dx, p.y + dy⟩ := by
    simp [closeUp]
  have h := closeUp_diff_sum (fun p : Pt K => dx * p.y - dy * p.x) c
  unfold shoelace
  rw [e, edges_map, List.map_map]
  have key : ∀ l : List (Seg K), (l.map ((fun s : Seg K => s.a.x * s.b.y - s.b.x * s.a.y) ∘ fun s => ⟨⟨s.a.x + dx, s.a.y + dy⟩, ⟨s.b.x + dx, s.b.y + dy⟩⟩)).sum
      = (l.map fun s => s.a.x * s.b.y - s.b.x * s.a.y).sum + (l.map fun s => (dx * s.b.y - dy * s.b.x) - (dx * s.a.y - dy * s.a.x)).sum := by
    intro l
    rw [← List.sum_map_add]
    congr 1
    refine List.map_congr_left fun s _ => ?_
    simp only [Function.comp]
    ring
  rw [key, h, add_zero]

theorem shoelace_close {c : List (Pt K)} (h : c ≠ []) : shoelace (closeUp c) = shoelace c := by
  match c, h with
  | a :: l, _ =>
    unfold shoelace
    have e : closeUp (closeUp (a :: l)) = (a :: l) ++ [a, a] := by simp [closeUp]
    rw [e, edges_snoc]
    simp only [List.map_append, List.sum_append, List.map_cons, List.map_nil, List.sum_cons, List.sum_nil, closeUp, List.take_succ_cons, List.take_zero]
    ring

theorem chainTurns_snoc : ∀ (l : List (Pt K)) (x y z : Pt K), chainTurns (l ++ [x, y, z]) = chainTurns (l ++ [x, y]) ++ [turn x y z]
  | [], x, y, z => rfl
  | [a], x, y, z => rfl
  | [a, b], x, y, z => rfl
  | a :: b :: c :: l, x, y, z => by
    have := chainTurns_snoc (b :: c :: l) x y z
    simp only [List.cons_append, chainTurns] at this ⊢
    rw [this]

/-- Closing the list by its first point: the turn at the start vertex is replaced by two zeros. -/
theorem turns_close {c : List (Pt K)} (h : 2 ≤ c.length) : ∃ l z, turns c = l ++ [z] ∧ turns (closeUp c) = l ++ [0, 0] := by
  match c, h with
  | a :: b :: l, _ =>
    obtain ⟨m, y, hm⟩ : ∃ m y, b :: l = m ++ [y] := by
      rcases List.eq_nil_or_concat (b :: l) with h | ⟨m, y, h⟩
      · cases h
      · exact ⟨m, y, by rw [h, List.concat_eq_append]⟩
    have hb : ∃ b', (b :: l).head? = some b' := ⟨b, rfl⟩
    have e1 : (a :: b :: l) ++ (a :: b :: l).take 2 = (a :: m) ++ [y, a, b] := by
      rw [List.take_succ_cons, List.take_succ_cons, List.take_zero, hm]
      simp
    have e2 : closeUp (a :: b :: l) ++ (closeUp (a :: b :: l)).take 2 = ((a :: m) ++ [y]) ++ [a, a, b] := by
      have : closeUp (a :: b :: l) = a :: b :: l ++ [a] := rfl
      rw [this]
      simp only [List.cons_append, List.take_succ_cons, List.take_zero]
      have h' : b :: (l ++ [a, a, b]) = m ++ [y, a, a, b] := by
        rw [← List.cons_append, hm]
        simp
      simpa using h'
    have e3 : ((a :: m) ++ [y]) ++ [a, a] = (a :: m) ++ [y, a, a] := by simp
    refine ⟨chainTurns ((a :: m) ++ [y, a]), turn y a b, ?_, ?_⟩
    · rw [turns, e1, chainTurns_snoc]
    · rw [turns, e2, chainTurns_snoc, e3, chainTurns_snoc, List.append_assoc]
      congr 1
      simp [turn]

end Tg.S
