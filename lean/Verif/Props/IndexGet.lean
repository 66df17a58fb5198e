import Verif.Model.IndexGet
import Verif.Lemmas.Layout
import Verif.Lemmas.Multi
import Verif.Lemmas.SeriesApi
import Verif.Lemmas.Float32
import Verif.Lemmas.Shared
import Verif.Props.Series
import Verif.Props.Float32
/-!
C80: the functions that show an index. What they show is a tree: the number of rectangles of each level is that of the level below divided by the spread,
and each rectangle encloses those below it, down to the segments of a ring or the children of a collection.
-/
set_option linter.unusedSectionVars false
set_option synthInstance.maxSize 1000
namespace Tg

open S

variable {α β : Type*} [LinearOrder α] [LinearOrder β] [Zero α]

/-- C80. For all integers: the functions read inside of the index; for levels and rectangles that are not there they give zeros. -/
theorem C80_bounds (f : Ix α β) (ix : Option (Index β)) (l i : Int) : ∃ r, indexLevelRect f ix l i = some r ∧
    ((l < 0 ∨ indexNumLevels ix ≤ l) → indexLevelNumRects ix l = 0) ∧
    ((l < 0 ∨ indexNumLevels ix ≤ l ∨ i < 0 ∨ indexLevelNumRects ix l ≤ i) → r = ⟨⟨0, 0⟩, ⟨0, 0⟩⟩) := by
  cases ix with
  | none => exact ⟨_, rfl, fun _ => rfl, fun _ => rfl⟩
  | some ix =>
    simp only [indexLevelRect, indexLevelNumRects, indexNumLevels]
    by_cases h : l < 0 ∨ (ix.levels.length : Int) ≤ l
    · rw [if_pos h]
      exact ⟨_, rfl, fun _ => if_pos h, fun _ => rfl⟩
    · rw [if_neg h]
      have hl : l.toNat < ix.levels.length := by omega
      rw [List.getElem?_eq_getElem hl]
      by_cases hi : i < 0 ∨ ((ix.levels[l.toNat]).length : Int) ≤ i
      · simp only [if_pos hi]
        exact ⟨_, rfl, fun h' => absurd h' h, fun _ => rfl⟩
      · simp only [if_neg hi]
        rw [List.getElem?_eq_getElem (by omega : i.toNat < (ix.levels[l.toNat]).length)]
        refine ⟨_, rfl, fun h' => absurd h' h, fun h' => ?_⟩
        rw [if_neg h] at h'
        simp only [Option.getD_some] at h'
        omega

/-- What an index over `n` items shows, where `box` are their rectangles. -/
structure Shows (f : Ix α β) (ix : Index β) (n : Nat) (box : Nat → Option (S.Rect α)) : Prop where
  /-- the number of levels and the spread -/
  counts : indexSpread (some ix) = ix.spread ∧ 2 ≤ ix.spread ∧ indexNumLevels (some ix) = ix.levels.length ∧ n ≤ ix.spread ^ (ix.levels.length + 1)
  /-- a rectangle is there if and only if there are items for it -/
  rects : ∀ l : Nat, l < ix.levels.length → ∀ i : Nat, (i : Int) < indexLevelNumRects (some ix) l ↔ i * ix.spread ^ (ix.levels.length - l) < n
  /-- there are at most as many at the root as the spread, and not only one -/
  root : indexLevelNumRects (some ix) 0 ≤ ix.spread ∧ 2 ≤ indexLevelNumRects (some ix) 0
  /-- each encloses those below -/
  inner : ∀ l : Nat, l + 1 < ix.levels.length → ∀ j : Nat, (j : Int) < indexLevelNumRects (some ix) (l + 1) → ∃ r q, indexLevelRect f (some ix) l (j / ix.spread) = some r ∧
    indexLevelRect f (some ix) (l + 1) j = some q ∧ q.Le r
  /-- and the rectangles of all items below -/
  items : ∀ l : Nat, l < ix.levels.length → ∀ j : Nat, j < n → ∀ q, box j = some q → f.Encloses q →
    ∃ r, indexLevelRect f (some ix) l (j / ix.spread ^ (ix.levels.length - l) : Nat) = some r ∧ q.Le r

theorem wideRect_mono {f : Ix α β} (hw : ∀ x y, x ≤ y → f.wide x ≤ f.wide y) {r q : S.Rect β} (h : r.Le q) : (f.wideRect r).Le (f.wideRect q) :=
  ⟨hw _ _ h.1, hw _ _ h.2.1, hw _ _ h.2.2.1, hw _ _ h.2.2.2⟩

theorem levelRect_at {f : Ix α β} {ix : Index β} {l i : Nat} {lev : List (S.Rect β)} {r : S.Rect β} (hl : ix.levels[l]? = some lev) (hi : lev[i]? = some r) :
    indexLevelRect f (some ix) l i = some (f.wideRect r) := by
  have h1 : l < ix.levels.length := (List.getElem?_eq_some_iff.1 hl).1
  have h2 : i < lev.length := (List.getElem?_eq_some_iff.1 hi).1
  simp only [indexLevelRect, Int.toNat_natCast]
  rw [if_neg (by omega), hl]
  simp only
  rw [if_neg (by omega), hi]

theorem numRects_at {ix : Index β} {l : Nat} {lev : List (S.Rect β)} (hl : ix.levels[l]? = some lev) : indexLevelNumRects (some ix) l = lev.length := by
  have h1 : l < ix.levels.length := (List.getElem?_eq_some_iff.1 hl).1
  simp only [indexLevelNumRects, Int.toNat_natCast]
  rw [if_neg (by omega), hl, Option.getD_some]

theorem shows_of {f : Ix α β} (hw : ∀ x y, x ≤ y → f.wide x ≤ f.wide y) {ix : Index β} {n : Nat} {ext : Nat → Option (S.Rect β)} {box : Nat → Option (S.Rect α)} (hs : 2 ≤ ix.spread)
    (hne : ix.levels ≠ []) (hl : Levels ix.spread n ext ix.levels) (hr : n ≤ ix.spread * ix.spread ^ ix.levels.length) (hr2 : ix.spread ^ ix.levels.length < n)
    (hb : ∀ j q, box j = some q → ext j = some (f.rect q)) : Shows f ix n box := by
  have at' : ∀ l : Nat, l < ix.levels.length → ∃ lev, ix.levels[l]? = some lev := fun l h => ⟨_, List.getElem?_eq_getElem h⟩
  have hp : ∀ l, 0 < ix.spread ^ l := fun l => Nat.pow_pos (by omega)
  have hlen : 0 < ix.levels.length := List.length_pos_iff.2 hne
  refine ⟨⟨rfl, hs, rfl, by rw [pow_succ']; exact hr⟩, ?_, ?_, ?_, ?_⟩
  · intro l h i
    obtain ⟨lev, hlev⟩ := at' l h
    rw [numRects_at hlev, (hl.at l lev hlev).1, Nat.cast_lt, lt_numKeys_iff hs]
  · obtain ⟨lev, hlev⟩ := at' 0 hlen
    have := numRects_at hlev
    rw [Nat.cast_zero] at this
    rw [this, (hl.at 0 lev hlev).1, Nat.sub_zero]
    refine ⟨Nat.cast_le.2 ((numKeys_le_iff hs).2 hr), ?_⟩
    have : 1 < numKeys ix.spread ix.levels.length n := (lt_numKeys_iff hs).2 (by rw [one_mul]; exact hr2)
    omega
  · intro l h j hj
    obtain ⟨lev, hlev⟩ := at' l (by omega)
    obtain ⟨lev', hlev'⟩ := at' (l + 1) h
    have e := numRects_at hlev'
    push_cast at e
    rw [e, Nat.cast_lt] at hj
    obtain ⟨a1, a2, -⟩ := hl.at l lev hlev
    have b1 := (hl.at (l + 1) lev' hlev').1
    have hi : j / ix.spread < lev.length := by
      rw [a1, lt_numKeys_iff hs]
      rw [b1, lt_numKeys_iff hs] at hj
      refine lt_of_le_of_lt ?_ hj
      rw [show ix.levels.length - l = ix.levels.length - (l + 1) + 1 by omega, pow_succ', ← mul_assoc]
      exact Nat.mul_le_mul_right _ (Nat.div_mul_le_self _ _)
    refine ⟨_, _, by simpa using levelRect_at (f := f) hlev (List.getElem?_eq_getElem hi), by simpa using levelRect_at (f := f) hlev' (List.getElem?_eq_getElem hj), ?_⟩
    refine wideRect_mono hw (a2 lev' hlev' _ _ (List.getElem?_eq_getElem hi) j _ (Nat.div_mul_le_self _ _) ?_ (List.getElem?_eq_getElem hj))
    rw [mul_comm]
    exact Nat.lt_mul_div_succ j (by omega)
  · have key : ∀ d l, l + d + 1 = ix.levels.length → ∀ j : Nat, j < n → ∀ q, ext j = some q →
        ∃ lev r, ix.levels[l]? = some lev ∧ lev[j / ix.spread ^ (d + 1)]? = some r ∧ q.Le r := by
      intro d
      induction d with
      | zero =>
        intro l h j hj q hq
        obtain ⟨lev, hlev⟩ := at' l (by omega)
        obtain ⟨a1, -, a3⟩ := hl.at l lev hlev
        have hi : j / ix.spread < lev.length := by
          rw [a1, lt_numKeys_iff hs, show ix.levels.length - l = 1 by omega, pow_one]
          exact lt_of_le_of_lt (Nat.div_mul_le_self _ _) hj
        refine ⟨lev, lev[j / ix.spread], hlev, by rw [zero_add, pow_one]; exact List.getElem?_eq_getElem hi, ?_⟩
        refine a3 (by omega) _ _ (List.getElem?_eq_getElem hi) j q (Nat.div_mul_le_self _ _) ?_ hj hq
        rw [mul_comm]
        exact Nat.lt_mul_div_succ j (by omega)
      | succ d ih =>
        intro l h j hj q hq
        obtain ⟨lev', r', h1, h2, h3⟩ := ih (l + 1) (by omega) j hj q hq
        obtain ⟨lev, hlev⟩ := at' l (by omega)
        obtain ⟨a1, a2, -⟩ := hl.at l lev hlev
        have hd : j / ix.spread ^ (d + 1 + 1) = j / ix.spread ^ (d + 1) / ix.spread := by rw [pow_succ _ (d + 1), Nat.div_div_eq_div_mul]
        have hi : j / ix.spread ^ (d + 1 + 1) < lev.length := by
          rw [a1, lt_numKeys_iff hs, show ix.levels.length - l = d + 1 + 1 by omega]
          exact lt_of_le_of_lt (Nat.div_mul_le_self _ _) hj
        refine ⟨lev, lev[j / ix.spread ^ (d + 1 + 1)], hlev, List.getElem?_eq_getElem hi, h3.trans ?_⟩
        refine a2 lev' h1 _ _ (List.getElem?_eq_getElem hi) _ r' ?_ ?_ h2
        · rw [hd]; exact Nat.div_mul_le_self _ _
        · rw [hd, mul_comm]; exact Nat.lt_mul_div_succ _ (by omega)
    intro l h j hj q hq he
    obtain ⟨lev, r, h1, h2, h3⟩ := key (ix.levels.length - l - 1) l (by omega) j hj _ (hb j q hq)
    rw [show ix.levels.length - l - 1 + 1 = ix.levels.length - l by omega] at h2
    exact ⟨_, levelRect_at h1 h2, Rect.Le.trans ⟨he.1, he.2.1, he.2.2.1, he.2.2.2⟩ (wideRect_mono hw h3)⟩

/-- The rectangle of segment `j`. -/
def segBox (segs : List (Seg α)) (j : Nat) : Option (S.Rect α) := (segs[j]?).map Seg.rect

/-- C80. The index of a ring or line. It is there if the points are at least twice the spread and the flags ask for it, and then shows a tree above the segments. (For a
ring whose last point is not the first, `LeavesCover` is needed: see C23.) -/
theorem C80_ring {f : Ix α β} (hf : f.Lawful) (hw : ∀ x y, x ≤ y → f.wide x ≤ f.wide y) {A : Arith α} {e : Env} (he : e.Ok) {pts : List (S.Pt α)} {closed : Bool}
    {ix : BitVec 32} {ring : Ring α β} (h : newIx f A e pts closed ix = some ring) :
    ((kindsOf e pts.length closed ix).1 = false → ringIndexOf (some ring) = none) ∧
    ((kindsOf e pts.length closed ix).1 = true → ∃ i, ringIndexOf (some ring) = some i ∧ i.spread = spreadOf e ix ∧
      Shows f i (segments pts closed).length (fun _ => none) ∧
      (LeavesCover pts closed (spreadOf e ix) → Shows f i (segments pts closed).length (segBox (segments pts closed)))) := by
  obtain ⟨h1, h2, -, -⟩ := newIx_some hf he h
  constructor
  · intro hk
    rw [hk] at h2
    simpa [ringIndexOf] using h2
  · intro hk
    obtain ⟨i, hi⟩ := Option.isSome_iff_exists.1 (h2.2 hk)
    obtain ⟨i1, i2⟩ := h1.index_spread i hi
    have sh := h1.index_shape i hi
    have hlev := seriesNew_levels (extractSpread_ge he ix) h hi
    have hr2 : i.spread ^ i.levels.length < (segments pts closed).length := by
      rw [h1.nsegs_eq] at hlev
      have hs := extractSpread_ge he ix
      obtain ⟨-, -, L⟩ := numLevels_spec (s := (extractSpread e ix).2.toNat) (n := (segments pts closed).length) hs
      have hne := List.length_pos_iff.2 sh.nonempty
      rcases L with L | L
      · omega
      · rw [lt_numKeys_iff hs, one_mul, ← hlev] at L
        rw [i1]
        exact L
    refine ⟨i, hi, i1, shows_of hw sh.spread sh.nonempty sh.levels sh.root hr2 (by intro j q hq; cases hq), fun hc => ?_⟩
    have ok := h1.index_ok i hi hc
    refine shows_of hw ok.spread ok.nonempty ok.levels ok.root hr2 ?_
    intro j q hq
    unfold segBox at hq
    unfold extOf
    cases hj : (segments pts closed)[j]? with
    | none => rw [hj] at hq; cases hq
    | some g => rw [hj] at hq; cases hq; rfl

/-- C80. For a line, or a ring whose points end with the first, the tree is above all segments. -/
theorem C80_segments {f : Ix α β} (hf : f.Lawful) (hw : ∀ x y, x ≤ y → f.wide x ≤ f.wide y) {A : Arith α} {e : Env} (he : e.Ok) {pts : List (S.Pt α)} {closed : Bool}
    {ix : BitVec 32} {ring : Ring α β} (h : newIx f A e pts closed ix = some ring) (hc : (segments pts closed).length < pts.length)
    {i : Index β} (hi : ringIndexOf (some ring) = some i) {s : Seg α} (hs : s ∈ segments pts closed) (hin : f.Encloses s.rect) {l : Nat} (hl : (l : Int) < indexNumLevels (some i)) :
    ∃ k : Nat, (k : Int) < indexLevelNumRects (some i) l ∧ ∃ r, indexLevelRect f (some i) l k = some r ∧ s.rect.Le r := by
  obtain ⟨h1, h2⟩ := C80_ring hf hw he h
  cases hk : (kindsOf e pts.length closed ix).1 with
  | false => rw [h1 hk] at hi; cases hi
  | true =>
    obtain ⟨i', hi', -, -, h3⟩ := h2 hk
    rw [hi] at hi'
    cases hi'
    have sh := h3 (Or.inl hc)
    obtain ⟨j, hj, e'⟩ := List.mem_iff_getElem.1 hs
    have hl' : l < i.levels.length := by simpa [indexNumLevels] using hl
    obtain ⟨r, a, b⟩ := sh.items l hl' j hj s.rect (by rw [segBox, List.getElem?_eq_getElem hj, e']; rfl) hin
    exact ⟨_, (sh.rects l hl' _).2 (lt_of_le_of_lt (Nat.div_mul_le_self _ _) hj), r, a, b⟩

theorem chunkUpper_length {s : Nat} : ∀ {ns : List Nat} {below : List (S.Rect β)} {ls : List (List (S.Rect β))}, chunkUpper s ns below = some ls → ls.length = ns.length + 1
  | [], below, ls, h => by cases h; rfl
  | n :: ns, below, ls, h => by
    rw [chunkUpper] at h
    split at h
    · cases h
    · rename_i level hl
      split at h
      · cases h
      · rename_i ls' h'
        cases h
        rw [List.length_append, chunkUpper_length h']
        rfl

theorem multiNew_shape {γ : Type*} {f : Ix α β} {H : HArith α} {Q : Qsort} {rectOf : γ → S.Rect α} {geoms : List γ} {m : Multi α β γ}
    (h : multiNew f H Q rectOf geoms = some m) {i : Index β} (hi : m.index = some i) :
    i.spread = 32 ∧ i.levels.length = numLevels 32 geoms.length - 1 - 1 + 1 := by
  unfold multiNew at h
  dsimp only at h
  split_ifs at h with hc
  · unfold inflateIndex at h
    split at h
    · cases h
    · dsimp only at h
      split at h
      · cases h
      · split at h
        · cases h
        · split at h
          · cases h
          · rename_i levels hl
            cases h
            cases hi
            have := chunkUpper_length hl
            rw [upperSizes, List.length_map, List.length_range] at this
            exact ⟨rfl, this⟩
  · cases h; cases hi

/-- C80. The index of a collection: there are at least 64 children if and only if it is there; its spread is 32, and it shows a tree above the children, in an order in which
each of them occurs once. -/
theorem C80_multi {f : Ix α β} (hw : ∀ x y, x ≤ y → f.wide x ≤ f.wide y) {H : HArith α} {Q : Qsort} (hQ : QsortOk Q) {geoms : List (Geo α β)} {m : Multi α β (Geo α β)}
    (h : multiNew f H Q Geo.rect geoms = some m) (flag : Bool) :
    (geoms.length < 64 → geoIndexOf (.multi flag m.geoms m.rect m.index m.ixgeoms) = none) ∧
    (64 ≤ geoms.length → ∃ i, geoIndexOf (.multi flag m.geoms m.rect m.index m.ixgeoms) = some i ∧ indexSpread (some i) = 32 ∧ m.ixgeoms.Perm (List.range geoms.length) ∧
      Shows f i geoms.length (fun j => (m.ixgeoms[j]?).bind fun k => (geoms[k]?).map Geo.rect)) := by
  obtain ⟨h1, h2⟩ := multiNew_ok hQ h
  constructor
  · intro hl
    have : ¬ (m.index.isSome = true) := fun e => by have := h2.1 e; omega
    simpa [geoIndexOf] using this
  · intro hl
    obtain ⟨i, hi⟩ := Option.isSome_iff_exists.1 (h2.2 hl)
    obtain ⟨s1, s2⟩ := multiNew_shape h hi
    refine ⟨i, hi, by rw [indexSpread, s1]; rfl, h1.perm i hi, ?_⟩
    have hs : (2 : Nat) ≤ 32 := by omega
    obtain ⟨L0, L1, L⟩ := numLevels_spec (s := 32) (n := geoms.length) hs
    have hn1 : numLevels 32 geoms.length ≠ 1 := by
      intro e1
      rw [e1, numKeys_le_iff hs, pow_one, one_mul] at L1
      omega
    refine shows_of hw (h1.spread i hi) (by intro e; rw [e] at s2; simp at s2) (h1.levels i hi) (h1.root i hi) ?_ ?_
    · rcases L with L | L
      · exact absurd L hn1
      · rw [lt_numKeys_iff hs, one_mul] at L
        rw [s1, s2, show numLevels 32 geoms.length - 1 - 1 + 1 = numLevels 32 geoms.length - 1 by omega]
        exact L
    · intro j q hq
      cases hj : m.ixgeoms[j]? with
      | none => rw [hj] at hq; cases hq
      | some k =>
        rw [hj, Option.bind_some] at hq
        rw [Option.bind_some]
        cases hg : geoms[k]? with
        | none => rw [hg] at hq; cases hq
        | some g => rw [hg] at hq; cases hq; rfl

/-- C80. In each level of the index of a collection each child lies in one of the rectangles shown. -/
theorem C80_children {f : Ix α β} (hw : ∀ x y, x ≤ y → f.wide x ≤ f.wide y) {H : HArith α} {Q : Qsort} (hQ : QsortOk Q) {geoms : List (Geo α β)} {m : Multi α β (Geo α β)}
    (h : multiNew f H Q Geo.rect geoms = some m) (flag : Bool) {i : Index β} (hi : geoIndexOf (.multi flag m.geoms m.rect m.index m.ixgeoms) = some i)
    {g : Geo α β} (hg : g ∈ geoms) (hin : f.Encloses g.rect) {l : Nat} (hl : (l : Int) < indexNumLevels (some i)) :
    ∃ k : Nat, (k : Int) < indexLevelNumRects (some i) l ∧ ∃ r, indexLevelRect f (some i) l k = some r ∧ g.rect.Le r := by
  obtain ⟨h1, h2⟩ := C80_multi hw hQ h flag
  rcases lt_or_ge geoms.length 64 with h64 | h64
  · rw [h1 h64] at hi; cases hi
  · obtain ⟨i', hi', -, hp, sh⟩ := h2 h64
    rw [hi] at hi'
    cases hi'
    obtain ⟨k, hk, e⟩ := List.mem_iff_getElem.1 hg
    have hk' : k ∈ m.ixgeoms := hp.symm.subset (List.mem_range.2 hk)
    obtain ⟨j, hj, ej⟩ := List.mem_iff_getElem.1 hk'
    have hjn : j < geoms.length := by have := hp.length_eq; rw [List.length_range] at this; omega
    have hl' : l < i.levels.length := by simpa [indexNumLevels] using hl
    obtain ⟨r, a, b⟩ := sh.items l hl' j hjn g.rect (by
      rw [List.getElem?_eq_getElem hj, ej, Option.bind_some, List.getElem?_eq_getElem hk, e]; rfl) hin
    exact ⟨_, (sh.rects l hl' _).2 (lt_of_le_of_lt (Nat.div_mul_le_self _ _) hjn), r, a, b⟩

/-- C80. Nothing but a collection has an index of its children. -/
theorem C80_others (g : Geo α β) (h : ∀ fl cs r ix o, g ≠ .multi fl cs r ix o) : geoIndexOf g = none := by
  cases g with
  | multi fl cs r ix o => exact absurd rfl (h fl cs r ix o)
  | _ => rfl

/-- A ring with an index of spread 2, as the functions show it: the spread, the number of levels, and of each level the number of rectangles and the rectangles. -/
def shown (pts : List (S.Pt ℚ)) (levels rects : Nat) : Option (Int × Int × List (Int × List (Option (List ℚ)))) :=
  (newIx Ix.exact arithQ Env.initial pts true (indexWithSpread 2#32 2)).map fun r => (indexSpread (ringIndexOf (some r)), indexNumLevels (ringIndexOf (some r)),
    (List.range levels).map fun l : Nat => (indexLevelNumRects (ringIndexOf (some r)) l,
      (List.range rects).map fun i : Nat => (indexLevelRect Ix.exact (ringIndexOf (some r)) l i).map fun r => [r.lo.x, r.lo.y, r.hi.x, r.hi.y]))

/-- C80 fails for rings that are not closed: the last segment of this ring goes from (0,4) to (0,0), and the last rectangle of the last level is the point (0,4). -/
theorem C80_open_ring_missed : shown openRing 2 3 = some (2, 2, [
      (2, [some [0, 0, 4, 6], some [0, 4, 0, 4], some [0, 0, 0, 0]]),
      (3, [some [0, 0, 4, 4], some [0, 4, 4, 6], some [0, 4, 0, 4]])]) ∧
    ((segments openRing true)[4]?).map (fun s => (s.a.x, s.a.y, s.b.x, s.b.y)) = some (0, 4, 0, 0) := by
  constructor <;> decide +kernel

/-- The hypotheses of `C80_ring` and `C80_segments` hold for a closed ring of 10 points and spread 2: 9 segments, three levels of 2, 3 and 5 rectangles. -/
example : shown (openRing ++ [⟨0, 1⟩, ⟨1, 3⟩, ⟨2, 2⟩, ⟨1, 0⟩, ⟨0, 0⟩]) 3 5 = some (2, 3, [
      (2, [some [0, 0, 4, 6], some [0, 0, 1, 0], some [0, 0, 0, 0], some [0, 0, 0, 0], some [0, 0, 0, 0]]),
      (3, [some [0, 0, 4, 6], some [0, 0, 2, 4], some [0, 0, 1, 0], some [0, 0, 0, 0], some [0, 0, 0, 0]]),
      (5, [some [0, 0, 4, 4], some [0, 4, 4, 6], some [0, 1, 1, 4], some [1, 0, 2, 3], some [0, 0, 1, 0]])]) ∧
    (Ix.exact : Ix ℚ ℚ).Lawful ∧ (∀ x y : ℚ, x ≤ y → (Ix.exact : Ix ℚ ℚ).wide x ≤ (Ix.exact : Ix ℚ ℚ).wide y) ∧ Env.initial.Ok ∧
    (segments (openRing ++ [⟨0, 1⟩, ⟨1, 3⟩, ⟨2, 2⟩, ⟨1, 0⟩, ⟨0, 0⟩]) true).length < 10 := by
  refine ⟨by decide +kernel, Ix.exact_lawful, fun _ _ h => h, ⟨by decide, by decide⟩, by decide +kernel⟩

/-- The hypotheses of `C80_multi` and `C80_children` hold for 64 points: one level of two rectangles. -/
example : ∃ m, multiNew (Ix.exact : Ix ℚ ℚ) exactH insertionQsort Geo.rect ((List.range 64).map fun i : Nat => (.atom (.point ⟨i, i⟩) : Geo ℚ ℚ)) = some m ∧ QsortOk insertionQsort ∧
    indexNumLevels m.index = 1 ∧ indexLevelNumRects m.index 0 = 2 := by
  have h : (multiNew (Ix.exact : Ix ℚ ℚ) exactH insertionQsort Geo.rect ((List.range 64).map fun i : Nat => (.atom (.point ⟨i, i⟩) : Geo ℚ ℚ))).map
      (fun m => (indexNumLevels m.index, indexLevelNumRects m.index 0)) = some (1, 2) := by
    set_option maxRecDepth 100000 in decide +kernel
  cases hm : multiNew (Ix.exact : Ix ℚ ℚ) exactH insertionQsort Geo.rect ((List.range 64).map fun i : Nat => (.atom (.point ⟨i, i⟩) : Geo ℚ ℚ)) with
  | none => rw [hm] at h; cases h
  | some m =>
    rw [hm] at h
    simp only [Option.map_some, Option.some.injEq, Prod.mk.injEq] at h
    exact ⟨m, rfl, insertionQsort_ok, h.1, h.2⟩

end Tg
