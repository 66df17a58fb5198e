import Verif.Lemmas.SeriesIndex
/-! The walk through the index visits what the plain loop visits. -/
namespace Tg.S

set_option linter.unusedSectionVars false

variable {β : Type*} [LinearOrder β] {σ : Type*}

theorem forRange_congr {f g : Nat → σ → Option (σ × Bool)} : ∀ (k i : Nat) (st : σ),
    (∀ j st, i ≤ j → j < i + k → f j st = g j st) → forRange f i k st = forRange g i k st
  | 0, i, st, _ => rfl
  | k + 1, i, st, h => by
    rw [forRange, forRange, h i st le_rfl (by omega)]
    have ih := fun st => forRange_congr k (i + 1) st (fun j st h1 h2 => h j st (by omega) (by omega))
    rcases g i st with _ | ⟨st', _ | _⟩
    · rfl
    · rfl
    · exact ih st'

theorem forRange_skip {f : Nat → σ → Option (σ × Bool)} : ∀ (k i : Nat) (st : σ),
    (∀ j st, i ≤ j → j < i + k → f j st = some (st, true)) → forRange f i k st = some (st, true)
  | 0, i, st, _ => rfl
  | k + 1, i, st, h => by
    rw [forRange, h i st le_rfl (by omega)]
    exact forRange_skip k (i + 1) st (fun j st h1 h2 => h j st (by omega) (by omega))

/-- Running a loop and then, if it was not stopped, another. -/
def andThen (x : Option (σ × Bool)) (g : σ → Option (σ × Bool)) : Option (σ × Bool) :=
  match x with
  | none => none
  | some (st, false) => some (st, false)
  | some (st, true) => g st

theorem forRange_add {f : Nat → σ → Option (σ × Bool)} : ∀ (k l i : Nat) (st : σ),
    forRange f i (k + l) st = andThen (forRange f i k st) (forRange f (i + k) l)
  | 0, l, i, st => by simp [forRange, andThen]
  | k + 1, l, i, st => by
    rw [show k + 1 + l = (k + l) + 1 by omega, forRange, forRange]
    rcases f i st with _ | ⟨st', _ | _⟩
    · rfl
    · rfl
    · have := forRange_add (f := f) k l (i + 1) st'
      rw [show i + 1 + k = i + (k + 1) by omega] at this
      exact this

theorem forRange_succ (f : Nat → σ → Option (σ × Bool)) (k i : Nat) (st : σ) :
    forRange f i (k + 1) st = andThen (f i st) (forRange f (i + 1) k) := by
  rw [forRange]
  rcases f i st with _ | ⟨st', _ | _⟩ <;> rfl

/-- Blocks of `P` one after the other. -/
theorem forRange_blocks {f : Nat → σ → Option (σ × Bool)} (P n : Nat) : ∀ (c a : Nat) (st : σ),
    forRange (fun i => forRange f (i * P) (min ((i + 1) * P) n - i * P)) a c st
      = forRange f (a * P) (min ((a + c) * P) n - a * P) st
  | 0, a, st => by
    rw [show min ((a + 0) * P) n - a * P = 0 by rw [Nat.add_zero]; omega]; rfl
  | c + 1, a, st => by
    rw [forRange_succ]
    have e : min ((a + (c + 1)) * P) n - a * P
        = (min ((a + 1) * P) n - a * P) + (min ((a + 1 + c) * P) n - (a + 1) * P) := by
      rw [show a + (c + 1) = a + 1 + c by omega]
      have h1 : a * P ≤ (a + 1) * P := Nat.mul_le_mul_right _ (by omega)
      have h2 : (a + 1) * P ≤ (a + 1 + c) * P := Nat.mul_le_mul_right _ (by omega)
      omega
    rw [e, forRange_add]
    congr 1
    funext st'
    rw [forRange_blocks P n c (a + 1) st']
    by_cases h : (a + 1) * P ≤ n
    · congr 1
      have h1 : a * P ≤ (a + 1) * P := Nat.mul_le_mul_right _ (by omega)
      omega
    · have h2 : (a + 1) * P ≤ (a + 1 + c) * P := Nat.mul_le_mul_right _ (by omega)
      rw [show min ((a + 1 + c) * P) n - (a + 1) * P = 0 by omega]
      rfl

/-- An entry covers every segment below it. -/
theorem Levels.covers {ixspread n : Nat} {ext : Nat → Option (Rect β)} (hs : 2 ≤ ixspread) :
    ∀ (ls : List (List (Rect β))) (l : List (Rect β)), Levels ixspread n ext (l :: ls) → ∀ i r, l[i]? = some r →
    ∀ j q, i * ixspread ^ (ls.length + 1) ≤ j → j < (i + 1) * ixspread ^ (ls.length + 1) → j < n → ext j = some q → q.Le r
  | [], l, h, i, r, hr, j, q, h1, h2, hn, hq => by
    simp only [List.length_nil, Nat.zero_add, pow_one] at h1 h2
    exact h.2.1 i r hr j q h1 h2 hn hq
  | l' :: ls, l, h, i, r, hr, j, q, h1, h2, hn, hq => by
    obtain ⟨hlen, hpar, hrest⟩ := h
    have hP : 0 < ixspread ^ (ls.length + 1) := Nat.pow_pos (by omega)
    -- the entry of the level below
    have hm1 : j / ixspread ^ (ls.length + 1) * ixspread ^ (ls.length + 1) ≤ j := Nat.div_mul_le_self _ _
    have hm2 : j < (j / ixspread ^ (ls.length + 1) + 1) * ixspread ^ (ls.length + 1) := by
      rw [Nat.mul_comm]; exact Nat.lt_mul_div_succ j hP
    have hml : j / ixspread ^ (ls.length + 1) < l'.length := by
      rw [hrest.1, lt_numKeys_iff hs]; omega
    simp only [List.length_cons] at h1 h2
    rw [pow_succ, ← Nat.mul_assoc, Nat.mul_right_comm] at h1 h2
    refine (Levels.covers hs ls l' hrest (j / ixspread ^ (ls.length + 1)) l'[j / ixspread ^ (ls.length + 1)]
      (List.getElem?_eq_getElem hml) j q hm1 hm2 hn hq).trans ?_
    refine hpar i r hr (j / ixspread ^ (ls.length + 1)) _ ?_ ?_ (List.getElem?_eq_getElem hml)
    · exact (Nat.le_div_iff_mul_le hP).2 h1
    · exact (Nat.div_lt_iff_lt_mul hP).2 h2

/-- The walk visits the segments below the entries from `start` on like a plain loop, when the segments under a rejected
rectangle would not do anything. -/
theorem walk_eq {ixspread n : Nat} {ext : Nat → Option (Rect β)} {maybe : Rect β → Bool} {leaf : Nat → σ → Option (σ × Bool)}
    (hs : 2 ≤ ixspread) (hext : ∀ j, j < n → ∃ q, ext j = some q)
    (hskip : ∀ j q r, j < n → ext j = some q → q.Le r → maybe r = false → ∀ st, leaf j st = some (st, true)) :
    ∀ (ls : List (List (Rect β))), Levels ixspread n ext ls → ∀ (start : Nat) (st : σ),
    walk maybe leaf ixspread n ls start st
      = forRange leaf (start * ixspread ^ ls.length) 
          (min ((start + ixspread) * ixspread ^ ls.length) n - start * ixspread ^ ls.length) st
  | [], _, start, st => by simp [walk]
  | l :: ls, h, start, st => by
    have ih := walk_eq hs hext hskip ls h.2.2
    rw [walk]
    have hbody : ∀ i st, i < l.length →
        entry maybe l (fun i st => walk maybe leaf ixspread n ls (i * ixspread) st) i st
        = forRange leaf (i * ixspread ^ (ls.length + 1)) 
          (min ((i + 1) * ixspread ^ (ls.length + 1)) n - i * ixspread ^ (ls.length + 1)) st := by
      intro i st hi
      rw [entry, List.getElem?_eq_getElem hi]
      dsimp only
      by_cases hm : maybe l[i] = true
      · rw [if_pos hm, ih]
        have e1 : i * ixspread * ixspread ^ ls.length = i * ixspread ^ (ls.length + 1) := by ring
        have e2 : (i * ixspread + ixspread) * ixspread ^ ls.length = (i + 1) * ixspread ^ (ls.length + 1) := by ring
        rw [e1, e2]
      · rw [if_neg hm, forRange_skip]
        intro j st h1 h2
        have hj : j < n := by omega
        obtain ⟨q, hq⟩ := hext j hj
        refine hskip j q l[i] hj hq ?_ (by simpa using hm) st
        exact h.covers hs ls l i l[i] (List.getElem?_eq_getElem hi) j q h1 (by omega) hj hq
    rw [forRange_congr (g := fun i => forRange leaf (i * ixspread ^ (ls.length + 1)) 
          (min ((i + 1) * ixspread ^ (ls.length + 1)) n - i * ixspread ^ (ls.length + 1))) _ _ _
        (fun j st h1 h2 => hbody j st (by omega)), forRange_blocks, List.length_cons]
    congr 1
    -- beyond the last entry there are no segments
    have hl := h.1
    by_cases hc : start + ixspread ≤ l.length
    · rw [show start + (min (start + ixspread) l.length - start) = start + ixspread by omega]
    · have hn : n ≤ l.length * ixspread ^ (ls.length + 1) := by
        rw [← numKeys_le_iff hs]; omega
      by_cases hc2 : start ≤ l.length
      · rw [show start + (min (start + ixspread) l.length - start) = l.length by omega]
        have : l.length * ixspread ^ (ls.length + 1) ≤ (start + ixspread) * ixspread ^ (ls.length + 1) :=
          Nat.mul_le_mul_right _ (by omega)
        omega
      · have : l.length * ixspread ^ (ls.length + 1) ≤ start * ixspread ^ (ls.length + 1) :=
          Nat.mul_le_mul_right _ (by omega)
        omega

/-- From the root the walk is the plain loop over all segments. -/
theorem walk_root {ixspread n : Nat} {ext : Nat → Option (Rect β)} {maybe : Rect β → Bool} {leaf : Nat → σ → Option (σ × Bool)}
    (hs : 2 ≤ ixspread) (hext : ∀ j, j < n → ∃ q, ext j = some q)
    (hskip : ∀ j q r, j < n → ext j = some q → q.Le r → maybe r = false → ∀ st, leaf j st = some (st, true))
    {ls : List (List (Rect β))} (h : Levels ixspread n ext ls) (hn : n ≤ ixspread * ixspread ^ ls.length) (st : σ) :
    walk maybe leaf ixspread n ls 0 st = forRange leaf 0 n st := by
  rw [walk_eq hs hext hskip ls h]
  rw [Nat.zero_mul, Nat.zero_add]
  congr 1
  omega

end Tg.S
