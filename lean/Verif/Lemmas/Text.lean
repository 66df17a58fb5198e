import Verif.Lemmas.Writer
import Verif.Model.Number
import Mathlib.Tactic.SplitIfs
import Mathlib.Tactic.Common
/-! What the text writers have put into the buffer so far. -/
set_option linter.unusedSectionVars false
namespace Tg

/-- After writing the text `bs` into an object `d0` with room `n`. The last byte of the room is left open: it may hold a terminator. -/
structure Holds (d0 : List Byte) (n : Nat) (bs : List Byte) (w : Wr) : Prop where
  n_eq : w.n = n
  len : w.dst.length = d0.length
  ub : w.ub = false
  count : w.count = bs.length
  pre : ∀ i, i < bs.length → i + 1 < n → w.dst[i]? = bs[i]?
  post : ∀ i, n ≤ i → w.dst[i]? = d0[i]?

variable {d0 : List Byte} {n : Nat} {bs ts : List Byte} {w : Wr}

theorem Holds.store (hn : n ≤ d0.length) (h : Holds d0 n bs w) (b : Byte) {i : Nat} (hi : i < n) (hi' : bs.length ≤ i ∨ i = n - 1) :
    Holds d0 n bs (w.store i b) := by
  have hl := h.len
  rw [Wr.store, if_pos (by omega)]
  refine ⟨h.n_eq, by simpa using hl, h.ub, h.count, fun j hj hjn => ?_, fun j hj => ?_⟩
  · rw [List.getElem?_set_ne (by omega)]; exact h.pre j hj hjn
  · rw [List.getElem?_set_ne (by omega)]; exact h.post j hj

theorem Holds.byte (hn : n ≤ d0.length) (h : Holds d0 n bs w) (b : Byte) : Holds d0 n (bs ++ [b]) (w.byte b) := by
  have h1 := h.n_eq
  have h2 := h.len
  have h3 := h.count
  unfold Wr.byte
  by_cases hc : w.count < w.n
  · have hs := h.store hn b (i := w.count) (by omega) (by omega)
    simp only [hc, if_true]
    refine ⟨hs.n_eq, hs.len, hs.ub, by simp [hs.count], fun i hi hin => ?_, hs.post⟩
    simp only [List.length_append, List.length_singleton] at hi
    by_cases hlt : i < bs.length
    · rw [hs.pre i hlt hin, List.getElem?_append_left hlt]
    · have : i = bs.length := by omega
      subst this
      rw [List.getElem?_append_right (by omega)]
      simp only [Wr.store, show w.count < w.dst.length by omega, if_true]
      rw [h3, List.getElem?_set_self (by omega)]
      simp
  · simp only [hc, if_false]
    refine ⟨h1, h2, h.ub, by simp [h3], fun i hi hin => ?_, h.post⟩
    rw [h.pre i (by omega) hin, List.getElem?_append_left (by omega)]

theorem Holds.bytes (hn : n ≤ d0.length) (h : Holds d0 n bs w) (ts : List Byte) : Holds d0 n (bs ++ ts) (w.bytes ts) := by
  induction ts generalizing bs w with
  | nil => simpa using h
  | cons b ts ih =>
    rw [Wr.bytes_cons]
    have := ih (h.byte hn b)
    simpa using this

/-- Going back over what was written last. -/
theorem Holds.rewind (h : Holds d0 n (bs ++ ts) w) {c : Nat} (hc : c = bs.length) : Holds d0 n bs { w with count := c } := by
  refine ⟨h.n_eq, h.len, h.ub, hc, fun i hi hin => ?_, h.post⟩
  rw [h.pre i (by simp; omega) hin, List.getElem?_append_left hi]

theorem Holds.nullterm (hn : n ≤ d0.length) (h : Holds d0 n bs w) : Holds d0 n bs w.nullterm := by
  have h1 := h.n_eq
  have h3 := h.count
  unfold Wr.nullterm
  split_ifs with a b
  · exact h.store hn _ (by omega) (.inl (by omega))
  · exact h.store hn _ (by omega) (.inr (by omega))
  · exact h

/-- At the end: the longest prefix that fits before the terminator. -/
theorem Holds.final (hn : n ≤ d0.length) (h : Holds d0 n bs w) :
    w.nullterm.ub = false ∧ w.nullterm.count = bs.length ∧ w.nullterm.dst.length = d0.length ∧
    (0 < n → w.nullterm.dst.take (min bs.length (n - 1) + 1) = bs.take (n - 1) ++ [0#8]) ∧ w.nullterm.dst.drop n = d0.drop n := by
  have hh := h.nullterm hn
  refine ⟨hh.ub, hh.count, hh.len, fun h0 => ?_, ?_⟩
  · have h1 := h.n_eq
    have h2 := h.len
    have h3 := h.count
    apply List.ext_getElem?
    intro i
    rcases Nat.lt_trichotomy i (min bs.length (n - 1)) with hi | hi | hi
    · rw [List.getElem?_take_of_lt (by omega), List.getElem?_append_left (by simp; omega), List.getElem?_take_of_lt (by omega)]
      exact hh.pre i (by omega) (by omega)
    · rw [List.getElem?_take_of_lt (by omega), List.getElem?_append_right (by simp; omega)]
      have : i - (bs.take (n - 1)).length = 0 := by simp; omega
      rw [this]
      unfold Wr.nullterm
      split_ifs with a b
      · rw [Wr.store, if_pos (by omega)]
        have : i = w.count := by omega
        rw [this, List.getElem?_set_self (by omega)]; rfl
      · rw [Wr.store, if_pos (by omega)]
        have : i = w.n - 1 := by omega
        rw [this, List.getElem?_set_self (by omega)]; rfl
      · omega
    · rw [List.getElem?_eq_none (by simp; omega), List.getElem?_eq_none (by simp; omega)]
  · apply List.ext_getElem?
    intro i
    rw [List.getElem?_drop, List.getElem?_drop]
    exact hh.post _ (by omega)

/-! ### Numbers -/

/-- The writer that `fp_writer` is a window of. -/
def Fw.toWr (fw : Fw) : Wr := { fw.w with count := fw.base + fw.count }

/-- After writing the text `ts` into the window behind `bs`. -/
structure Fw.Holds (d0 : List Byte) (n : Nat) (bs ts : List Byte) (fw : Fw) : Prop where
  n_eq : fw.n = n - bs.length
  base : fw.base = bs.length
  holds : Tg.Holds d0 n (bs ++ ts) fw.toWr

theorem Fw.Holds.count {fw : Fw} (h : fw.Holds d0 n bs ts) : fw.count = ts.length := by
  have h1 := h.holds.count
  have h2 := h.base
  simp only [Fw.toWr, List.length_append] at h1
  omega

theorem Fw.Holds.char (hn : n ≤ d0.length) {fw : Fw} (h : fw.Holds d0 n bs ts) (b : Byte) : (fw.char b).Holds d0 n bs (ts ++ [b]) := by
  have h1 := h.n_eq
  have h2 := h.base
  have h3 := h.holds.n_eq
  have h4 := h.holds.byte hn b
  refine ⟨h1, h2, ?_⟩
  rw [← List.append_assoc]
  have : (fw.char b).toWr = fw.toWr.byte b := by
    simp only [Fw.toWr] at h3
    unfold Fw.char Fw.toWr Wr.byte
    by_cases hc : fw.count < fw.n
    · have : fw.base + fw.count < fw.w.n := by omega
      simp only [hc, if_true, this, Wr.store]
      split <;> simp [Nat.add_assoc]
    · have : ¬ fw.base + fw.count < fw.w.n := by omega
      simp only [hc, if_false, this]
      simp [Nat.add_assoc]
  rw [this]
  exact h4

theorem Fw.Holds.chars (hn : n ≤ d0.length) {fw : Fw} (h : fw.Holds d0 n bs ts) (us : List Byte) : (fw.chars us).Holds d0 n bs (ts ++ us) := by
  induction us generalizing fw ts with
  | nil => rw [List.append_nil]; exact h
  | cons b us ih =>
    have := ih (h.char hn b)
    rw [List.append_assoc] at this
    exact this

theorem store_toWr (fw : Fw) (i : Nat) (b : Byte) : ({ fw with w := fw.w.store i b } : Fw).toWr = fw.toWr.store i b := by
  unfold Fw.toWr Wr.store
  dsimp only
  split <;> rfl

theorem Fw.Holds.nullterm (hn : n ≤ d0.length) {fw : Fw} (h : fw.Holds d0 n bs ts) : fw.nullterm.Holds d0 n bs ts := by
  have h1 := h.n_eq
  have h2 := h.base
  have h3 := h.count
  refine ⟨h1, h2, ?_⟩
  unfold Fw.nullterm
  split_ifs with a b
  · rw [store_toWr]
    exact h.holds.store hn _ (by omega) (.inl (by simp; omega))
  · rw [store_toWr]
    exact h.holds.store hn _ (by omega) (.inr (by omega))
  · exact h.holds

/-- Starting over. -/
theorem Fw.Holds.restart {fw : Fw} (h : fw.Holds d0 n bs ts) : ({ fw with count := 0 } : Fw).Holds d0 n bs [] := by
  refine ⟨h.n_eq, h.base, ?_⟩
  rw [List.append_nil]
  exact h.holds.rewind h.base

theorem fpInt_holds (hn : n ≤ d0.length) (k : Nat) (p : List Byte) {fw : Fw} (h : fw.Holds d0 n bs ts) :
    (fpInt k p fw).1.Holds d0 n bs (ts ++ (p.take k ++ List.replicate (k - p.length) 0x30#8)) ∧ (fpInt k p fw).2 = p.drop k := by
  induction k generalizing p fw ts with
  | zero => simpa [fpInt] using h
  | succ k ih =>
    cases p with
    | nil =>
      obtain ⟨h1, h2⟩ := ih [] (h.char hn 0x30#8)
      rw [fpInt]
      refine ⟨?_, by simpa using h2⟩
      simpa [List.replicate_succ] using h1
    | cons b p =>
      obtain ⟨h1, h2⟩ := ih p (h.char hn b)
      rw [fpInt]
      refine ⟨?_, by simpa using h2⟩
      simpa using h1

/-- The sign of a decimal text, and the rest. -/
def signOf (buf : List Byte) : List Byte := if buf.head? == some 0x2D#8 then [0x2D#8] else []
def unsigned (buf : List Byte) : List Byte := if buf.head? == some 0x2D#8 then buf.tail else buf

/-- The decimal without exponent: `d` the first digit, `ds` the others, `en` the exponent. -/
def fixedText (en : Int) (d : Byte) (ds : List Byte) : List Byte :=
  if en < 0 then [0x30#8, 0x2E#8] ++ (List.replicate (en.natAbs - 1) 0x30#8 ++ d :: ds)
  else d :: (ds.take en.toNat ++ List.replicate (en.toNat - ds.length) 0x30#8) ++
    (if ds.drop en.toNat ≠ [] ∧ ds.drop en.toNat ≠ [0x30#8] then 0x2E#8 :: ds.drop en.toNat else [])

/-- The text that `fp_utoa` writes. -/
def fpText (g : Bool) (buf : List Byte) : List Byte :=
  match splitE (unsigned buf) with
  | some (d :: r, x) =>
    let t := signOf buf ++ fixedText (atoi x) d (r.drop 1)
    if g && buf.length < t.length then signOf buf ++ (d :: r ++ 0x65#8 :: x) else t
  | _ => []

theorem fpFixed_holds (hn : n ≤ d0.length) (en : Int) (d : Byte) (r : List Byte) {fw : Fw} (h : fw.Holds d0 n bs ts) :
    (fpFixed en d r fw).Holds d0 n bs (ts ++ fixedText en d (r.drop 1)) := by
  unfold fpFixed fixedText
  by_cases he : en < 0
  · rw [if_pos he, if_pos he]
    have h1 := ((((h.char hn 0x30#8).char hn 0x2E#8).chars hn (List.replicate (en.natAbs - 1) 0x30#8)).char hn d).chars hn (r.drop 1)
    simpa only [List.append_assoc, List.cons_append, List.nil_append] using h1
  · rw [if_neg he, if_neg he]
    obtain ⟨h1, h2⟩ := fpInt_holds hn en.toNat (r.drop 1) (h.char hn d)
    dsimp only
    rw [h2]
    by_cases hp : (r.drop 1).drop en.toNat ≠ [] ∧ (r.drop 1).drop en.toNat ≠ [0x30#8]
    · rw [if_pos hp, if_pos hp]
      have := (h1.char hn 0x2E#8).chars hn ((r.drop 1).drop en.toNat)
      simpa only [List.append_assoc, List.cons_append, List.nil_append] using this
    · rw [if_neg hp, if_neg hp, List.append_nil]
      simpa only [List.append_assoc, List.cons_append, List.nil_append] using h1

theorem fpUtoa_holds (hn : n ≤ d0.length) (g : Bool) (buf : List Byte) (hs : ∃ d r x, splitE (unsigned buf) = some (d :: r, x)) {fw : Fw}
    (h : fw.Holds d0 n bs []) : (fpUtoa g buf fw).Holds d0 n bs (fpText g buf) := by
  obtain ⟨d, r, x, hs⟩ := hs
  unfold fpUtoa fpText
  unfold unsigned at hs ⊢
  dsimp only
  rw [hs]
  dsimp only
  have hsign : (if (buf.head? == some 0x2D#8) = true then fw.char 0x2D#8 else fw).Holds d0 n bs (signOf buf) := by
    unfold signOf
    split_ifs
    · exact h.char hn _
    · exact h
  obtain ⟨f1, hf1⟩ : ∃ f1, f1 = (if (buf.head? == some 0x2D#8) = true then fw.char 0x2D#8 else fw) := ⟨_, rfl⟩
  rw [← hf1] at hsign ⊢
  have h2 := (fpFixed_holds hn (atoi x) d r hsign).nullterm hn
  have hcount := h2.count
  rw [hcount]
  split_ifs with c1 c2
  · have := ((((h2.restart.chars hn ([0x2D#8] ++ d :: r)).char hn 0x65#8).chars hn x)).nullterm hn
    unfold signOf
    rw [if_pos c2]
    simpa only [List.append_assoc, List.cons_append, List.nil_append] using this
  · have := ((((h2.restart.chars hn ([] ++ d :: r)).char hn 0x65#8).chars hn x)).nullterm hn
    unfold signOf
    rw [if_neg c2]
    simpa only [List.append_assoc, List.cons_append, List.nil_append] using this
  · exact h2

/-- The number text of a coordinate. -/
def numText (fixed : Bool) (d2s : F64 → List Byte) (x : F64) : List Byte :=
  if x.isNormal then fpText (!fixed) (d2s x) else [0x30#8]

theorem Holds.double (hn : n ≤ d0.length) (h : Holds d0 n bs w) (fixed : Bool) {d2s : F64 → List Byte} {x : F64}
    (hs : x.isNormal = true → ∃ d r e, splitE (unsigned (d2s x)) = some (d :: r, e)) :
    Holds d0 n (bs ++ numText fixed d2s x) (w.double fixed d2s x) := by
  unfold Wr.double numText
  by_cases hx : x.isNormal = true
  · simp only [hx, Bool.not_true, Bool.false_eq_true, if_false, if_true]
    have h0 : (⟨w, w.count, if w.count < w.n then w.n - w.count else 0, 0⟩ : Fw).Holds d0 n bs [] := by
      have h1 := h.n_eq
      have h2 := h.count
      refine ⟨?_, h2, ?_⟩
      · show (if w.count < w.n then w.n - w.count else 0) = _
        split_ifs <;> omega
      · rw [List.append_nil]
        exact h
    have h1 := fpUtoa_holds hn (!fixed) (d2s x) (hs hx) h0
    have h2 := h1.holds
    have h3 := h1.base
    unfold Fw.toWr at h2
    rw [h3, ← h.count] at h2
    exact h2
  · simp only [hx, Bool.not_false, if_true, if_false, Bool.false_eq_true]
    exact h.byte hn _

end Tg
