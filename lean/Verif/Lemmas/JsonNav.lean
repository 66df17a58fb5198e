import Verif.Model.JsonNav
import Verif.Spec.Json
import Mathlib.Tactic.SplitIfs
import Mathlib.Tactic.Common
/-! Navigation in valid JSON finds the values of the grammar. -/
set_option linter.unusedSectionVars false
namespace Tg.Json

open Spec.Json

/-- String tokens that end with a quote; `U` are the multi-byte sequences. -/
def QStr (U : List Byte → Prop) (s : List Byte) : Prop := ∃ cs, Chrs U cs ∧ s = 0x22 :: (cs ++ [0x22])

/-- Multi-byte sequences contain no ASCII. -/
def NoAscii (U : List Byte → Prop) : Prop := ∀ l, U l → ∀ b ∈ l, 0x80 ≤ b.toNat

theorem high_ne {b : Byte} (h : 0x80 ≤ b.toNat) : b ≠ 0x22#8 ∧ b ≠ 0x5C#8 := by
  constructor <;> (rintro rfl; revert h; decide)

variable {U : List Byte → Prop} (hU : NoAscii U)

/-! ### Strings -/

/-- Bytes that are neither a quote nor a backslash. -/
def Plain (l : List Byte) : Prop := ∀ b ∈ l, b ≠ 0x22#8 ∧ b ≠ 0x5C#8

theorem countStr_plain {l : List Byte} (h : Plain l) (hne : l ≠ []) (e esc : Bool) (r : List Byte) :
    countStr e esc (l ++ r) = ((countStr false esc r).1 + l.length, (countStr false esc r).2) := by
  induction l generalizing e with
  | nil => exact absurd rfl hne
  | cons b l ih =>
    obtain ⟨h1, h2⟩ := h b (by simp)
    have h1' : (b == 0x22#8) = false := by simpa using h1
    have h2' : (b == 0x5C#8) = false := by simpa using h2
    rw [List.cons_append, countStr, h1', h2']
    simp only [Bool.false_eq_true, if_false]
    by_cases hl : l = []
    · subst hl; simp
    · rw [ih (fun x hx => h x (by simp [hx])) hl]
      simp [Nat.add_assoc]

/-- The backslashes right before a place. -/
def run (rev : List Byte) : Nat := (rev.takeWhile (· == 0x5C#8)).length

theorem run_cons_ne {b : Byte} (h : b ≠ 0x5C#8) (rev : List Byte) : run (b :: rev) = 0 := by
  have : (b == 0x5C#8) = false := by simpa using h
  simp [run, List.takeWhile_cons, this]

theorem run_cons_bs (rev : List Byte) : run (0x5C#8 :: rev) = run rev + 1 := by
  simp [run, List.takeWhile_cons]

theorem countNest_true (k : Nat) (rev : List Byte) (b : Byte) (t : List Byte) : countNest true k rev (b :: t) =
    if b == 0x22#8 && run rev % 2 == 0 then countNest false k (b :: rev) t + 1 else countNest true k (b :: rev) t + 1 := by
  rw [countNest.eq_def]; simp [run]

theorem countNest_plain {l : List Byte} (h : Plain l) (hne : l ≠ []) (k : Nat) (rev r : List Byte) :
    countNest true k rev (l ++ r) = countNest true k (l.reverse ++ rev) r + l.length ∧ run (l.reverse ++ rev) = 0 := by
  induction l generalizing rev with
  | nil => exact absurd rfl hne
  | cons b l ih =>
    obtain ⟨h1, h2⟩ := h b (by simp)
    have h1' : (b == 0x22#8) = false := by simpa using h1
    rw [List.cons_append, countNest_true, h1']
    simp only [Bool.false_and, Bool.false_eq_true, if_false]
    by_cases hl : l = []
    · subst hl; simp [run_cons_ne h2]
    · obtain ⟨i1, i2⟩ := ih (fun x hx => h x (by simp [hx])) hl (b :: rev)
      rw [i1]
      simp only [List.reverse_cons, List.append_assoc, List.singleton_append, List.length_cons]
      exact ⟨by omega, i2⟩

include hU

theorem chr_count {c : List Byte} (h : Chr U c) (esc : Bool) (r : List Byte) :
    ∃ esc', countStr false esc (c ++ r) = ((countStr false esc' r).1 + c.length, (countStr false esc' r).2) := by
  cases h with
  | ascii b h1 h2 h3 h4 => exact ⟨esc, countStr_plain (by intro x hx; simp at hx; subst hx; exact ⟨h3, h4⟩) (by simp) _ _ _⟩
  | multi l hl =>
    by_cases hne : c = []
    · subst hne; exact ⟨esc, by simp⟩
    · exact ⟨esc, countStr_plain (fun b hb => high_ne (hU _ hl b hb)) hne _ _ _⟩
  | esc b hb =>
    refine ⟨true, ?_⟩
    simp only [List.mem_cons, List.not_mem_nil, or_false] at hb
    rcases hb with rfl | rfl | rfl | rfl | rfl | rfl | rfl | rfl <;> simp [countStr]
  | uesc a b c d ha hb hc hd =>
    refine ⟨true, ?_⟩
    have hx : ∀ {x : Byte}, HexDigit x → (x == 0x22#8) = false ∧ (x == 0x5C#8) = false := by
      intro x hx
      constructor <;> (rw [beq_eq_false_iff_ne]; rintro rfl; revert hx; simp [HexDigit])
    simp [countStr, hx ha, hx hb, hx hc, hx hd]

theorem chr_nest {c : List Byte} (h : Chr U c) (k : Nat) (rev r : List Byte) (hr : run rev % 2 = 0) :
    countNest true k rev (c ++ r) = countNest true k (c.reverse ++ rev) r + c.length ∧ run (c.reverse ++ rev) % 2 = 0 := by
  cases h with
  | ascii b h1 h2 h3 h4 =>
    obtain ⟨i1, i2⟩ := countNest_plain (l := [b]) (by intro x hx; simp at hx; subst hx; exact ⟨h3, h4⟩) (by simp) k rev r
    exact ⟨i1, by rw [i2]⟩
  | multi l hl =>
    by_cases hne : c = []
    · subst hne; exact ⟨by simp, hr⟩
    · obtain ⟨i1, i2⟩ := countNest_plain (fun b hb => high_ne (hU _ hl b hb)) hne k rev r
      exact ⟨i1, by rw [i2]⟩
  | esc b hb =>
    have ho : (run rev + 1) % 2 = 1 := by omega
    simp only [List.mem_cons, List.not_mem_nil, or_false] at hb
    have key : countNest true k rev ([0x5C#8, b] ++ r) = countNest true k (b :: 0x5C#8 :: rev) r + 2 := by
      simp only [List.cons_append, List.nil_append]
      rw [countNest_true, countNest_true, run_cons_bs, ho]
      simp
    refine ⟨by simpa using key, ?_⟩
    simp only [List.reverse_cons, List.reverse_nil, List.nil_append, List.cons_append]
    rcases hb with rfl | rfl | rfl | rfl | rfl | rfl | rfl | rfl
    · rw [run_cons_ne (by decide)]
    · have : run (0x5C#8 :: 0x5C#8 :: rev) % 2 = 0 := by rw [run_cons_bs, run_cons_bs]; omega
      exact this
    all_goals rw [run_cons_ne (by decide)]
  | uesc a b c d ha hb hc hd =>
    have hx : ∀ {x : Byte}, HexDigit x → x ≠ 0x22#8 ∧ x ≠ 0x5C#8 := by
      intro x hx
      constructor <;> (rintro rfl; revert hx; simp [HexDigit])
    obtain ⟨i1, i2⟩ := countNest_plain (l := [0x75#8, a, b, c, d]) (by
      intro x hx'; simp at hx'; rcases hx' with rfl | rfl | rfl | rfl | rfl
      · exact ⟨by decide, by decide⟩
      all_goals (exact hx (by assumption))) (by simp) k (0x5C#8 :: rev) r
    have : countNest true k rev ([0x5C#8, 0x75#8, a, b, c, d] ++ r) = countNest true k (0x5C#8 :: rev) ([0x75#8, a, b, c, d] ++ r) + 1 := by
      simp [countNest]
    refine ⟨?_, ?_⟩
    · have h6 : countNest true k rev ([0x5C#8, 0x75#8, a, b, c, d] ++ r) =
          countNest true k ([0x75#8, a, b, c, d].reverse ++ 0x5C#8 :: rev) r + 6 := by rw [this, i1]; rfl
      simpa using h6
    · have : run ([0x75#8, a, b, c, d].reverse ++ 0x5C#8 :: rev) % 2 = 0 := by rw [i2]
      simpa using this

theorem chrs_count {cs : List Byte} (h : Chrs U cs) (esc : Bool) (r : List Byte) : (countStr false esc (cs ++ 0x22#8 :: r)).1 = cs.length + 1 := by
  induction h generalizing esc with
  | nil => simp [countStr]
  | cons c l hc hl ih =>
    obtain ⟨esc', he⟩ := chr_count hU hc esc (l ++ 0x22#8 :: r)
    rw [List.append_assoc, he, ih esc']
    simp; omega

theorem chrs_nest {cs : List Byte} (h : Chrs U cs) (k : Nat) (rev r : List Byte) (hr : run rev % 2 = 0) :
    countNest true k rev (cs ++ r) = countNest true k (cs.reverse ++ rev) r + cs.length ∧ run (cs.reverse ++ rev) % 2 = 0 := by
  induction h generalizing rev with
  | nil => exact ⟨by simp, hr⟩
  | cons c l hc hl ih =>
    obtain ⟨h1, h2⟩ := chr_nest hU hc k rev (l ++ r) hr
    obtain ⟨h3, h4⟩ := ih (c.reverse ++ rev) h2
    rw [List.append_assoc, h1, h3]
    simp only [List.reverse_append, List.append_assoc, List.length_append]
    exact ⟨by omega, h4⟩

omit hU

/-! ### Nesting -/

/-- A text that is passed over as a whole. -/
def Flat (l : List Byte) : Prop := ∀ k rev r, countNest false k rev (l ++ r) = countNest false k (l.reverse ++ rev) r + l.length

theorem Flat.nil : Flat [] := fun k rev r => by simp

theorem Flat.append {a b : List Byte} (ha : Flat a) (hb : Flat b) : Flat (a ++ b) := by
  intro k rev r
  rw [List.append_assoc, ha, hb]
  simp; omega

theorem Flat.byte {b : Byte} (h : b ≠ 0x22#8 ∧ b ≠ 0x5B#8 ∧ b ≠ 0x7B#8 ∧ b ≠ 0x5D#8 ∧ b ≠ 0x7D#8) : Flat [b] := by
  intro k rev r
  simp [countNest, h]

theorem Flat.bytes {l : List Byte} (h : ∀ b ∈ l, b ≠ 0x22#8 ∧ b ≠ 0x5B#8 ∧ b ≠ 0x7B#8 ∧ b ≠ 0x5D#8 ∧ b ≠ 0x7D#8) : Flat l := by
  induction l with
  | nil => exact Flat.nil
  | cons b l ih =>
    have := (Flat.byte (h b (by simp))).append (ih fun x hx => h x (by simp [hx]))
    simpa using this

theorem Flat.nest {l : List Byte} (h : Flat l) {o c : Byte} (ho : o = 0x5B#8 ∨ o = 0x7B#8) (hc : c = 0x5D#8 ∨ c = 0x7D#8) : Flat (o :: (l ++ [c])) := by
  intro k rev r
  have h1 : countNest false k rev ((o :: (l ++ [c])) ++ r) = countNest false (k + 1) (o :: rev) (l ++ c :: r) + 1 := by
    rcases ho with rfl | rfl <;> simp [countNest]
  have h2 : ∀ rev', countNest false (k + 1) rev' (c :: r) = countNest false k (c :: rev') r + 1 := by
    intro rev'
    rcases hc with rfl | rfl <;> simp [countNest]
  rw [h1, h, h2]
  simp; omega

theorem nestLen_eq {l : List Byte} (h : Flat l) {o c : Byte} (hc : c = 0x5D#8 ∨ c = 0x7D#8) (r : List Byte) :
    nestLen ((o :: (l ++ [c])) ++ r) = (o :: (l ++ [c])).length := by
  have h2 : ∀ rev', countNest false 0 rev' (c :: r) = 1 := by
    intro rev'
    rcases hc with rfl | rfl <;> simp [countNest]
  have : (o :: (l ++ [c])) ++ r = o :: (l ++ c :: r) := by simp
  rw [this, nestLen, h, h2]
  simp; omega

theorem ws_flat {l : List Byte} (h : Ws l) : Flat l :=
  Flat.bytes fun b hb => by rcases h b hb with rfl | rfl | rfl | rfl <;> decide

theorem digit_numTok {b : Byte} (h : Digit b) : numTok b = true := by
  obtain ⟨h1, h2⟩ := h
  simp [numTok, BitVec.le_def, h1, h2]

theorem number_toks {l : List Byte} (h : IsNumber l) : ∀ b ∈ l, numTok b = true := by
  obtain ⟨s, i, f, e, rfl, hs, hi, hf, he⟩ := h
  intro b hb
  simp only [List.mem_append] at hb
  rcases hb with hb | hb | hb | hb
  · rcases hs with rfl | rfl
    · simp at hb
    · simp at hb; subst hb; decide
  · rcases hi with rfl | ⟨d, ds, rfl, hd, -, hds⟩
    · simp at hb; subst hb; decide
    · rcases List.mem_cons.1 hb with rfl | hb
      · exact digit_numTok hd
      · exact digit_numTok (hds b hb)
  · rcases hf with rfl | ⟨d, ds, rfl, hd, hds⟩
    · simp at hb
    · rcases List.mem_cons.1 hb with rfl | hb
      · decide
      rcases List.mem_cons.1 hb with rfl | hb
      · exact digit_numTok hd
      · exact digit_numTok (hds b hb)
  · rcases he with rfl | ⟨c, s', d, ds, rfl, hc, hs', hd, hds⟩
    · simp at hb
    · rcases List.mem_cons.1 hb with rfl | hb
      · rcases hc with rfl | rfl <;> decide
      rcases List.mem_append.1 hb with hb | hb
      · rcases hs' with rfl | rfl | rfl
        · simp at hb
        · simp at hb; subst hb; decide
        · simp at hb; subst hb; decide
      rcases List.mem_cons.1 hb with rfl | hb
      · exact digit_numTok hd
      · exact digit_numTok (hds b hb)

theorem numTok_flat {b : Byte} (h : numTok b = true) : b ≠ 0x22#8 ∧ b ≠ 0x5B#8 ∧ b ≠ 0x7B#8 ∧ b ≠ 0x5D#8 ∧ b ≠ 0x7D#8 := by
  refine ⟨?_, ?_, ?_, ?_, ?_⟩ <;> (rintro rfl; revert h; decide)

theorem number_head {l : List Byte} (h : IsNumber l) : ∃ b t, l = b :: t ∧ (b = 0x2D#8 ∨ Digit b) := by
  obtain ⟨s, i, f, e, rfl, hs, hi, hf, he⟩ := h
  rcases hs with rfl | rfl
  · rcases hi with rfl | ⟨d, ds, rfl, hd, -, hds⟩
    · exact ⟨0x30#8, _, rfl, .inr ⟨by decide, by decide⟩⟩
    · exact ⟨d, _, rfl, .inr hd⟩
  · exact ⟨0x2D#8, _, rfl, .inl rfl⟩

include hU

theorem str_flat {s : List Byte} (h : QStr U s) : Flat s := by
  obtain ⟨cs, hcs, rfl⟩ := h
  intro k rev r
  have h1 : countNest false k rev ((0x22 :: (cs ++ [0x22])) ++ r) = countNest true k (0x22#8 :: rev) (cs ++ 0x22#8 :: r) + 1 := by
    simp [countNest]
  obtain ⟨h2, h3⟩ := chrs_nest hU hcs k (0x22#8 :: rev) (0x22#8 :: r) (by rw [run_cons_ne (by decide)])
  have h4 : ∀ rev', run rev' % 2 = 0 → countNest true k rev' (0x22#8 :: r) = countNest false k (0x22#8 :: rev') r + 1 := by
    intro rev' h
    unfold run at h
    simp [countNest, h]
  rw [h1, h2, h4 _ h3]
  simp; omega

theorem lit_flat {l : List Byte} (h : l ∈ ([[0x6E, 0x75, 0x6C, 0x6C], [0x74, 0x72, 0x75, 0x65], [0x66, 0x61, 0x6C, 0x73, 0x65]] : List (List Byte))) : Flat l := by
  simp only [List.mem_cons, List.not_mem_nil, or_false] at h
  rcases h with rfl | rfl | rfl <;> exact Flat.bytes (by decide)

mutual
theorem val_flat : ∀ {r v}, Val (QStr U) r v → Flat v
  | _, _, .null _ => lit_flat hU (by simp)
  | _, _, .true_ _ => lit_flat hU (by simp)
  | _, _, .false_ _ => lit_flat hU (by simp)
  | _, _, .num _ l h => Flat.bytes fun b hb => numTok_flat (number_toks h b hb)
  | _, _, .str _ l h => str_flat hU h
  | _, _, .arr0 _ w h => (ws_flat h).nest (.inl rfl) (.inl rfl)
  | _, _, .arr _ l h => (elems_flat h).nest (.inl rfl) (.inl rfl)
  | _, _, .obj0 _ w h => (ws_flat h).nest (.inr rfl) (.inr rfl)
  | _, _, .obj _ l h => (mems_flat h).nest (.inr rfl) (.inr rfl)
theorem elems_flat : ∀ {r l}, Elems (QStr U) r l → Flat l
  | _, _, .one _ w v w' h1 h2 h3 => (ws_flat h1).append ((val_flat h2).append (ws_flat h3))
  | _, _, .cons _ w v w' l h1 h2 h3 h4 => by
    have := (ws_flat h1).append ((val_flat h2).append ((ws_flat h3).append ((Flat.byte (b := 0x2C#8) (by decide)).append (elems_flat h4))))
    simpa using this
theorem mems_flat : ∀ {r l}, Mems (QStr U) r l → Flat l
  | _, _, .one _ w k w' w'' v w3 h1 h2 h3 h4 h5 h6 => by
    have := (ws_flat h1).append ((str_flat hU h2).append ((ws_flat h3).append ((Flat.byte (b := 0x3A#8) (by decide)).append
      ((ws_flat h4).append ((val_flat h5).append (ws_flat h6))))))
    simpa using this
  | _, _, .cons _ w k w' w'' v w3 l h1 h2 h3 h4 h5 h6 h7 => by
    have := (ws_flat h1).append ((str_flat hU h2).append ((ws_flat h3).append ((Flat.byte (b := 0x3A#8) (by decide)).append
      ((ws_flat h4).append ((val_flat h5).append ((ws_flat h6).append ((Flat.byte (b := 0x2C#8) (by decide)).append (mems_flat h7))))))))
    simpa using this
end

omit hU

/-! ### Finding values -/

/-- No number goes on here. -/
def Stop (r : List Byte) : Prop := ∀ b t, r = b :: t → numTok b = false

/-- `j` is the value `v`, followed by `r`. -/
def Here (j : Option J) (v r : List Byte) : Prop := ∃ i, j = some i ∧ i.raw = v ++ r ∧ rawLen (some i) = v.length ∧ v ≠ []

theorem Here.isSome {j v r} (h : Here j v r) : j.isSome = true := by obtain ⟨i, rfl, -⟩ := h; rfl
theorem Here.raw {j v r} (h : Here j v r) : rawOf j = v := by
  obtain ⟨i, rfl, h1, h2, -⟩ := h
  rw [rawOf, h2, h1]; simp
theorem Here.len {j v r} (h : Here j v r) : rawLen j = v.length := by obtain ⟨i, rfl, -, h, -⟩ := h; exact h
theorem Here.next {j v r} (h : Here j v r) : next j = peekAny r := by
  obtain ⟨i, rfl, h1, h2, h3⟩ := h
  have : i.raw ≠ [] := by rw [h1]; simp [h3]
  rw [Json.next, if_neg this, h2, h1]; simp
theorem Here.ensure {j v r} (h : Here j v r) : Here (ensure j) v r := by
  obtain ⟨i, rfl, h1, h2, h3⟩ := h
  refine ⟨_, rfl, h1, ?_, h3⟩
  have : v.length ≠ 0 := by simp [h3]
  rw [rawLen, h2, if_pos this]
theorem Here.head {j v r b t} (h : Here j v r) (hv : v = b :: t) : head j = b := by
  obtain ⟨i, rfl, h1, -, -⟩ := h
  subst hv
  obtain ⟨raw, len, esc⟩ := i
  simp only at h1
  subst h1
  rfl
theorem Here.first {j v r b t} (h : Here j v r) (hv : v = b :: t) (hb : b = 0x7B#8 ∨ b = 0x5B#8) : first j = peekAny (t ++ r) := by
  obtain ⟨i, rfl, h1, -, -⟩ := h
  subst hv
  obtain ⟨raw, len, esc⟩ := i
  simp only at h1
  subst h1
  rcases hb with rfl | rfl <;> simp [Json.first]

theorem peek_skip {b : Byte} (h : b = 0x20#8 ∨ b = 0x09#8 ∨ b = 0x0A#8 ∨ b = 0x0D#8 ∨ b = 0x2C#8 ∨ b = 0x3A#8) (l : List Byte) : peekAny (b :: l) = peekAny l := by
  rw [peekAny]
  rcases h with rfl | rfl | rfl | rfl | rfl | rfl <;> simp

theorem peek_ws {w : List Byte} (h : Ws w) (l : List Byte) : peekAny (w ++ l) = peekAny l := by
  induction w with
  | nil => rfl
  | cons b w ih =>
    rw [List.cons_append, peek_skip (by rcases h b (by simp) with rfl | rfl | rfl | rfl <;> simp), ih fun x hx => h x (by simp [hx])]

theorem takeWhile_stop {l r : List Byte} (h : ∀ b ∈ l, numTok b = true) (hr : Stop r) : (l ++ r).takeWhile numTok = l := by
  induction l with
  | nil =>
    cases r with
    | nil => rfl
    | cons b t => simp [List.takeWhile_cons, hr b t rfl]
  | cons b l ih =>
    rw [List.cons_append, List.takeWhile_cons, h b (by simp), if_pos rfl, ih fun x hx => h x (by simp [hx])]

include hU

theorem peek_str {s r : List Byte} (h : QStr U s) : Here (peekAny (s ++ r)) s r := by
  obtain ⟨cs, hcs, rfl⟩ := h
  have h1 := chrs_count hU hcs false r
  refine ⟨_, by rw [List.cons_append, peekAny]; simp; rfl, by simp, ?_, by simp⟩
  simp [rawLen, h1]

theorem peek_nest {o c : Byte} {l r : List Byte} (ho : (o = 0x5B#8 ∨ o = 0x7B#8)) (hc : c = 0x5D#8 ∨ c = 0x7D#8) (h : Flat l) :
    Here (peekAny ((o :: (l ++ [c])) ++ r)) (o :: (l ++ [c])) r := by
  refine ⟨⟨(o :: (l ++ [c])) ++ r, 0, false⟩, ?_, rfl, ?_, by simp⟩
  · rcases ho with rfl | rfl <;> simp [peekAny]
  · simp only [rawLen]
    rw [if_neg (by simp), if_pos (by simp), nestLen_eq h hc]

theorem peek_val {n v r} (h : Val (QStr U) n v) (hr : Stop r) : Here (peekAny (v ++ r)) v r := by
  cases h with
  | null => exact ⟨⟨_, 4, false⟩, by simp [peekAny], rfl, by simp [rawLen], by simp⟩
  | true_ => exact ⟨⟨_, 4, false⟩, by simp [peekAny], rfl, by simp [rawLen], by simp⟩
  | false_ => exact ⟨⟨_, 5, false⟩, by simp [peekAny], rfl, by simp [rawLen], by simp⟩
  | num _ _ h =>
    have ht := number_toks h
    obtain ⟨b, t, rfl, hb⟩ := number_head h
    have h1 : (t ++ r).takeWhile numTok = t := takeWhile_stop (fun x hx => ht x (by simp [hx])) hr
    have hb' : (b == 0x2D#8 || (0x30#8 ≤ b && b ≤ 0x39#8)) = true := by
      rcases hb with rfl | ⟨h1, h2⟩
      · decide
      · simp [BitVec.le_def, h1, h2]
    have hne : ∀ c ∈ ([0x7D#8, 0x5D#8, 0x7B#8, 0x5B#8, 0x22#8, 0x6E#8, 0x74#8, 0x66#8] : List Byte), (b == c) = false := by
      intro c hc
      rw [beq_eq_false_iff_ne]
      rintro rfl
      have := ht b (by simp)
      simp only [List.mem_cons, List.not_mem_nil, or_false] at hc
      rcases hc with rfl | rfl | rfl | rfl | rfl | rfl | rfl | rfl <;> exact absurd this (by decide)
    refine ⟨⟨(b :: t) ++ r, t.length + 1, false⟩, ?_, rfl, by simp [rawLen], by simp⟩
    rw [List.cons_append, peekAny, hne 0x7D#8 (by simp), hne 0x5D#8 (by simp), hne 0x7B#8 (by simp), hne 0x5B#8 (by simp), hne 0x22#8 (by simp),
      hne 0x6E#8 (by simp), hne 0x74#8 (by simp), hne 0x66#8 (by simp), hb', h1]
    simp
  | str _ _ h => exact peek_str hU h
  | arr0 _ w h => exact peek_nest hU (.inl rfl) (.inl rfl) (ws_flat h)
  | arr _ l h => exact peek_nest hU (.inl rfl) (.inl rfl) (elems_flat hU h)
  | obj0 _ w h => exact peek_nest hU (.inr rfl) (.inr rfl) (ws_flat h)
  | obj _ l h => exact peek_nest hU (.inr rfl) (.inr rfl) (mems_flat hU h)

omit hU

theorem stop_ws {w r : List Byte} (h : Ws w) (hr : Stop r) : Stop (w ++ r) := by
  cases w with
  | nil => exact hr
  | cons b w =>
    intro c t he
    simp only [List.cons_append, List.cons.injEq] at he
    rw [← he.1]
    rcases h b (by simp) with rfl | rfl | rfl | rfl <;> decide

theorem stop_byte {b : Byte} (h : numTok b = false) (r : List Byte) : Stop (b :: r) := by
  intro c t he
  rw [List.cons.injEq] at he
  rw [← he.1]; exact h

theorem stop_nil : Stop [] := fun _ _ h => by simp at h

/-! ### Objects -/

include hU

/-- The pairs of an object. -/
theorem mems_pairs : ∀ {n l}, Mems (QStr U) n l → ∀ (r : List Byte) (f : Nat), l.length ≤ f →
    ∃ kvs : List (List Byte × List Byte), (pairsLoop f (peekAny (l ++ 0x7D#8 :: r))).map (fun p => (rawOf p.1, rawOf p.2)) = kvs ∧ kvs ≠ [] ∧
      ∀ p ∈ kvs, QStr U p.1 ∧ Val (QStr U) n p.2
  | n, _, .one _ w k w' w'' v w3 h1 h2 h3 h4 h5 h6, r, f, hf => by
    have hk : Here (peekAny ((w ++ (k ++ (w' ++ 0x3A :: (w'' ++ (v ++ w3))))) ++ 0x7D#8 :: r)) k (w' ++ 0x3A :: (w'' ++ (v ++ (w3 ++ 0x7D#8 :: r)))) := by
      have := peek_str hU (r := w' ++ 0x3A :: (w'' ++ (v ++ (w3 ++ 0x7D#8 :: r)))) h2
      rw [← peek_ws h1] at this
      simpa using this
    have hv : Here (next (peekAny ((w ++ (k ++ (w' ++ 0x3A :: (w'' ++ (v ++ w3))))) ++ 0x7D#8 :: r))) v (w3 ++ 0x7D#8 :: r) := by
      rw [hk.next, peek_ws h3, peek_skip (by simp), peek_ws h4]
      exact peek_val hU h5 (stop_ws h6 (stop_byte (by decide) _))
    have hn : next (next (peekAny ((w ++ (k ++ (w' ++ 0x3A :: (w'' ++ (v ++ w3))))) ++ 0x7D#8 :: r))) = none := by
      rw [hv.next, peek_ws h6]; simp [peekAny]
    obtain ⟨f, rfl⟩ : ∃ f', f = f' + 1 := ⟨f - 1, by simp at hf; omega⟩
    obtain ⟨i, hi, -⟩ := id hk
    rw [hi] at hk hv hn ⊢
    rw [pairsLoop, hn]
    refine ⟨[(k, v)], ?_, by simp, by simpa using ⟨h2, h5⟩⟩
    cases f <;> simp [pairsLoop, hk.raw, hv.raw]
  | n, _, .cons _ w k w' w'' v w3 l h1 h2 h3 h4 h5 h6 h7, r, f, hf => by
    have hk : Here (peekAny ((w ++ (k ++ (w' ++ 0x3A :: (w'' ++ (v ++ (w3 ++ 0x2C :: l)))))) ++ 0x7D#8 :: r)) k
        (w' ++ 0x3A :: (w'' ++ (v ++ (w3 ++ 0x2C#8 :: (l ++ 0x7D#8 :: r))))) := by
      have := peek_str hU (r := w' ++ 0x3A :: (w'' ++ (v ++ (w3 ++ 0x2C#8 :: (l ++ 0x7D#8 :: r))))) h2
      rw [← peek_ws h1] at this
      simpa using this
    have hv : Here (next (peekAny ((w ++ (k ++ (w' ++ 0x3A :: (w'' ++ (v ++ (w3 ++ 0x2C :: l)))))) ++ 0x7D#8 :: r))) v (w3 ++ 0x2C#8 :: (l ++ 0x7D#8 :: r)) := by
      rw [hk.next, peek_ws h3, peek_skip (by simp), peek_ws h4]
      exact peek_val hU h5 (stop_ws h6 (stop_byte (by decide) _))
    have hn : next (next (peekAny ((w ++ (k ++ (w' ++ 0x3A :: (w'' ++ (v ++ (w3 ++ 0x2C :: l)))))) ++ 0x7D#8 :: r))) = peekAny (l ++ 0x7D#8 :: r) := by
      rw [hv.next, peek_ws h6, peek_skip (by simp)]
    obtain ⟨f, rfl⟩ : ∃ f', f = f' + 1 := ⟨f - 1, by simp at hf; omega⟩
    obtain ⟨i, hi, -⟩ := id hk
    rw [hi] at hk hv hn ⊢
    rw [pairsLoop, hn]
    obtain ⟨kvs, e1, e2, e3⟩ := mems_pairs h7 r f (by simp at hf; omega)
    refine ⟨(k, v) :: kvs, ?_, by simp, ?_⟩
    · rw [List.map_cons, e1, hk.raw, hv.raw]
    · intro p hp
      rcases List.mem_cons.1 hp with rfl | hp
      · exact ⟨h2, h5⟩
      · exact e3 p hp

/-- Looking up a member gives nothing or a value. -/
theorem mems_get (key : List Byte) : ∀ {n l}, Mems (QStr U) n l → ∀ (r : List Byte) (f : Nat),
    objGetLoop f key (peekAny (l ++ 0x7D#8 :: r)) = none ∨ ∃ v r', Val (QStr U) n v ∧ Here (objGetLoop f key (peekAny (l ++ 0x7D#8 :: r))) v r'
  | n, _, .one _ w k w' w'' v w3 h1 h2 h3 h4 h5 h6, r, f => by
    have hk : Here (peekAny ((w ++ (k ++ (w' ++ 0x3A :: (w'' ++ (v ++ w3))))) ++ 0x7D#8 :: r)) k (w' ++ 0x3A :: (w'' ++ (v ++ (w3 ++ 0x7D#8 :: r)))) := by
      have := peek_str hU (r := w' ++ 0x3A :: (w'' ++ (v ++ (w3 ++ 0x7D#8 :: r)))) h2
      rw [← peek_ws h1] at this
      simpa using this
    have hv : Here (next (peekAny ((w ++ (k ++ (w' ++ 0x3A :: (w'' ++ (v ++ w3))))) ++ 0x7D#8 :: r))) v (w3 ++ 0x7D#8 :: r) := by
      rw [hk.next, peek_ws h3, peek_skip (by simp), peek_ws h4]
      exact peek_val hU h5 (stop_ws h6 (stop_byte (by decide) _))
    have hn : next (next (peekAny ((w ++ (k ++ (w' ++ 0x3A :: (w'' ++ (v ++ w3))))) ++ 0x7D#8 :: r))) = none := by
      rw [hv.next, peek_ws h6]; simp [peekAny]
    cases f with
    | zero => exact .inl rfl
    | succ f =>
      obtain ⟨i, hi, -⟩ := id hk
      rw [hi] at hk hv hn ⊢
      rw [objGetLoop]
      split
      · exact .inr ⟨v, _, h5, hv⟩
      · rw [hn]; left; cases f <;> rfl
  | n, _, .cons _ w k w' w'' v w3 l h1 h2 h3 h4 h5 h6 h7, r, f => by
    have hk : Here (peekAny ((w ++ (k ++ (w' ++ 0x3A :: (w'' ++ (v ++ (w3 ++ 0x2C :: l)))))) ++ 0x7D#8 :: r)) k
        (w' ++ 0x3A :: (w'' ++ (v ++ (w3 ++ 0x2C#8 :: (l ++ 0x7D#8 :: r))))) := by
      have := peek_str hU (r := w' ++ 0x3A :: (w'' ++ (v ++ (w3 ++ 0x2C#8 :: (l ++ 0x7D#8 :: r))))) h2
      rw [← peek_ws h1] at this
      simpa using this
    have hv : Here (next (peekAny ((w ++ (k ++ (w' ++ 0x3A :: (w'' ++ (v ++ (w3 ++ 0x2C :: l)))))) ++ 0x7D#8 :: r))) v (w3 ++ 0x2C#8 :: (l ++ 0x7D#8 :: r)) := by
      rw [hk.next, peek_ws h3, peek_skip (by simp), peek_ws h4]
      exact peek_val hU h5 (stop_ws h6 (stop_byte (by decide) _))
    have hn : next (next (peekAny ((w ++ (k ++ (w' ++ 0x3A :: (w'' ++ (v ++ (w3 ++ 0x2C :: l)))))) ++ 0x7D#8 :: r))) = peekAny (l ++ 0x7D#8 :: r) := by
      rw [hv.next, peek_ws h6, peek_skip (by simp)]
    cases f with
    | zero => exact .inl rfl
    | succ f =>
      obtain ⟨i, hi, -⟩ := id hk
      rw [hi] at hk hv hn ⊢
      rw [objGetLoop]
      split
      · exact .inr ⟨v, _, h5, hv⟩
      · rw [hn]; exact mems_get key h7 r f

end Tg.Json

/-! ### The loops come to an end by themselves -/
namespace Tg.Json

/-- The bytes that are left. -/
def left : Option J → Nat
  | none => 0
  | some j => j.raw.length

theorem peek_left (l : List Byte) : left (peekAny l) ≤ l.length ∧ ∀ j, peekAny l = some j → j.raw ≠ [] := by
  induction l with
  | nil => exact ⟨by simp [peekAny, left], by simp [peekAny]⟩
  | cons b t ih =>
    rw [peekAny]
    have hs : ∀ j : J, j.raw = b :: t → left (some j) ≤ (b :: t).length ∧ ∀ i, some j = some i → i.raw ≠ [] := by
      intro j hj
      refine ⟨by simp [left, hj], ?_⟩
      rintro i ⟨⟩
      simp [hj]
    have hn : left none ≤ (b :: t).length ∧ ∀ i, (none : Option J) = some i → i.raw ≠ [] := ⟨by simp [left], by simp⟩
    have hr : left (peekAny t) ≤ (b :: t).length ∧ ∀ i, peekAny t = some i → i.raw ≠ [] := ⟨by have := ih.1; rw [List.length_cons]; omega, ih.2⟩
    split_ifs <;> first | exact hn | exact ⟨hn.1, fun _ h => h.elim⟩ | exact hr | (refine hs _ ?_; rfl)

theorem next_left {j : J} (h : j.raw ≠ []) : left (next (some j)) < left (some j) ∧ ∀ i, next (some j) = some i → i.raw ≠ [] := by
  have hl : 0 < rawLen (some j) := by
    simp only [rawLen]
    split_ifs with h1
    · omega
    · cases hr : j.raw with
      | nil => exact absurd hr h
      | cons b t => simp [nestLen]
  have h1 := peek_left (j.raw.drop (rawLen (some j)))
  have h2 : 0 < j.raw.length := List.length_pos_iff.2 h
  simp only [next, h, if_false, left]
  refine ⟨?_, h1.2⟩
  have := h1.1
  rw [List.length_drop] at this
  unfold left at this
  omega

theorem next2_left {j : J} (h : j.raw ≠ []) : left (next (next (some j))) < left (some j) ∧ ∀ i, next (next (some j)) = some i → i.raw ≠ [] := by
  obtain ⟨h1, h2⟩ := next_left h
  cases hn : next (some j) with
  | none =>
    have : 0 < left (some j) := List.length_pos_iff.2 h
    exact ⟨by simpa [next, left] using this, by simp [next]⟩
  | some i =>
    obtain ⟨h3, h4⟩ := next_left (h2 i hn)
    rw [hn] at h1
    exact ⟨by omega, h4⟩

theorem pairsLoop_fuel (f : Nat) : ∀ (f' : Nat) (j : Option J), (∀ i, j = some i → i.raw ≠ []) → left j < f → left j < f' → pairsLoop f j = pairsLoop f' j := by
  induction f with
  | zero => intro f' j _ h; omega
  | succ f ih =>
    intro f' j hj h h'
    obtain ⟨f', rfl⟩ : ∃ k, f' = k + 1 := ⟨f' - 1, by omega⟩
    cases j with
    | none => rfl
    | some j =>
      obtain ⟨h1, h2⟩ := next2_left (hj j rfl)
      rw [pairsLoop, pairsLoop, ih f' _ h2 (by omega) (by omega)]

theorem objGetLoop_fuel (key : List Byte) (f : Nat) : ∀ (f' : Nat) (j : Option J), (∀ i, j = some i → i.raw ≠ []) → left j < f → left j < f' →
    objGetLoop f key j = objGetLoop f' key j := by
  induction f with
  | zero => intro f' j _ h; omega
  | succ f ih =>
    intro f' j hj h h'
    obtain ⟨f', rfl⟩ : ∃ k, f' = k + 1 := ⟨f' - 1, by omega⟩
    cases j with
    | none => rfl
    | some j =>
      obtain ⟨h1, h2⟩ := next2_left (hj j rfl)
      rw [objGetLoop, objGetLoop, ih f' _ h2 (by omega) (by omega)]

theorem first_left (j : Option J) : left (first j) ≤ left j ∧ ∀ i, first j = some i → i.raw ≠ [] := by
  cases j with
  | none => exact ⟨by simp [first, left], by simp [first]⟩
  | some j =>
    obtain ⟨raw, len, esc⟩ := j
    cases raw with
    | nil => exact ⟨by simp [first, left], by simp [first]⟩
    | cons b t =>
      have := peek_left t
      rw [first]
      split_ifs
      · exact ⟨by simp only [left, List.length_cons] at *; omega, this.2⟩
      · exact ⟨by simp [left], by simp⟩

/-- The bound on the turns of the loop over the pairs does not matter. -/
theorem pairs_fuel (j : Option J) (f : Nat) (h : left j < f) : pairsLoop f (first j) = pairs j := by
  have := first_left j
  unfold pairs
  exact pairsLoop_fuel f _ _ this.2 (by omega) (by cases j <;> exact Nat.lt_succ_of_le this.1)

/-- The bound on the turns of the look-up does not matter. -/
theorem objGet_fuel (j : Option J) (key : List Byte) (f : Nat) (h : left j < f) (ho : isObj j = true) : objGetLoop f key (first j) = objGet j key := by
  have := first_left j
  unfold objGet
  rw [if_pos ho]
  exact objGetLoop_fuel key f _ _ this.2 (by omega) (by cases j <;> exact Nat.lt_succ_of_le this.1)

end Tg.Json
