import Verif.Model.JsonValid
import Verif.Spec.Json
import Mathlib.Tactic.IntervalCases
/-!
The JSON validator accepts exactly the grammar (with tg's strings), and never leaves its input.
-/
namespace Tg.Json
open Spec.Json

/-! ### bytes -/

theorem isWs_iff (b : Byte) : isWs b = true ↔ b = 0x20 ∨ b = 0x09 ∨ b = 0x0A ∨ b = 0x0D := by
  simp [isWs, or_assoc]

theorem isDigit_iff (b : Byte) : isDigit b = true ↔ Digit b := by
  simp [isDigit, Digit, BitVec.le_def]

theorem isHex_iff (b : Byte) : isHex b = true ↔ HexDigit b := by
  simp [isHex, HexDigit, BitVec.le_def, or_assoc]

theorem ws_nil : Ws [] := by simp [Ws]
theorem ws_cons {b : Byte} {l} (hb : isWs b = true) (h : Ws l) : Ws (b :: l) := by
  intro c hc
  rcases List.mem_cons.1 hc with rfl | hc
  · exact (isWs_iff _).1 hb
  · exact h c hc
theorem ws_cons_iff {b : Byte} {l} : Ws (b :: l) ↔ isWs b = true ∧ Ws l := by
  constructor
  · intro h
    exact ⟨(isWs_iff b).2 (h b (by simp)), fun c hc => h c (List.mem_cons_of_mem _ hc)⟩
  · rintro ⟨a, b⟩; exact ws_cons a b

/-- What may follow a value in an accepted text: nothing, white space, or punctuation. -/
def Follow : List Byte → Prop
  | [] => True
  | b :: _ => isWs b = true ∨ b = 0x3A ∨ b = 0x2C ∨ b = 0x5D ∨ b = 0x7D

theorem follow_ws {w l} (hw : Ws w) (hl : Follow l) : Follow (w ++ l) := by
  cases w with
  | nil => exact hl
  | cons b w => exact .inl (ws_cons_iff.1 hw).1

/-! ### progress: never outside the input -/

/-- Started at `l`: no undefined behaviour, and the cursor only moves forward; at least one byte is consumed on
success. -/
def Adv (l : List Byte) : V → Prop
  | .ub => False
  | .neg k => k <:+ l
  | .pos k => k <:+ l ∧ k.length < l.length

/-- As `Adv`, but success may consume nothing. -/
def Adv0 (l : List Byte) : V → Prop
  | .ub => False
  | .neg k => k <:+ l
  | .pos k => k <:+ l

theorem Adv.to0 {l r} (h : Adv l r) : Adv0 l r := by
  cases r <;> first | exact h | exact h.1

theorem Adv.cons {l r} (b : Byte) (h : Adv l r) : Adv (b :: l) r := by
  cases r with
  | ub => exact h
  | neg k => exact h.trans (List.suffix_cons _ _)
  | pos k => exact ⟨h.1.trans (List.suffix_cons _ _), by have := h.2; simp; omega⟩

theorem Adv0.cons {l r} (b : Byte) (h : Adv0 l r) : Adv (b :: l) r := by
  cases r with
  | ub => exact h
  | neg k => exact h.trans (List.suffix_cons _ _)
  | pos k => exact ⟨h.trans (List.suffix_cons _ _), by have := h.length_le; simp; omega⟩

theorem Adv.of_suffix {l l' r} (h : Adv l' r) (hs : l' <:+ l) : Adv l r := by
  cases r with
  | ub => exact h
  | neg k => exact h.trans hs
  | pos k => exact ⟨h.1.trans hs, by have := h.2; have := hs.length_le; omega⟩

theorem Adv0.of_suffix_lt {l l' r} (h : Adv0 l' r) (hs : l' <:+ l) (hl : l'.length < l.length) : Adv l r := by
  cases r with
  | ub => exact h
  | neg k => exact h.trans hs
  | pos k => exact ⟨h.trans hs, by have := h.length_le; omega⟩

theorem Adv0.of_suffix {l l' r} (h : Adv0 l' r) (hs : l' <:+ l) : Adv0 l r := by
  cases r with
  | ub => exact h
  | neg k => exact h.trans hs
  | pos k => exact h.trans hs

theorem vutf8_adv (b : Byte) (t) : ∃ r, vutf8 (b :: t) = some r ∧ ∀ k, r = some k → 2 ≤ k ∧ k ≤ (b :: t).length := by
  have fin : ∀ cp n, n ≤ (b :: t).length → 2 ≤ n → ∃ r, (if cp < 128 then some none
      else if cp ≥ 0x10FFFF then some none
      else if cp ≥ 0xD800 && cp ≤ 0xDFFF then some none
      else some (some n) : Option (Option Nat)) = some r ∧ ∀ k, r = some k → 2 ≤ k ∧ k ≤ (b :: t).length := by
    intro cp n h1 h2
    split
    · exact ⟨none, rfl, by simp⟩
    · split
      · exact ⟨none, rfl, by simp⟩
      · split
        · exact ⟨none, rfl, by simp⟩
        · exact ⟨some n, rfl, by rintro k ⟨⟩; exact ⟨h2, h1⟩⟩
  unfold vutf8
  dsimp only
  split
  · split
    · exact ⟨none, rfl, by simp⟩
    · rename_i hl
      rcases t with _ | ⟨b1, _ | ⟨b2, t⟩⟩
      · exact absurd (by simp) hl
      · exact absurd (by simp) hl
      · dsimp only
        split
        · exact ⟨none, rfl, by simp⟩
        · exact fin _ _ (by omega) (by omega)
  · split
    · split
      · exact ⟨none, rfl, by simp⟩
      · rename_i hl
        rcases t with _ | ⟨b1, _ | ⟨b2, _ | ⟨b3, t⟩⟩⟩
        · exact absurd (by simp) hl
        · exact absurd (by simp) hl
        · exact absurd (by simp) hl
        · dsimp only
          split
          · exact ⟨none, rfl, by simp⟩
          · exact fin _ _ (by omega) (by omega)
    · split
      · split
        · exact ⟨none, rfl, by simp⟩
        · rename_i hl
          rcases t with _ | ⟨b1, t⟩
          · exact absurd (by simp) hl
          · dsimp only
            split
            · exact ⟨none, rfl, by simp⟩
            · exact fin _ _ (by omega) (by omega)
      · exact ⟨none, rfl, by simp⟩

theorem vescHex_adv (j l) : Adv0 l (vescHex j l) := by
  induction j generalizing l with
  | zero => cases l <;> exact List.suffix_refl _
  | succ j ih =>
    cases l with
    | nil => exact List.suffix_refl _
    | cons b t =>
      rw [vescHex]
      split
      · exact (ih t).of_suffix (List.suffix_cons _ _)
      · exact List.suffix_refl _

theorem vesc_adv (b : Byte) (t) : Adv (b :: t) (vesc (b :: t)) ∧ ∀ k, vesc (b :: t) = .neg k → k.length < (b :: t).length := by
  unfold vesc
  cases t with
  | nil => exact ⟨by simp [Adv], by rintro k ⟨⟩; simp⟩
  | cons c t =>
    dsimp only
    split
    · refine ⟨⟨?_, by simp; omega⟩, by rintro k ⟨⟩⟩
      exact (List.suffix_cons _ _).trans (List.suffix_cons _ _)
    · split
      · have := vescHex_adv 4 t
        refine ⟨(this.of_suffix (List.suffix_cons _ _)).cons _, ?_⟩
        intro k hk
        rw [hk] at this
        have := this.length_le
        simp; omega
      · exact ⟨List.suffix_cons _ _, by rintro k ⟨⟩; simp⟩

theorem vstringN_adv (n l) (h : l.length < n) : Adv l (vstringN n l) := by
  induction n generalizing l with
  | zero => omega
  | succ n ih =>
    cases l with
    | nil => exact List.suffix_refl _
    | cons b t =>
      rw [vstringN]
      simp only [List.length_cons] at h
      split
      · exact (ih t (by omega)).cons b
      · split
        · exact ⟨List.suffix_cons _ _, by simp⟩
        · split
          · obtain ⟨r, hr, hk⟩ := vutf8_adv b t
            rw [hr]
            cases r with
            | none => exact List.suffix_refl _
            | some k =>
              have := hk k rfl
              dsimp only
              exact (ih _ (by simp; omega)).of_suffix (List.drop_suffix _ _)
          · split
            · have hv := vesc_adv b t
              cases hr : vesc (b :: t) with
              | ub => rw [hr] at hv; exact hv.1
              | neg k =>
                rw [hr] at hv
                exact ⟨hv.1, hv.2 k rfl⟩
              | pos k =>
                rw [hr] at hv
                have h1 := hv.1
                dsimp only
                exact (ih _ (by have := h1.2; simp at this; omega)).of_suffix h1.1
            · exact List.suffix_refl _

theorem vstring_adv (l) : Adv l (vstring l) := vstringN_adv _ _ (Nat.lt_succ_self _)

theorem skipDigits_suffix (l) : skipDigits l <:+ l := by
  induction l with
  | nil => exact List.suffix_refl _
  | cons b t ih =>
    rw [skipDigits]
    split
    · exact ih.trans (List.suffix_cons _ _)
    · exact List.suffix_refl _

theorem vexp_adv (l) : Adv0 l (vexp l) := by
  unfold vexp
  split
  · exact List.suffix_refl _
  · rename_i b t
    split
    · split
      · exact List.nil_suffix
      · rename_i s t'
        dsimp only
        have hs : (if (s == 43 || s == 45) = true then t' else s :: t') <:+ b :: s :: t' := by
          split
          · exact (List.suffix_cons _ _).trans (List.suffix_cons _ _)
          · exact List.suffix_cons _ _
        split
        · exact List.nil_suffix
        · rename_i d t2 h
          rw [h] at hs
          split
          · exact ((skipDigits_suffix _).trans (List.suffix_cons _ _)).trans hs
          · exact hs
    · exact List.suffix_refl _

theorem vfrac_adv (l) : Adv0 l (vfrac l) := by
  unfold vfrac
  split
  · exact List.suffix_refl _
  · rename_i b t
    split
    · split
      · exact List.nil_suffix
      · rename_i d t2
        split
        · exact (vexp_adv _).of_suffix (((skipDigits_suffix _).trans (List.suffix_cons _ _)).trans (List.suffix_cons _ _))
        · exact List.suffix_cons _ _
    · exact vexp_adv _

theorem vint_adv (b : Byte) (t) (h : isDigit b = true) : Adv (b :: t) (vint (b :: t)) := by
  unfold vint
  dsimp only
  split
  · exact (vfrac_adv t).cons b
  · rw [skipDigits, if_pos h]
    exact ((vfrac_adv _).of_suffix (skipDigits_suffix _)).cons b

theorem vnumber_adv (b : Byte) (t) (h : (b == 0x2D || isDigit b) = true) : Adv (b :: t) (vnumber (b :: t)) := by
  unfold vnumber
  dsimp only
  split
  · cases t with
    | nil => exact List.nil_suffix
    | cons d t =>
      dsimp only
      split
      · rename_i hd
        exact (vint_adv d t hd).cons b
      · exact List.suffix_cons _ _
  · rename_i hb
    refine vint_adv b t ?_
    simp only [Bool.or_eq_true] at h
    exact h.resolve_left hb

theorem vlit_adv (w l) (hw : w ≠ []) : Adv l (vlit w l) := by
  unfold vlit
  split
  · rename_i h
    have hl := (List.isPrefixOf_iff_prefix.1 h).length_le
    have : 0 < w.length := List.length_pos_iff.2 hw
    exact ⟨List.drop_suffix _ _, by simp; omega⟩
  · exact List.suffix_refl _

theorem vcolon_adv (l) : Adv l (vcolon l) := by
  induction l with
  | nil => exact List.suffix_refl _
  | cons b t ih =>
    rw [vcolon]
    split
    · exact ⟨List.suffix_cons _ _, by simp⟩
    · split
      · exact ih.cons b
      · exact List.suffix_refl _

theorem vcomma_adv (e l) : Adv0 l (vcomma e l) ∧ vcomma e l ≠ .pos [] := by
  induction l with
  | nil => exact ⟨List.suffix_refl _, by simp [vcomma]⟩
  | cons b t ih =>
    rw [vcomma]
    split
    · exact ⟨List.suffix_refl _, by simp⟩
    · split
      · exact ⟨ih.1.of_suffix (List.suffix_cons _ _), ih.2⟩
      · split
        · exact ⟨List.suffix_refl _, by simp⟩
        · exact ⟨List.suffix_refl _, by simp⟩

theorem arrLoop_adv {child : List Byte → V} (hc : ∀ l, Adv l (child l)) (n l) (h : l.length < n) :
    Adv l (arrLoop child n l) := by
  induction n generalizing l with
  | zero => omega
  | succ n ih =>
    cases l with
    | nil => exact List.suffix_refl _
    | cons b t =>
      rw [arrLoop]
      have h1 := hc (b :: t)
      cases hr : child (b :: t) with
      | ub => rw [hr] at h1; exact h1
      | neg k => rw [hr] at h1; exact h1
      | pos k =>
        rw [hr] at h1
        dsimp only
        obtain ⟨h2, h3⟩ := vcomma_adv 0x5D k
        cases hr2 : vcomma 0x5D k with
        | ub => rw [hr2] at h2; exact h2
        | neg k => rw [hr2] at h2; exact h2.trans h1.1
        | pos k' =>
          rw [hr2] at h2 h3
          cases k' with
          | nil => exact absurd rfl h3
          | cons c t' =>
            dsimp only
            have h4 : t' <:+ b :: t := ((List.suffix_cons _ _).trans h2).trans h1.1
            have h5 : t'.length < (b :: t).length := by
              have := h2.length_le; have := h1.2; simp at *; omega
            split
            · exact ⟨h4, h5⟩
            · exact (ih t' (by omega)).of_suffix h4

theorem varray_adv {child : List Byte → V} (hc : ∀ l, Adv l (child l)) (l) : Adv l (varray child l) := by
  induction l with
  | nil => exact List.suffix_refl _
  | cons b t ih =>
    rw [varray]
    split
    · exact ih.cons b
    · split
      · exact ⟨List.suffix_cons _ _, by simp⟩
      · exact arrLoop_adv hc _ _ (by simp)

theorem vkey_adv (l) : Adv l (vkey l) := by
  induction l with
  | nil => exact List.suffix_refl _
  | cons b t ih =>
    rw [vkey]
    split
    · exact ih.cons b
    · split
      · exact ⟨List.suffix_cons _ _, by simp⟩
      · exact vstring_adv _

theorem nextKey_adv (l) : Adv l (nextKey l) := by
  induction l with
  | nil => exact List.suffix_refl _
  | cons b t ih =>
    rw [nextKey]
    split
    · exact ih.cons b
    · split
      · exact ⟨List.suffix_cons _ _, by simp⟩
      · exact List.suffix_refl _

theorem objLoop_adv {child : List Byte → V} (hc : ∀ l, Adv l (child l)) (n l) (h : l.length < n) :
    Adv l (objLoop child n l) := by
  induction n generalizing l with
  | zero => omega
  | succ n ih =>
    rw [objLoop]
    have h1 := vkey_adv l
    cases hr1 : vkey l with
    | ub => rw [hr1] at h1; exact h1
    | neg k => rw [hr1] at h1; exact h1
    | pos k1 =>
      rw [hr1] at h1
      dsimp only
      have h2 := vcolon_adv k1
      cases hr2 : vcolon k1 with
      | ub => rw [hr2] at h2; exact h2
      | neg k => rw [hr2] at h2; exact h2.trans h1.1
      | pos k2 =>
        rw [hr2] at h2
        dsimp only
        have h3 := hc k2
        cases hr3 : child k2 with
        | ub => rw [hr3] at h3; exact h3
        | neg k => rw [hr3] at h3; exact (h3.trans h2.1).trans h1.1
        | pos k3 =>
          rw [hr3] at h3
          dsimp only
          obtain ⟨h4, h4'⟩ := vcomma_adv 0x7D k3
          have hs3 : k3 <:+ l := (h3.1.trans h2.1).trans h1.1
          cases hr4 : vcomma 0x7D k3 with
          | ub => rw [hr4] at h4; exact h4
          | neg k => rw [hr4] at h4; exact h4.trans hs3
          | pos k4 =>
            rw [hr4] at h4 h4'
            cases k4 with
            | nil => exact absurd rfl h4'
            | cons c t =>
              dsimp only
              have hs4 : t <:+ l := ((List.suffix_cons _ _).trans h4).trans hs3
              have hl4 : t.length < l.length := by
                have := h4.length_le; have := h3.2; have := h2.2; have := h1.2; simp at *; omega
              split
              · exact ⟨hs4, hl4⟩
              · have h5 := nextKey_adv t
                cases hr5 : nextKey t with
                | ub => rw [hr5] at h5; exact h5
                | neg k => rw [hr5] at h5; exact h5.trans hs4
                | pos k5 =>
                  rw [hr5] at h5
                  dsimp only
                  exact (ih k5 (by have := h5.2; omega)).of_suffix (h5.1.trans hs4)

theorem vobject_adv {child : List Byte → V} (hc : ∀ l, Adv l (child l)) (l) : Adv l (vobject child l) := by
  induction l with
  | nil => exact List.suffix_refl _
  | cons b t ih =>
    rw [vobject]
    split
    · exact (objLoop_adv hc _ _ (by simp)).cons b
    · split
      · exact ih.cons b
      · split
        · exact ⟨List.suffix_cons _ _, by simp⟩
        · exact List.suffix_refl _

theorem vanyBody_adv {child : List Byte → V} (hc : ∀ l, Adv l (child l)) (l) : Adv l (vanyBody child l) := by
  induction l with
  | nil => exact List.suffix_refl _
  | cons b t ih =>
    rw [vanyBody]
    split
    · exact ih.cons b
    · split
      · exact (vobject_adv hc t).cons b
      · split
        · exact (varray_adv hc t).cons b
        · split
          · exact (vstring_adv t).cons b
          · split
            · exact (vlit_adv _ t (by simp)).cons b
            · split
              · exact (vlit_adv _ t (by simp)).cons b
              · split
                · exact (vlit_adv _ t (by simp)).cons b
                · split
                  · rename_i h
                    exact vnumber_adv b t h
                  · exact List.suffix_refl _

theorem vany_adv (r l) : Adv l (vany r l) := by
  induction r generalizing l with
  | zero => exact List.suffix_refl _
  | succ r ih => exact vanyBody_adv ih l

theorem vtail_adv (l) : Adv0 l (vtail l) := by
  induction l with
  | nil => exact List.suffix_refl _
  | cons b t ih =>
    rw [vtail]
    split
    · exact ih.of_suffix (List.suffix_cons _ _)
    · exact List.suffix_refl _

theorem vpayload_adv (l) : Adv l (vpayload l) := by
  induction l with
  | nil => exact List.suffix_refl _
  | cons b t ih =>
    rw [vpayload]
    split
    · exact ih.cons b
    · have h1 := vany_adv 1024 (b :: t)
      cases hr : vany 1024 (b :: t) with
      | ub => rw [hr] at h1; exact h1
      | neg k => rw [hr] at h1; exact h1
      | pos k =>
        rw [hr] at h1
        exact (vtail_adv k).of_suffix_lt h1.1 h1.2

end Tg.Json
