import Verif.Model.WktParse
import Verif.Spec.Geometry
import Mathlib.Tactic.SplitIfs
import Mathlib.Tactic.Common
/-! The WKT parser stays inside its slices and ends. -/
set_option linter.unusedSectionVars false
namespace Tg.Wp

/-- Not `ub`. -/
def Safe {α : Type} (x : P α) : Prop := x ≠ .ub

theorem safe_ok {α : Type} (a : α) : Safe (.ok a) := by simp [Safe]
theorem safe_err {α : Type} (e : String) : Safe (.err e : P α) := by simp [Safe]

theorem Safe.bind {α β : Type} {x : P α} {k : α → P β} (hx : Safe x) (hk : ∀ a, x = .ok a → Safe (k a)) : Safe (x.bind k) := by
  cases x with
  | ub => exact absurd rfl hx
  | err e => exact safe_err e
  | ok a => exact hk a rfl

theorem bind_ok {α β : Type} {x : P α} {k : α → P β} {b : β} (h : x.bind k = .ok b) : ∃ a, x = .ok a ∧ k a = .ok b := by
  cases x with
  | ub => cases h
  | err e => cases h
  | ok a => exact ⟨a, rfl, h⟩

/-! ### Parentheses -/

/-- The depth after a text that starts at depth `d`; `none` if it falls below 0. -/
def lvl : Nat → List Byte → Option Nat
  | d, [] => some d
  | d, b :: t =>
    if b = 0x28#8 then lvl (d + 1) t
    else if b = 0x29#8 then (match d with | 0 => none | d + 1 => lvl d t)
    else lvl d t

/-- The number of opening parentheses. -/
def opens (l : List Byte) : Nat := l.countP (· == 0x28#8)

theorem lvl_other {d : Nat} {b : Byte} {t : List Byte} (h1 : b ≠ 0x28#8) (h2 : b ≠ 0x29#8) : lvl d (b :: t) = lvl d t := by
  rw [lvl.eq_def]; simp [h1, h2]
theorem lvl_open {d : Nat} {t : List Byte} : lvl d (0x28#8 :: t) = lvl (d + 1) t := by rw [lvl.eq_def]; simp
theorem lvl_close {d : Nat} {t : List Byte} : lvl (d + 1) (0x29#8 :: t) = lvl d t := by rw [lvl.eq_def]; simp

theorem opens_cons (b : Byte) (t : List Byte) : opens (b :: t) = opens t + if b = 0x28#8 then 1 else 0 := by
  rw [opens, List.countP_cons]; simp [opens]
theorem opens_append (a b : List Byte) : opens (a ++ b) = opens a + opens b := by simp [opens]

theorem lvl_append (d : Nat) (a b : List Byte) : lvl d (a ++ b) = (lvl d a).bind fun e => lvl e b := by
  induction a generalizing d with
  | nil => simp [lvl]
  | cons c a ih =>
    rw [List.cons_append]
    by_cases h1 : c = 0x28#8
    · subst h1; rw [lvl_open, lvl_open, ih]
    · by_cases h2 : c = 0x29#8
      · subst h2
        cases d with
        | zero => simp [lvl]
        | succ d => rw [lvl_close, lvl_close, ih]
      · rw [lvl_other h1 h2, lvl_other h1 h2, ih]

/-- What `balance` returns. -/
theorem balance_spec {k mx : Nat} {l g r : List Byte} (h : balance (k + 1) mx l = some (g, r)) :
    l = g ++ 0x29#8 :: r ∧ lvl k g = some 0 ∧ mx + opens g ≤ 1024 := by
  induction l generalizing k mx g r with
  | nil => simp [balance] at h
  | cons b t ih =>
    rw [balance] at h
    split_ifs at h with h1 h2 h3 h4
    · obtain ⟨⟨g', r'⟩, h5, h6⟩ := Option.map_eq_some_iff.1 h
      simp only [Prod.mk.injEq] at h6
      obtain ⟨rfl, rfl⟩ := h6
      obtain ⟨e1, e2, e3⟩ := ih h5
      subst h1
      exact ⟨by rw [e1]; rfl, by rw [lvl_open]; exact e2, by rw [opens_cons, if_pos rfl]; omega⟩
    · simp only [Option.some.injEq, Prod.mk.injEq] at h
      obtain ⟨rfl, rfl⟩ := h
      have : k = 0 := by omega
      subst this h2
      exact ⟨rfl, rfl, by unfold MAXDEPTH at h4; simp [opens]; omega⟩
    · obtain ⟨⟨g', r'⟩, h5, h6⟩ := Option.map_eq_some_iff.1 h
      simp only [Prod.mk.injEq] at h6
      obtain ⟨rfl, rfl⟩ := h6
      obtain ⟨k, rfl⟩ : ∃ j, k = j + 1 := ⟨k - 1, by omega⟩
      obtain ⟨e1, e2, e3⟩ := ih h5
      subst h2
      exact ⟨by rw [e1]; rfl, by rw [lvl_close]; exact e2, by rw [opens_cons, if_neg (by decide)]; omega⟩
    · obtain ⟨⟨g', r'⟩, h5, h6⟩ := Option.map_eq_some_iff.1 h
      simp only [Prod.mk.injEq] at h6
      obtain ⟨rfl, rfl⟩ := h6
      obtain ⟨e1, e2, e3⟩ := ih h5
      exact ⟨by rw [e1]; rfl, by rw [lvl_other h1 h2]; exact e2, by rw [opens_cons, if_neg h1]; omega⟩

/-- When `balance` returns something. -/
theorem balance_of {k mx : Nat} {g r : List Byte} (hg : lvl k g = some 0) (hm : mx + opens g ≤ 1024) : balance (k + 1) mx (g ++ 0x29#8 :: r) = some (g, r) := by
  induction g generalizing k mx with
  | nil =>
    simp only [lvl, Option.some.injEq] at hg
    subst hg
    rw [List.nil_append, balance, if_neg (by decide), if_pos rfl, if_pos rfl, if_neg (by unfold MAXDEPTH; simp [opens] at hm; omega)]
  | cons b t ih =>
    rw [opens_cons] at hm
    rw [List.cons_append, balance]
    by_cases h1 : b = 0x28#8
    · subst h1
      rw [lvl_open] at hg
      rw [if_pos rfl] at hm
      rw [if_pos rfl, ih hg (by omega)]; rfl
    · rw [if_neg h1] at hm
      rw [if_neg h1]
      by_cases h2 : b = 0x29#8
      · subst h2
        cases k with
        | zero => simp [lvl] at hg
        | succ k =>
          rw [lvl_close] at hg
          rw [if_pos rfl, if_neg (by omega), Nat.add_sub_cancel, ih hg (by omega)]; rfl
      · rw [lvl_other h1 h2] at hg
        rw [if_neg h2, ih hg (by omega)]; rfl

/-- A text that comes from depth `k + 1` down to 0 has a part in front of the `)` that leaves depth 1. -/
theorem lvl_split {k : Nat} {l : List Byte} (h : lvl (k + 1) l = some 0) : ∃ g r, l = g ++ 0x29#8 :: r ∧ lvl k g = some 0 ∧ lvl 0 r = some 0 := by
  induction l generalizing k with
  | nil => simp [lvl] at h
  | cons b t ih =>
    by_cases h1 : b = 0x28#8
    · subst h1
      rw [lvl_open] at h
      obtain ⟨g, r, e1, e2, e3⟩ := ih h
      exact ⟨0x28#8 :: g, r, by rw [e1]; rfl, by rw [lvl_open]; exact e2, e3⟩
    · by_cases h2 : b = 0x29#8
      · subst h2
        rw [lvl_close] at h
        cases k with
        | zero => exact ⟨[], t, rfl, rfl, h⟩
        | succ k =>
          obtain ⟨g, r, e1, e2, e3⟩ := ih h
          exact ⟨0x29#8 :: g, r, by rw [e1]; rfl, by rw [lvl_close]; exact e2, e3⟩
      · rw [lvl_other h1 h2] at h
        obtain ⟨g, r, e1, e2, e3⟩ := ih h
        exact ⟨b :: g, r, by rw [e1]; rfl, by rw [lvl_other h1 h2]; exact e2, e3⟩

/-- A slice between two parentheses that belong together. -/
structure Closed (n : Nat) (s : List Byte) : Prop where
  lvl : lvl 0 s = some 0
  opens : opens s ≤ n

theorem balance_closed {n : Nat} {t : List Byte} (hn : n ≤ 1023) (h : Closed (n + 1) (0x28#8 :: t)) :
    ∃ g r, balance 1 1 t = some (g, r) ∧ t = g ++ 0x29#8 :: r ∧ Closed n g ∧ Closed n r := by
  have h1 := h.lvl
  rw [lvl_open] at h1
  obtain ⟨g, r, rfl, e2, e3⟩ := lvl_split h1
  have h2 := h.opens
  rw [opens_cons, if_pos rfl, opens_append, opens_cons, if_neg (by decide)] at h2
  exact ⟨g, r, balance_of e2 (by omega), rfl, ⟨e2, by omega⟩, ⟨e3, by omega⟩⟩

theorem isWs_ne {b : Byte} (h : isWs b = true) : b ≠ 0x28#8 ∧ b ≠ 0x29#8 := by
  constructor <;> rintro rfl <;> exact absurd h (by decide)

theorem Closed.cons {n : Nat} {b : Byte} {t : List Byte} (h : Closed n (b :: t)) (h1 : b ≠ 0x28#8) (h2 : b ≠ 0x29#8) : Closed n t := by
  refine ⟨?_, ?_⟩
  · have := h.lvl; rwa [lvl_other h1 h2] at this
  · have := h.opens; rw [opens_cons, if_neg h1] at this; exact this

theorem Closed.trim {n : Nat} {s : List Byte} (h : Closed n s) : Closed n (trim s) := by
  induction s with
  | nil => exact h
  | cons b t ih =>
    rw [Wp.trim, List.dropWhile_cons]
    split_ifs with hb
    · exact ih (h.cons (isWs_ne hb).1 (isWs_ne hb).2)
    · exact h

theorem drop_length (p : Byte → Bool) (l : List Byte) : (l.dropWhile p).length ≤ l.length := by
  conv_rhs => rw [← List.takeWhile_append_dropWhile (p := p) (l := l)]
  rw [List.length_append]; omega

theorem trim_length (s : List Byte) : (trim s).length ≤ s.length := drop_length _ _

/-! ### Numbers -/

theorem vFrac_length {l r : List Byte} (h : vFrac l = .ok r) : r.length ≤ l.length := by
  cases l with
  | nil => simp only [vFrac, P.ok.injEq] at h; simp [← h]
  | cons b t =>
    rw [vFrac.eq_def] at h
    dsimp only at h
    split_ifs at h
    · cases t with
      | nil => cases h
      | cons d u =>
        dsimp only at h
        split_ifs at h
        simp only [P.ok.injEq] at h
        have := drop_length isDigit u
        simp [← h]; omega
    · simp only [P.ok.injEq] at h; simp [← h]

theorem vExp_length {l r : List Byte} (h : vExp l = .ok r) : r.length ≤ l.length := by
  cases l with
  | nil => simp only [vExp, P.ok.injEq] at h; simp [← h]
  | cons b t =>
    rw [vExp.eq_def] at h
    dsimp only at h
    split_ifs at h with h1
    · cases t with
      | nil => cases h
      | cons s u =>
        dsimp only at h
        generalize hx : (if s = 43#8 ∨ s = 45#8 then u else s :: u) = x at h
        have hxl : x.length ≤ u.length + 1 := by
          rw [← hx]; split_ifs <;> simp
        cases x with
        | nil => cases h
        | cons d u' =>
          dsimp only at h
          split_ifs at h
          simp only [P.ok.injEq] at h
          have := drop_length isDigit u'
          simp at hxl
          simp [← h]; omega
    · simp only [P.ok.injEq] at h; simp [← h]

theorem vFrac_safe (l : List Byte) : Safe (vFrac l) := by
  rw [vFrac.eq_def]
  cases l with
  | nil => exact safe_ok _
  | cons b t =>
    dsimp only
    split_ifs
    · cases t with
      | nil => exact safe_err _
      | cons d u => dsimp only; split_ifs; exact safe_ok _; exact safe_err _
    · exact safe_ok _

theorem vExp_safe (l : List Byte) : Safe (vExp l) := by
  rw [vExp.eq_def]
  cases l with
  | nil => exact safe_ok _
  | cons b t =>
    dsimp only
    split_ifs
    · cases t with
      | nil => exact safe_err _
      | cons s u =>
        dsimp only
        generalize (if s = 43#8 ∨ s = 45#8 then u else s :: u) = x
        cases x with
        | nil => exact safe_err _
        | cons d u' => dsimp only; split_ifs; exact safe_ok _; exact safe_err _
    · exact safe_ok _

theorem vnumber_safe {l : List Byte} (h : l ≠ []) : Safe (vnumber l) := by
  cases l with
  | nil => exact absurd rfl h
  | cons b t =>
    rw [vnumber.eq_def]
    dsimp only
    split_ifs with h1 h2
    · exact safe_err _
    · cases t with
      | nil => exact absurd ⟨h2, rfl⟩ h1
      | cons c u => dsimp only; split_ifs; exact safe_err _; exact (vFrac_safe _).bind fun a _ => vExp_safe a
    · dsimp only; split_ifs; exact safe_err _; exact (vFrac_safe _).bind fun a _ => vExp_safe a

/-- The first character of the fraction or exponent part, or of what follows. -/
theorem int_length {c : Byte} {u r : List Byte} (hc : ¬ (!isDigit c && c != 0x2E#8) = true)
    (h : (vFrac ((c :: u).dropWhile isDigit)).bind vExp = .ok r) : r.length < (c :: u).length := by
  obtain ⟨a, h1, h2⟩ := bind_ok h
  have h3 := vExp_length h2
  by_cases hd : isDigit c = true
  · have h4 := vFrac_length h1
    rw [List.dropWhile_cons, if_pos hd] at h4
    have := drop_length isDigit u
    simp; omega
  · rw [List.dropWhile_cons, if_neg hd] at h1
    have : c = 0x2E#8 := by simpa [hd] using hc
    subst this
    rw [vFrac.eq_def] at h1
    dsimp only at h1
    rw [if_pos rfl] at h1
    cases u with
    | nil => cases h1
    | cons d u' =>
      dsimp only at h1
      split_ifs at h1
      simp only [P.ok.injEq] at h1
      have := drop_length isDigit u'
      simp [← h1] at h3 ⊢; omega

theorem vnumber_length {l r : List Byte} (h : vnumber l = .ok r) : r.length < l.length := by
  cases l with
  | nil => cases h
  | cons b t =>
    rw [vnumber.eq_def] at h
    dsimp only at h
    split_ifs at h with h1 h2
    · cases t with
      | nil => cases h
      | cons c u =>
        dsimp only at h
        split_ifs at h with h3
        have := int_length h3 h
        simp at this ⊢; omega
    · dsimp only at h
      split_ifs at h with h3
      exact int_length h3 h

variable {sd : List Byte → F64}

theorem conv_safe {l after : List Byte} (h : 0x29#8 ∈ after) : Safe (conv sd (l ++ after)) := by
  rw [conv, if_pos (by simp [h])]; exact safe_ok _

/-! ### Positions -/

theorem pointLoop_safe {dims : Nat} {after : List Byte} (h : 0x29#8 ∈ after) : ∀ (f : Nat) (l : List Byte) (ps : List F64), l ≠ [] → l.length < f →
    Safe (pointLoop sd dims after f l ps) := by
  intro f
  induction f with
  | zero => intro l ps _ hl; omega
  | succ f ih =>
    intro l ps hl hf
    rw [pointLoop]
    refine (vnumber_safe hl).bind fun r hr => ?_
    split_ifs
    · refine (conv_safe h).bind fun x _ => ?_
      have hlen := vnumber_length hr
      cases r with
      | nil => exact safe_ok _
      | cons c u =>
        dsimp only
        split_ifs
        · have ht := trim_length (c :: u)
          split
          · exact safe_ok _
          · rename_i r' hr'
            exact ih _ _ hr' (by omega)
        · exact safe_err _
    · exact safe_err _

theorem parsePoint_safe (z m : Bool) (s : List Byte) {after : List Byte} (h : 0x29#8 ∈ after) : Safe (parsePoint sd z m s after) := by
  rw [parsePoint]
  dsimp only
  split
  · exact safe_err _
  · rename_i hl
    refine (pointLoop_safe h _ _ _ hl (by omega)).bind fun ps _ => ?_
    split_ifs <;> first | exact safe_err _ | exact safe_ok _

theorem numLoop_safe {dims : Nat} {after : List Byte} (h : 0x29#8 ∈ after) : ∀ (f : Nat) (l : List Byte) (ps : List F64), l.length < f →
    Safe (numLoop sd dims after f l ps) := by
  intro f
  induction f with
  | zero => intro l ps hl; omega
  | succ f ih =>
    intro l ps hf
    rw [numLoop.eq_def]
    cases l with
    | nil => exact safe_ok _
    | cons b t =>
      dsimp only
      by_cases hb : isNum b = true
      · rw [if_pos hb]
        refine (vnumber_safe (by simp)).bind fun r hr => ?_
        refine (conv_safe (l := b :: t) h).bind fun x _ => ?_
        have hlen := vnumber_length hr
        split_ifs
        · exact safe_err _
        · cases r with
          | nil => exact safe_ok _
          | cons c u =>
            dsimp only
            split_ifs
            · have ht := trim_length u
              cases hu : trim u with
              | nil => exact safe_ok _
              | cons c' u' =>
                dsimp only
                rw [hu] at ht
                split_ifs
                · exact safe_ok _
                · exact ih _ _ (by simp at ht hlen hf ⊢; omega)
            · exact safe_ok _
      · rw [if_neg hb]; exact safe_err _

theorem numLoop_length {dims : Nat} {after : List Byte} : ∀ (f : Nat) (l : List Byte) (ps : List F64) (r : List Byte × List F64),
    numLoop sd dims after f l ps = .ok r → r.1.length ≤ l.length ∧ (l ≠ [] → r.1.length < l.length) := by
  intro f
  induction f with
  | zero => intro l ps r h; cases h
  | succ f ih =>
    intro l ps r h
    rw [numLoop.eq_def] at h
    cases l with
    | nil => simp only [P.ok.injEq] at h; subst h; simp
    | cons b t =>
      dsimp only at h
      suffices r.1.length < (b :: t).length from ⟨Nat.le_of_lt this, fun _ => this⟩
      by_cases hb : isNum b = true
      swap
      · rw [if_neg hb] at h; cases h
      rw [if_pos hb] at h
      obtain ⟨r1, hr1, h⟩ := bind_ok h
      obtain ⟨x, -, h⟩ := bind_ok h
      have hlen := vnumber_length hr1
      split_ifs at h
      cases r1 with
      | nil => simp only [P.ok.injEq] at h; subst h; simp
      | cons c u =>
        dsimp only at h
        split_ifs at h
        · have ht := trim_length u
          cases hu : trim u with
          | nil => rw [hu] at h; simp only [P.ok.injEq] at h; subst h; simp
          | cons c' u' =>
            rw [hu] at h ht
            dsimp only at h
            split_ifs at h
            · simp only [P.ok.injEq] at h; subst h; simp at hlen ht ⊢; omega
            · have := (ih _ _ _ h).1
              simp at hlen ht this ⊢; omega
        · simp only [P.ok.injEq] at h; subst h; exact hlen

theorem expect_safe (x : Bool) (c : Byte) (l : List Byte) : Safe (expect x c l) := by
  rw [expect.eq_def]
  cases x with
  | false => exact safe_ok _
  | true =>
    simp only [if_true]
    cases l with
    | nil => exact safe_err _
    | cons b t => dsimp only; split_ifs; exact safe_ok _; exact safe_err _

theorem expect_length {x : Bool} {c : Byte} {l r : List Byte} (h : expect x c l = .ok r) : r.length ≤ l.length ∧ (x = true → r.length < l.length) := by
  rw [expect.eq_def] at h
  cases x with
  | false => simp only [Bool.false_eq_true, if_false, P.ok.injEq] at h; subst h; simp
  | true =>
    simp only [if_true] at h
    cases l with
    | nil => cases h
    | cons b t =>
      dsimp only at h
      split_ifs at h
      simp only [P.ok.injEq] at h
      have := trim_length t
      subst h
      exact ⟨by simp; omega, fun _ => by simp; omega⟩

theorem comma_safe (l : List Byte) : Safe (comma l) := by
  rw [comma.eq_def]
  cases l with
  | nil => exact safe_ok _
  | cons b t =>
    dsimp only
    split_ifs
    · split; exact safe_err _; exact safe_ok _
    · exact safe_err _

theorem comma_length {l r : List Byte} (h : comma l = .ok r) : r.length ≤ l.length := by
  rw [comma.eq_def] at h
  cases l with
  | nil => simp only [P.ok.injEq] at h; subst h; simp
  | cons b t =>
    dsimp only at h
    have := trim_length t
    split_ifs at h
    · split at h
      · cases h
      · simp only [P.ok.injEq] at h; subst h; simp; omega

theorem posnLoop_safe {xp : Bool} {after : List Byte} (h : 0x29#8 ∈ after) : ∀ (f dims : Nat) (l : List Byte), l.length < f →
    Safe (posnLoop sd xp after f dims l) := by
  intro f
  induction f with
  | zero => intro dims l hl; omega
  | succ f ih =>
    intro dims l hl
    rw [posnLoop.eq_def]
    cases l with
    | nil => exact safe_ok _
    | cons b t =>
      dsimp only
      refine (expect_safe _ _ _).bind fun l1 h1 => ?_
      refine (numLoop_safe h _ _ _ (by omega)).bind fun r hr => ?_
      refine (expect_safe _ _ _).bind fun l3 h3 => ?_
      refine (comma_safe _).bind fun l4 h4 => ?_
      split_ifs
      · exact safe_err _
      · have e1 := expect_length h1
        have e2 := numLoop_length _ _ _ _ hr
        have e3 := expect_length h3
        have e4 := comma_length h4
        have : l4.length < (b :: t).length := by
          cases xp with
          | true => have := e1.2 rfl; omega
          | false =>
            simp only [expect, Bool.false_eq_true, if_false, P.ok.injEq] at h1
            subst h1
            have := e2.2 (by simp)
            omega
        exact (ih _ _ (by omega)).bind fun q _ => safe_ok _

theorem parsePosns_safe (base : Base) (dims : Nat) (s : List Byte) {after : List Byte} (h : 0x29#8 ∈ after) : Safe (parsePosns sd base dims s after) := by
  rw [parsePosns]
  refine Safe.bind ?_ fun r _ => ?_
  · rw [rawPosns.eq_def]
    have ht := trim_length s
    cases hs : trim s with
    | nil => exact safe_ok _
    | cons b t => rw [hs] at ht; exact posnLoop_safe h _ _ _ (by omega)
  · split; exact safe_err _; exact safe_ok _

/-! ### Groups -/

theorem groupLoop_safe {α : Type} {inner : Nat → List Byte → List Byte → P (Nat × α)} {n : Nat} (hn : n ≤ 1023)
    (hi : ∀ d g after, Closed n g → 0x29#8 ∈ after → Safe (inner d g after)) (after : List Byte) :
    ∀ (f dims : Nat) (l : List Byte), l.length < f → Closed n l → Safe (groupLoop inner after f dims l) := by
  intro f
  induction f with
  | zero => intro dims l hl; omega
  | succ f ih =>
    intro dims l hl hc
    rw [groupLoop.eq_def]
    cases l with
    | nil => exact safe_ok _
    | cons b t =>
      dsimp only
      split_ifs with hb
      · subst hb
        obtain ⟨g, r, e1, rfl, e2, e3⟩ := balance_closed hn ⟨hc.lvl, Nat.le_trans hc.opens (by omega)⟩
        rw [e1]
        dsimp only
        refine (hi _ _ _ e2 (by simp)).bind fun a _ => ?_
        have ht := trim_length r
        have hct := e3.trim
        cases hr : trim r with
        | nil => exact safe_ok _
        | cons c u =>
          rw [hr] at ht hct
          dsimp only
          split_ifs with hcm
          · subst hcm
            have htu := trim_length u
            split
            · exact safe_err _
            · simp only [List.length_cons, List.length_append] at hl ht
              exact (ih _ _ (by omega) (hct.cons (by decide) (by decide)).trim).bind fun q _ => safe_ok _
          · exact safe_err _
      · exact safe_err _

theorem parseRings_safe {n : Nat} (hn : n ≤ 1023) (dims : Nat) (s after : List Byte) (hs : Closed n s) : Safe (parseRings sd dims s after) := by
  rw [parseRings]
  refine (groupLoop_safe hn (fun d g after _ h => parsePosns_safe _ _ _ h) after _ _ _ (by have := trim_length s; omega) hs.trim).bind fun r _ => ?_
  split_ifs; exact safe_err _; exact safe_ok _

/-- A child in a collection. -/
theorem next_closed {n : Nat} (hn : n ≤ 1023) : ∀ (l : List Byte), Closed n l → ∃ c r, nextGeometry l = some (c, r) ∧ l = c ++ r ∧ Closed n r ∧ opens c ≤ n
  | [], h => ⟨[], [], rfl, rfl, h, by simp [opens]⟩
  | b :: t, h => by
    rw [nextGeometry]
    by_cases h1 : b = 0x2C#8
    · rw [if_pos h1]
      exact ⟨[], _, rfl, rfl, h, by simp [opens]⟩
    · rw [if_neg h1]
      by_cases h2 : b = 0x28#8
      · subst h2
        obtain ⟨g, r, e1, rfl, e2, e3⟩ := balance_closed hn ⟨h.lvl, Nat.le_trans h.opens (by omega)⟩
        rw [if_pos rfl, e1]
        refine ⟨_, r, rfl, by simp, e3, ?_⟩
        have := h.opens
        rw [opens_cons, if_pos rfl, opens_append, opens_cons, if_neg (by decide)] at this
        rw [opens_cons, if_pos rfl, opens_append, opens_cons, if_neg (by decide)]
        simp [opens] at this ⊢; omega
      · rw [if_neg h2]
        have h3 : b ≠ 0x29#8 := by
          rintro rfl
          have := h.lvl
          simp [lvl] at this
        obtain ⟨c, r, e1, e2, e3, e4⟩ := next_closed hn t (h.cons h2 h3)
        rw [e1]
        exact ⟨b :: c, r, rfl, by rw [e2]; rfl, e3, by rw [opens_cons, if_neg h2]; omega⟩

theorem collLoop_safe {child : List Byte → List Byte → P Geom} {n : Nat} (hn : n ≤ 1023)
    (hi : ∀ c after, opens c ≤ n → Safe (child c after)) (after : List Byte) :
    ∀ (f : Nat) (l : List Byte), l.length < f → Closed n l → Safe (collLoop child after f l) := by
  intro f
  induction f with
  | zero => intro l hl; omega
  | succ f ih =>
    intro l hl hc
    rw [collLoop.eq_def]
    cases l with
    | nil => exact safe_ok _
    | cons b t =>
      dsimp only
      obtain ⟨c, r, e1, e2, e3, e4⟩ := next_closed hn _ hc
      rw [e1]
      dsimp only
      refine Safe.bind ?_ fun gs _ => ?_
      · split_ifs; exact safe_ok _; exact (hi _ _ e4).bind fun g _ => safe_ok _
      · have ht := trim_length r
        have hct := e3.trim
        cases hr : trim r with
        | nil => exact safe_ok _
        | cons d u =>
          rw [hr] at ht hct
          dsimp only
          split_ifs with hd
          · subst hd
            have : r.length ≤ (b :: t).length := by rw [e2]; simp
            simp only [List.length_cons] at ht hl this
            exact (ih _ (by omega) (hct.cons (by decide) (by decide))).bind fun q _ => safe_ok _
          · exact safe_err _

theorem opens_trim (s : List Byte) : opens (trim s) = opens s := by
  induction s with
  | nil => rfl
  | cons b t ih =>
    rw [trim, List.dropWhile_cons]
    split_ifs with hb
    · rw [opens_cons, if_neg (isWs_ne hb).1]; exact ih
    · rfl

theorem opens_takeDrop (p : Byte → Bool) (s : List Byte) : opens (s.dropWhile p) ≤ opens s := by
  conv_rhs => rw [← List.takeWhile_append_dropWhile (p := p) (l := s)]
  rw [opens_append]; omega

/-- The text from the first parenthesis on. -/
theorem drop_open {l : List Byte} {b : Byte} {u : List Byte} (h : l.dropWhile (· != 0x28#8) = b :: u) : b = 0x28#8 := by
  induction l with
  | nil => simp at h
  | cons c t ih =>
    rw [List.dropWhile_cons] at h
    split_ifs at h with hc
    · exact ih h
    · simp only [List.cons.injEq] at h
      rw [← h.1]; simpa using hc

/-- One call, if the calls for the children are safe. -/
theorem parseWkt_step (d : Nat) (s after : List Byte)
    (hi : ∀ n, n ≤ 1023 → n + 1 ≤ opens s → ∀ c after, opens c ≤ n → Safe (parseWkt sd d c after)) : Safe (parseWkt sd (d + 1) s after) := by
  rw [parseWkt.eq_def]
  dsimp only
  split_ifs
  · exact safe_err _
  · split
    · exact safe_err _
    · exact safe_err _
    · exact safe_err _
    · split_ifs
      · exact safe_ok _
      · split
        · exact safe_err _
        · rename_i hrest
          have hb := drop_open hrest
          subst hb
          split
          · exact safe_err _
          · rename_i g r hbal
            obtain ⟨e1, e2, e3⟩ := balance_spec (k := 0) hbal
            have ho : opens g + 1 ≤ opens s := by
              have := opens_takeDrop (· != 0x28#8) (trim s)
              rw [hrest, opens_trim, opens_cons, if_pos rfl, e1, opens_append] at this
              omega
            have hcl : Closed (opens g) g := ⟨e2, Nat.le_refl _⟩
            have hn : opens g ≤ 1023 := by omega
            split_ifs
            · exact safe_err _
            · have hm : ∀ x : List Byte, 0x29#8 ∈ 0x29#8 :: x := by simp
              split
              · exact parsePoint_safe _ _ _ (hm _)
              · exact (parsePosns_safe _ _ _ (hm _)).bind fun a _ => safe_ok _
              · exact (parseRings_safe hn _ _ _ hcl).bind fun a _ => safe_ok _
              · exact (parsePosns_safe _ _ _ (hm _)).bind fun a _ => safe_ok _
              · exact (groupLoop_safe hn (fun d g after _ h => parsePosns_safe _ _ _ h) _ _ _ _ (by have := trim_length g; omega) hcl.trim).bind fun a _ => safe_ok _
              · exact (groupLoop_safe hn (fun d g after h _ => parseRings_safe hn _ _ _ h) _ _ _ _ (by have := trim_length g; omega) hcl.trim).bind fun a _ => safe_ok _
              · rw [parseColl]
                refine (collLoop_safe hn (fun c after hc => hi _ hn ho c after hc) _ _ _ (by omega) hcl).bind fun a _ => ?_
                split_ifs; exact safe_err _; exact safe_ok _

theorem parseWkt_safe (d : Nat) : ∀ (s after : List Byte), opens s ≤ d → Safe (parseWkt sd (d + 1) s after) := by
  induction d with
  | zero => intro s after h; exact parseWkt_step 0 s after fun n _ h2 => by omega
  | succ d ih => intro s after h; exact parseWkt_step (d + 1) s after fun n h1 h2 c after hc => ih c after (by omega)

theorem tgParseWkt_safe (data : List Byte) : tgParseWkt sd data ≠ .ub := by
  have : Safe (parseWkt sd (MAXDEPTH + 1) data []) := parseWkt_step _ _ _ fun n h1 _ c after hc => parseWkt_safe 1023 c after (Nat.le_trans hc h1)
  unfold tgParseWkt
  split
  · rename_i h; exact absurd h this
  · simp
  · simp

/-! ### Nesting -/

open Spec in
theorem collLoop_nest {child : List Byte → List Byte → P Geom} {n : Nat} (hi : ∀ c after g, child c after = .ok g → nest g < n) (after : List Byte) :
    ∀ (f : Nat) (l : List Byte) (r : Nat × List Geom), collLoop child after f l = .ok r → nests r.2 ≤ n := by
  intro f
  induction f with
  | zero => intro l r h; cases h
  | succ f ih =>
    intro l r h
    rw [collLoop.eq_def] at h
    cases l with
    | nil => simp only [P.ok.injEq] at h; subst h; simp [nests]
    | cons b t =>
      dsimp only at h
      cases hx : nextGeometry (b :: t) with
      | none => rw [hx] at h; cases h
      | some cr =>
        rw [hx] at h
        dsimp only at h
        obtain ⟨gs, h1, h⟩ := bind_ok h
        have hgs : nests gs ≤ n ∧ ∀ gs', nests gs' ≤ n → nests (gs ++ gs') ≤ n := by
          split_ifs at h1
          · simp only [P.ok.injEq] at h1; subst h1; simp [nests]
          · obtain ⟨g, hg, h1⟩ := bind_ok h1
            simp only [P.ok.injEq] at h1; subst h1
            have := hi _ _ _ hg
            simp only [nests, List.cons_append, List.nil_append]
            exact ⟨by omega, fun gs' h => by omega⟩
        cases hr : trim cr.2 with
        | nil => rw [hr] at h; simp only [P.ok.injEq] at h; subst h; exact hgs.1
        | cons d u =>
          rw [hr] at h
          dsimp only at h
          split_ifs at h
          obtain ⟨q, hq, h⟩ := bind_ok h
          simp only [P.ok.injEq] at h; subst h
          exact hgs.2 _ (ih _ _ hq)

open Spec in
theorem parseWkt_nest (d : Nat) : ∀ (s after : List Byte) (g : Geom), parseWkt sd d s after = .ok g → nest g < d := by
  induction d with
  | zero => intro s after g h; cases h
  | succ d ih =>
    intro s after g h
    rw [parseWkt.eq_def] at h
    dsimp only at h
    split_ifs at h
    split at h
    · cases h
    · cases h
    · cases h
    · split_ifs at h
      · simp only [P.ok.injEq] at h; subst h
        rename_i t z m _ _ _
        cases t <;> simp [emptyGeom, nest, nests]
      · split at h
        · cases h
        · split at h
          · cases h
          · split_ifs at h
            split at h
            · rw [parsePoint] at h
              dsimp only at h
              split at h
              · cases h
              · obtain ⟨ps, -, h⟩ := bind_ok h
                split_ifs at h <;> simp only [P.ok.injEq] at h <;> subst h <;> simp [nest]
            · obtain ⟨a, -, h⟩ := bind_ok h
              simp only [P.ok.injEq] at h; subst h
              split_ifs <;> simp [nest]
            · obtain ⟨a, -, h⟩ := bind_ok h
              simp only [P.ok.injEq] at h; subst h
              split_ifs <;> simp [nest]
            · obtain ⟨a, -, h⟩ := bind_ok h
              simp only [P.ok.injEq] at h; subst h
              simp [nest]
            · obtain ⟨a, -, h⟩ := bind_ok h
              simp only [P.ok.injEq] at h; subst h
              simp [nest]
            · obtain ⟨a, -, h⟩ := bind_ok h
              simp only [P.ok.injEq] at h; subst h
              simp [nest]
            · rw [parseColl] at h
              obtain ⟨a, ha, h⟩ := bind_ok h
              split_ifs at h
              simp only [P.ok.injEq] at h; subst h
              have := collLoop_nest (n := d) (fun c after g h => ih c after g h) _ _ _ _ ha
              rw [nest]; omega

end Tg.Wp
