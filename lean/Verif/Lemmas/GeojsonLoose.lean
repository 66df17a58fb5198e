import Verif.Lemmas.GeojsonFeature
import Verif.Spec.GeojsonLoose
/-! What the GeoJSON parser accepts. -/
set_option linter.unusedSectionVars false
namespace Tg.Gp
open Json
open Wp (P Base checkBase dimFlags polyOf showBytes Safe bind_ok safe_ok safe_err)
open Spec.Json (Ws Val Elems Mems Chr Chrs Str Utf8 HexDigit IsNumber)
open Spec.Geojson (Items IsArr Pairs Spells Named Member TypeObj others extraText IsPosn IsSeries IsRings IsPolys IsList hexDigit FirstMember LastMember NamedTo LooseObj Loose AreLoose LooseMembers LooseFeature LooseFeatures ZFirst ZFirsts reread rereads shown)
open Spec (view views posOk dims)
open Spec.Wkt (LineWf RingWf Wf Wfs)

variable {sd : List Byte → F64 × Nat}

/-! ### The kinds of values -/

theorem jval_arr {t r : List Byte} (h : JVal t) {j : Option J} (hj : Here j t r) (ht : jtype j = .array) : ∃ vs, IsArr vs t ∧ ∀ v ∈ vs, JVal v := by
  obtain ⟨n, h⟩ := h
  cases h with
  | null => rw [jtype, hj.head rfl] at ht; exact absurd ht (by decide)
  | true_ => rw [jtype, hj.head rfl] at ht; exact absurd ht (by decide)
  | false_ => rw [jtype, hj.head rfl] at ht; exact absurd ht (by decide)
  | num _ _ h => rw [number_type h hj] at ht; exact absurd ht (by decide)
  | str _ _ h => rw [str_type h hj] at ht; exact absurd ht (by decide)
  | arr0 _ w h => exact ⟨[], ⟨w, .inl ⟨rfl, h⟩, rfl⟩, by simp⟩
  | arr _ l h =>
    obtain ⟨vs, -, h1, h2⟩ := elems_items h
    exact ⟨vs, ⟨l, .inr h1, rfl⟩, fun v hv => ⟨_, h2 v hv⟩⟩
  | obj0 => rw [jtype, hj.head rfl] at ht; exact absurd ht (by decide)
  | obj => rw [jtype, hj.head rfl] at ht; exact absurd ht (by decide)

theorem jval_obj {t r : List Byte} (h : JVal t) {j : Option J} (hj : Here j t r) (ht : jtype j = .object) : ∃ ms, Spec.Geojson.IsObj ms t := by
  obtain ⟨n, h⟩ := h
  cases h with
  | null => rw [jtype, hj.head rfl] at ht; exact absurd ht (by decide)
  | true_ => rw [jtype, hj.head rfl] at ht; exact absurd ht (by decide)
  | false_ => rw [jtype, hj.head rfl] at ht; exact absurd ht (by decide)
  | num _ _ h => rw [number_type h hj] at ht; exact absurd ht (by decide)
  | str _ _ h => rw [str_type h hj] at ht; exact absurd ht (by decide)
  | arr0 => rw [jtype, hj.head rfl] at ht; exact absurd ht (by decide)
  | arr => rw [jtype, hj.head rfl] at ht; exact absurd ht (by decide)
  | obj0 _ w h => exact ⟨[], by simp, w, .inl ⟨rfl, h⟩, rfl⟩
  | obj _ l h =>
    obtain ⟨ms, h1, h2⟩ := mems_members h
    exact ⟨ms, fun m hm => ⟨(h2 m hm).1, _, (h2 m hm).2⟩, l, .inr h1, rfl⟩

theorem jval_number {t r : List Byte} (h : JVal t) {j : Option J} (hj : Here j t r) (ht : jtype j = .number) : IsNumber t := by
  obtain ⟨n, h⟩ := h
  cases h with
  | null => rw [jtype, hj.head rfl] at ht; exact absurd ht (by decide)
  | true_ => rw [jtype, hj.head rfl] at ht; exact absurd ht (by decide)
  | false_ => rw [jtype, hj.head rfl] at ht; exact absurd ht (by decide)
  | num _ _ h => exact h
  | str _ _ h => rw [str_type h hj] at ht; exact absurd ht (by decide)
  | arr0 => rw [jtype, hj.head rfl] at ht; exact absurd ht (by decide)
  | arr => rw [jtype, hj.head rfl] at ht; exact absurd ht (by decide)
  | obj0 => rw [jtype, hj.head rfl] at ht; exact absurd ht (by decide)
  | obj => rw [jtype, hj.head rfl] at ht; exact absurd ht (by decide)

theorem jval_string {t r : List Byte} (h : JVal t) {j : Option J} (hj : Here j t r) (ht : jtype j = .string) : Str t := by
  obtain ⟨n, h⟩ := h
  cases h with
  | null => rw [jtype, hj.head rfl] at ht; exact absurd ht (by decide)
  | true_ => rw [jtype, hj.head rfl] at ht; exact absurd ht (by decide)
  | false_ => rw [jtype, hj.head rfl] at ht; exact absurd ht (by decide)
  | num _ _ h => rw [number_type h hj] at ht; exact absurd ht (by decide)
  | str _ _ h => exact h
  | arr0 => rw [jtype, hj.head rfl] at ht; exact absurd ht (by decide)
  | arr => rw [jtype, hj.head rfl] at ht; exact absurd ht (by decide)
  | obj0 => rw [jtype, hj.head rfl] at ht; exact absurd ht (by decide)
  | obj => rw [jtype, hj.head rfl] at ht; exact absurd ht (by decide)

theorem jval_null {t r : List Byte} (h : JVal t) {j : Option J} (hj : Here j t r) (ht : jtype j = .null) : t = txt "null" := by
  obtain ⟨n, h⟩ := h
  cases h with
  | null => decide
  | true_ => rw [jtype, hj.head rfl] at ht; exact absurd ht (by decide)
  | false_ => rw [jtype, hj.head rfl] at ht; exact absurd ht (by decide)
  | num _ _ h => rw [number_type h hj] at ht; exact absurd ht (by decide)
  | str _ _ h => rw [str_type h hj] at ht; exact absurd ht (by decide)
  | arr0 => rw [jtype, hj.head rfl] at ht; exact absurd ht (by decide)
  | arr => rw [jtype, hj.head rfl] at ht; exact absurd ht (by decide)
  | obj0 => rw [jtype, hj.head rfl] at ht; exact absurd ht (by decide)
  | obj => rw [jtype, hj.head rfl] at ht; exact absurd ht (by decide)

/-! ### The name of the type -/

/-- The characters of a string up to some point of what it says. -/
theorem unescape_prefix {cs : List Byte} (h : Chrs Utf8 cs) : ∀ {s r : List Byte}, (∀ b ∈ s, b.toNat < 0x80) → unescape cs = s ++ r → ∃ a b, cs = a ++ b ∧ Spells a s ∧ Chrs Utf8 b ∧ unescape b = r := by
  induction h with
  | nil =>
    intro s r _ he
    rw [unescape] at he
    obtain ⟨rfl, rfl⟩ := List.append_eq_nil_iff.1 he.symm
    exact ⟨[], [], rfl, .nil, .nil, by rw [unescape]⟩
  | cons c l hc hl ih =>
    intro s r hs he
    cases s with
    | nil => exact ⟨[], c ++ l, rfl, .nil, .cons _ _ hc hl, he⟩
    | cons x s =>
    have hx := hs x (by simp)
    have hs' : ∀ b ∈ s, b.toNat < 0x80 := fun b hb => hs b (by simp [hb])
    cases hc with
    | ascii b h1 h2 h3 h4 =>
      rw [List.singleton_append, unescape_plain h4, List.cons_append] at he
      obtain ⟨rfl, he'⟩ := List.cons.inj he
      obtain ⟨a, b', e1, e2, e3, e4⟩ := ih hs' he'
      exact ⟨b :: a, b', by rw [e1]; rfl, .plain _ _ _ h4 e2, e3, e4⟩
    | multi _ hu =>
      have hh := utf8_noAscii _ hu
      rw [unescape_plains fun b hb => (high_ne (hh b hb)).2] at he
      cases c with
      | nil => exact absurd rfl (utf8_ne hu)
      | cons y c =>
        have := hh y (by simp)
        rw [List.cons_append, List.cons_append] at he
        obtain ⟨rfl, -⟩ := List.cons.inj he
        omega
    | esc b hb =>
      simp only [List.mem_cons, List.not_mem_nil, or_false] at hb
      have key : ∃ c, escChr b = some c ∧ b ≠ 0x75#8 ∧
          (b, c) ∈ ([(0x22, 0x22), (0x5C, 0x5C), (0x2F, 0x2F), (0x62, 0x08), (0x66, 0x0C), (0x6E, 0x0A), (0x72, 0x0D), (0x74, 0x09)] : List (Byte × Byte)) := by
        rcases hb with rfl | rfl | rfl | rfl | rfl | rfl | rfl | rfl <;> exact ⟨_, rfl, by decide, by decide⟩
      obtain ⟨c, h1, h2, h3⟩ := key
      change unescape (0x5C#8 :: b :: l) = _ at he
      rw [unescape_esc h2, h1] at he
      change c :: unescape l = x :: (s ++ r) at he
      obtain ⟨rfl, he'⟩ := List.cons.inj he
      obtain ⟨a, b', e1, e2, e3, e4⟩ := ih hs' he'
      exact ⟨0x5C#8 :: b :: a, b', by rw [e1]; rfl, .esc _ _ _ _ h3 e2, e3, e4⟩
    | uesc a b c d ha hb hc hd =>
      change unescape (0x5C#8 :: 0x75#8 :: a :: b :: c :: d :: l) = x :: (s ++ r) at he
      rcases unescape_uni a b c d l with ⟨h1, h2⟩ | ⟨y, u, h1, h2⟩
      · rw [h2] at he
        obtain ⟨rfl, he'⟩ := List.cons.inj he
        have e4 : hex4 a b c d = hexDigit a * 4096 + hexDigit b * 256 + hexDigit c * 16 + hexDigit d := by
          rw [hex4, hexVal_eq ha, hexVal_eq hb, hexVal_eq hc, hexVal_eq hd]
        obtain ⟨a', b', f1, f2, f3, f4⟩ := ih hs' he'
        refine ⟨0x5C#8 :: 0x75#8 :: a :: b :: c :: d :: a', b', by rw [f1]; rfl, .uni _ _ _ _ _ _ _ ha hb hc hd hx ?_ f2, f3, f4⟩
        rw [← e4, BitVec.toNat_ofNat]; omega
      · rw [h1] at he
        obtain ⟨rfl, -⟩ := List.cons.inj he
        omega

theorem hexDigit_zero {a : Byte} (h : HexDigit a) (h0 : hexDigit a = 0) : a = 0x30#8 := by
  apply BitVec.eq_of_toNat_eq
  unfold HexDigit at h
  unfold hexDigit at h0
  show a.toNat = 0x30
  split_ifs at h0 <;> omega

theorem esc_zero : ∀ b : Byte, escChr b ≠ some 0#8 := by decide +kernel

/-- Where a string says NUL. -/
theorem unescape_nul {cs : List Byte} (h : Chrs Utf8 cs) {r : List Byte} (he : unescape cs = 0#8 :: r) : ∃ b, cs = txt "\\u0000" ++ b ∧ unescape b = r := by
  cases h with
  | nil => rw [unescape] at he; cases he
  | cons c l hc hl =>
    cases hc with
    | ascii b h1 h2 h3 h4 =>
      rw [List.singleton_append, unescape_plain h4] at he
      obtain ⟨rfl, -⟩ := List.cons.inj he
      exact absurd h1 (by decide)
    | multi _ hu =>
      have hh := utf8_noAscii _ hu
      rw [unescape_plains fun b hb => (high_ne (hh b hb)).2] at he
      cases c with
      | nil => exact absurd rfl (utf8_ne hu)
      | cons y c =>
        have := hh y (by simp)
        obtain ⟨rfl, -⟩ := List.cons.inj he
        exact absurd this (by decide)
    | esc b hb =>
      simp only [List.mem_cons, List.not_mem_nil, or_false] at hb
      have key : ∃ c, escChr b = some c ∧ b ≠ 0x75#8 := by
        rcases hb with rfl | rfl | rfl | rfl | rfl | rfl | rfl | rfl <;> exact ⟨_, rfl, by decide⟩
      obtain ⟨c, h1, h2⟩ := key
      change unescape (0x5C#8 :: b :: l) = _ at he
      rw [unescape_esc h2, h1] at he
      change c :: unescape l = _ at he
      obtain ⟨rfl, he'⟩ := List.cons.inj he
      exact absurd h1 (esc_zero b)
    | uesc a b c d ha hb hc hd =>
      change unescape (0x5C#8 :: 0x75#8 :: a :: b :: c :: d :: l) = _ at he
      rcases unescape_uni a b c d l with ⟨h1, h2⟩ | ⟨y, u, h1, h2⟩
      · rw [h2] at he
        obtain ⟨h0, he'⟩ := List.cons.inj he
        have e4 : hex4 a b c d = hexDigit a * 4096 + hexDigit b * 256 + hexDigit c * 16 + hexDigit d := by
          rw [hex4, hexVal_eq ha, hexVal_eq hb, hexVal_eq hc, hexVal_eq hd]
        have h0 := congrArg BitVec.toNat h0
        rw [BitVec.toNat_ofNat, e4] at h0
        rw [e4] at h1
        simp only [BitVec.toNat_ofNat, Nat.reducePow, Nat.zero_mod] at h0
        have z1 := hexDigit_zero ha (by omega)
        have z2 := hexDigit_zero hb (by omega)
        have z3 := hexDigit_zero hc (by omega)
        have z4 := hexDigit_zero hd (by omega)
        subst z1 z2 z3 z4
        exact ⟨l, by rw [show txt "\\u0000" = [0x5C#8, 0x75#8, 0x30#8, 0x30#8, 0x30#8, 0x30#8] from by decide]; rfl, he'⟩
      · rw [h1] at he
        obtain ⟨rfl, -⟩ := List.cons.inj he
        exact absurd h2 (by decide)

theorem takeWhile_nul {l s : List Byte} (h : l.takeWhile (· != 0#8) = s) : l = s ∨ ∃ r, l = s ++ 0#8 :: r := by
  subst h
  induction l with
  | nil => exact .inl rfl
  | cons b l ih =>
    by_cases hb : b = 0#8
    · subst hb; exact .inr ⟨l, by simp⟩
    · rw [List.takeWhile_cons_of_pos (by simpa using hb)]
      rcases ih with ih | ⟨r, ih⟩
      · exact .inl (by rw [← ih])
      · exact .inr ⟨r, by rw [List.cons_append, ← ih]⟩

/-- The names of the types start with a capital and are short. -/
def TypeName (s : String) : Prop :=
  (∃ b t, txt s = b :: t ∧ 0x41 ≤ b.toNat ∧ b.toNat ≤ 0x5A) ∧ (txt s).length < 23 ∧ ∀ b ∈ txt s, b ≠ 0#8 ∧ b.toNat < 0x80

theorem take_short {l s r : List Byte} (h : l.take 23 = s ++ r) (hr : r = [] → s.length < 23) : ∃ r', l = s ++ r' ∧ r'.head? = r.head? := by
  have e := List.take_append_drop 23 l
  rw [h, List.append_assoc] at e
  refine ⟨r ++ l.drop 23, e.symm, ?_⟩
  cases r with
  | nil =>
    have := hr rfl
    rw [List.append_nil] at h
    have hl : l.length < 23 := by
      have := congrArg List.length h
      rw [List.length_take] at this
      omega
    rw [List.drop_eq_nil_of_le (by omega)]
    rfl
  | cons b r => rfl

/-- What is copied says the name. -/
theorem copyStr_inv {k r : List Byte} (hk : JVal k) {s : String} (hs : TypeName s) {j : Option J} (hj : j = peekAny (k ++ r)) (hh : Here j k r) (h : copyStr j 24 = txt s) : NamedTo k s := by
  obtain ⟨⟨b0, t0, e0, l0, u0⟩, hlen, hch⟩ := hs
  by_cases hq : k.head? = some 0x22#8
  · obtain ⟨n, hv⟩ := hk
    obtain ⟨cs, hc, rfl⟩ := val_str hv hq
    obtain ⟨i, hi, h1, h2⟩ := str_text hc r hj
    have e : copyStr j 24 = ((unescape cs).take 23).takeWhile (· != 0#8) := by
      rw [← h2]
      subst hi
      unfold copyStr
      simp only [h1, if_true]
    rw [e] at h
    refine ⟨cs, rfl, ?_⟩
    rcases takeWhile_nul h with h | ⟨r', h⟩
    · left
      obtain ⟨r', h, hr⟩ := take_short (r := []) (by simpa using h) (fun _ => hlen)
      have : r' = [] := by cases r' <;> simp at hr; rfl
      rw [this, List.append_nil] at h
      exact unescape_spells hc (fun b hb => (hch b hb).2) h
    · right
      obtain ⟨r', h, hr⟩ := take_short h (by simp)
      obtain ⟨a, b, e1, e2, e3, e4⟩ := unescape_prefix hc (fun b hb => (hch b hb).2) h
      obtain ⟨r'', rfl⟩ : ∃ r'', r' = 0#8 :: r'' := by
        cases r' with
        | nil => simp at hr
        | cons x r' => simp at hr; exact ⟨r', by rw [hr]⟩
      obtain ⟨b', rfl, -⟩ := unescape_nul e3 e4
      exact ⟨a, b', e1, e2⟩
  · exfalso
    obtain ⟨i, hi, hraw, hlen', hne⟩ := id hh
    obtain ⟨b, t, rfl⟩ := List.exists_cons_of_ne_nil hne
    have hs : isStr j = false := by
      rw [isStr, hh.head rfl]
      simp at hq
      simpa using hq
    have e : copyStr j 24 = ((b :: t).take 23).takeWhile (· != 0#8) := by
      rw [← hh.raw]
      subst hi
      unfold copyStr
      simp only [hs, Bool.false_eq_true, if_false]
    rw [e, e0, List.take_succ_cons] at h
    have hb : b = b0 := by
      rw [List.takeWhile_cons] at h
      split at h
      · exact (List.cons.inj h).1
      · cases h
    subst hb
    obtain ⟨n, hv⟩ := hk
    cases hv with
    | null => exact absurd u0 (by decide)
    | true_ => exact absurd u0 (by decide)
    | false_ => exact absurd u0 (by decide)
    | num _ _ h =>
      obtain ⟨b', t', e, hb⟩ := number_head h
      obtain ⟨rfl, -⟩ := List.cons.inj e
      rcases hb with rfl | ⟨-, h2⟩
      · exact absurd l0 (by decide)
      · have : b.toNat ≤ 0x39 := h2
        omega
    | str _ _ h => obtain ⟨cs, -, e⟩ := h; obtain ⟨rfl, -⟩ := List.cons.inj e; exact hq rfl
    | arr0 => exact absurd u0 (by decide)
    | arr => exact absurd u0 (by decide)
    | obj0 => exact absurd u0 (by decide)
    | obj => exact absurd u0 (by decide)

theorem spells_chrs {a s : List Byte} (h : Spells a s) : ∀ b, unescape (a ++ b) = s ++ unescape b := by
  induction h with
  | nil => intro b; rfl
  | plain x cs s hx _ ih => intro b; rw [List.cons_append, unescape_plain hx, ih]; rfl
  | esc x c cs s hx _ ih =>
    intro b
    obtain ⟨h1, h2⟩ := esc_table hx
    rw [List.cons_append, List.cons_append, unescape_esc h1, h2, ih]; rfl
  | uni x1 x2 x3 x4 e cs s h1 h2 h3 h4 he hv _ ih =>
    intro b
    have e4 : hex4 x1 x2 x3 x4 = e.toNat := by rw [hex4, hexVal_eq h1, hexVal_eq h2, hexVal_eq h3, hexVal_eq h4, hv]
    simp only [List.cons_append]
    rw [unescape_ascii (by omega), ih, e4]
    simp

/-- … and the other way around. -/
theorem copyStr_to {k r : List Byte} (hk : Str k) {s : String} (hs : TypeName s) (hn : NamedTo k s) {j : Option J} (hj : j = peekAny (k ++ r)) : copyStr j 24 = txt s := by
  obtain ⟨-, hlen, hch⟩ := hs
  obtain ⟨cs, rfl, hn | ⟨a, b, rfl, hn⟩⟩ := hn
  · exact copyStr_named hk ⟨cs, rfl, hn⟩ (by omega) (fun b hb => (hch b hb).1) hj
  · obtain ⟨cs, hc, e⟩ := hk
    have e : a ++ (txt "\\u0000" ++ b) = cs := by
      have := (List.cons.inj e).2
      exact List.append_cancel_right this
    subst e
    obtain ⟨i, hi, h1, h2⟩ := str_text hc r hj
    have e : copyStr j 24 = ((unescape (a ++ (txt "\\u0000" ++ b))).take 23).takeWhile (· != 0#8) := by
      rw [← h2]
      subst hi
      unfold copyStr
      simp only [h1, if_true]
    have e2 : unescape (txt "\\u0000" ++ b) = 0#8 :: unescape b := by
      rw [show txt "\\u0000" = [0x5C#8, 0x75#8, 0x30#8, 0x30#8, 0x30#8, 0x30#8] from by decide]
      exact unescape_ascii (a := 0x30#8) (b := 0x30#8) (c := 0x30#8) (d := 0x30#8) (by decide) b
    rw [e, spells_chrs hn, e2, List.take_append, List.take_of_length_le (by omega)]
    obtain ⟨m, hm⟩ : ∃ m, 23 - (txt s).length = m + 1 := ⟨23 - (txt s).length - 1, by omega⟩
    rw [hm, List.take_succ_cons, List.takeWhile_append_of_pos (by intro x hx; simpa using (hch x hx).1)]
    simp

end Tg.Gp
