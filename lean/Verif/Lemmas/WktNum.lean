import Verif.Lemmas.WktRound
/-! Number texts have one value, so that a `strtod` with the assumed properties exists. -/
set_option linter.unusedSectionVars false
namespace Tg.Wp
open Spec Spec.Wkt Spec.Json

/-- The value of the digits after the point. -/
def fracVal (f : List Byte) : ℚ := (digitsVal f : ℚ) / 10 ^ f.length

/-- The value of an exponent part. -/
def expVal : List Byte → ℤ
  | [] => 0
  | _ :: r => match r with
    | [] => 0
    | s :: ds => if s = 0x2D#8 then - (digitsVal ds : ℤ) else if s = 0x2B#8 then digitsVal ds else digitsVal (s :: ds)

/-- The value of an unsigned number text. -/
def unsVal (r : List Byte) : ℚ :=
  let i := r.takeWhile isDigit
  let r1 := r.dropWhile isDigit
  let f := if r1.head? = some 0x2E#8 then (r1.drop 1).takeWhile isDigit else []
  let r2 := if r1.head? = some 0x2E#8 then (r1.drop 1).dropWhile isDigit else r1
  ((digitsVal i : ℚ) + (digitsVal f : ℚ) / 10 ^ f.length) * 10 ^ expVal r2

/-- The value of a number text. -/
def decVal (l : List Byte) : ℚ := if l.head? = some 0x2D#8 then -1 * unsVal (l.drop 1) else 1 * unsVal l

theorem take_digits {ds : List Byte} (h : ∀ b ∈ ds, Digit b) {r : List Byte} (hr : ∀ c, r.head? = some c → isDigit c = false) : (ds ++ r).takeWhile isDigit = ds := by
  induction ds with
  | nil =>
    cases r with
    | nil => rfl
    | cons c r => rw [List.nil_append, List.takeWhile_cons, if_neg (by simp [hr c rfl])]
  | cons b ds ih => rw [List.cons_append, List.takeWhile_cons, if_pos ((isDigit_iff b).2 (h b (by simp))), ih (fun c hc => h c (by simp [hc]))]

theorem expo_head {e : List Byte} {k : ℤ} (h : IsExpo e k) : ∀ c, e.head? = some c → isDigit c = false ∧ c ≠ 0x2E#8 := by
  intro c hc
  rcases h with ⟨rfl, -⟩ | ⟨c', s, ds, rfl, hc', -⟩
  · cases hc
  · simp only [List.head?_cons, Option.some.injEq] at hc
    subst hc
    rcases hc' with rfl | rfl <;> decide

theorem expVal_of {e : List Byte} {k : ℤ} (h : IsExpo e k) : expVal e = k := by
  rcases h with ⟨rfl, rfl⟩ | ⟨c', s, ds, rfl, -, h0, hd, h⟩
  · rfl
  · rcases h with ⟨rfl | rfl, rfl⟩ | ⟨rfl, rfl⟩
    · cases ds with
      | nil => exact absurd rfl h0
      | cons d ds =>
        have := digit_not (hd d (by simp))
        rw [List.nil_append, expVal]
        rw [if_neg this.1, if_neg this.2.1]
    · rw [List.singleton_append, expVal]; simp
    · rw [List.singleton_append, expVal]; simp

theorem unsVal_of {i f e : List Byte} {k : ℤ} (hi : IsInt i) (hf : ∀ b ∈ f, Digit b) (he : IsExpo e k) :
    unsVal (i ++ ((if f = [] then [] else 0x2E#8 :: f) ++ e)) = ((digitsVal i : ℚ) + (digitsVal f : ℚ) / 10 ^ f.length) * 10 ^ k := by
  have hid : ∀ b ∈ i, Digit b := by
    obtain ⟨d, ds, rfl, hd, hds⟩ := int_parts hi
    intro b hb
    rcases List.mem_cons.1 hb with rfl | hb
    · exact hd
    · exact hds b hb
  have hx := expo_head he
  by_cases h0 : f = []
  · subst h0
    rw [if_pos rfl, List.nil_append]
    have hr : ∀ c, e.head? = some c → isDigit c = false := fun c hc => (hx c hc).1
    have hn : ¬ e.head? = some 0x2E#8 := fun h => (hx _ h).2 rfl
    simp only [unsVal]
    rw [take_digits hid hr, drop_digits hid hr, if_neg hn, if_neg hn, expVal_of he]
  · rw [if_neg h0]
    have hr : ∀ c, (0x2E#8 :: f ++ e).head? = some c → isDigit c = false := by
      intro c hc
      simp only [List.cons_append, List.head?_cons, Option.some.injEq] at hc
      subst hc; decide
    have hr' : ∀ c, e.head? = some c → isDigit c = false := fun c hc => (hx c hc).1
    simp only [unsVal]
    rw [take_digits hid hr, drop_digits hid hr]
    simp only [List.cons_append, List.head?_cons, if_true, List.drop_succ_cons, List.drop_zero]
    rw [take_digits hf hr', drop_digits hf hr', expVal_of he]

theorem decVal_of {l : List Byte} {q : ℚ} (h : IsDecimal l q) : decVal l = q := by
  obtain ⟨neg, i, f, e, k, rfl, hi, hf, he, rfl⟩ := h
  have := unsVal_of hi hf he
  cases neg with
  | true =>
    simp only [if_true, List.singleton_append, decVal, List.head?_cons, List.drop_succ_cons, List.drop_zero]
    rw [this]; ring
  | false =>
    obtain ⟨d, ds, rfl, hd, hds⟩ := int_parts hi
    simp only [Bool.false_eq_true, if_false, List.nil_append]
    rw [decVal, if_neg (by simpa using (digit_not hd).1), this]; ring

/-- Is the character one that ends a number? -/
def isDelim (c : Byte) : Bool := isWs c || c == 0x2C#8 || c == 0x29#8

theorem isDelim_of {c : Byte} (h : Delim c) : isDelim c = true := by
  rcases h with h | rfl | rfl
  · simp [isDelim, (isWs_iff c).2 (h c (by simp))]
  · decide
  · decide

theorem number_noDelim {t : List Byte} (ht : IsNumber t) : ∀ b ∈ t, isDelim b = false := by
  have hdig : ∀ b, Digit b → isDelim b = false := by
    intro b hb
    by_contra hc
    rw [Bool.not_eq_false] at hc
    simp only [isDelim, Bool.or_eq_true, isWs_iff, beq_iff_eq] at hc
    rcases hc with ((rfl | rfl | rfl | rfl) | rfl) | rfl <;> exact absurd hb.1 (by decide)
  obtain ⟨s, i, f, e, rfl, hs, hi, hf, he⟩ := ht
  obtain ⟨d, ds, rfl, hd, hds⟩ := int_parts hi
  intro b hb
  simp only [List.mem_append, List.mem_cons] at hb
  rcases hb with hb | (rfl | hb) | hb | hb
  · rcases hs with rfl | rfl
    · simp at hb
    · rw [List.mem_singleton] at hb; subst hb; decide
  · exact hdig _ hd
  · exact hdig _ (hds b hb)
  · rcases hf with rfl | ⟨d', ds', rfl, hd', hds'⟩
    · simp at hb
    · rcases List.mem_cons.1 hb with rfl | hb
      · decide
      · rcases List.mem_cons.1 hb with rfl | hb
        · exact hdig _ hd'
        · exact hdig _ (hds' b hb)
  · rcases he with rfl | ⟨c, s, d', ds', rfl, hc, hs, hd', hds'⟩
    · simp at hb
    · rcases List.mem_cons.1 hb with rfl | hb
      · rcases hc with rfl | rfl <;> decide
      · rcases List.mem_append.1 hb with hb | hb
        · rcases hs with rfl | rfl | rfl
          · simp at hb
          · rw [List.mem_singleton] at hb; subst hb; decide
          · rw [List.mem_singleton] at hb; subst hb; decide
        · rcases List.mem_cons.1 hb with rfl | hb
          · exact hdig _ hd'
          · exact hdig _ (hds' b hb)

/-- A `strtod`. -/
def readNum (rnd : ℚ → F64) (l : List Byte) : F64 :=
  let t := l.takeWhile fun c => !isDelim c
  double rnd t (decVal t)

theorem readNum_strtod (rnd : ℚ → F64) : Strtod (readNum rnd) rnd := by
  intro t q c r h hc
  have hn := number_noDelim (decimal_number h)
  have e : (t ++ c :: r).takeWhile (fun c => !isDelim c) = t := by
    clear h
    induction t with
    | nil => rw [List.nil_append, List.takeWhile_cons, if_neg (by simp [isDelim_of hc])]
    | cons b t ih => rw [List.cons_append, List.takeWhile_cons, if_pos (by simp [hn b (by simp)]), ih (fun b hb => hn b (by simp [hb]))]
  simp only [readNum]
  rw [e, decVal_of h]

theorem numOf_num {sd : List Byte → F64} {rnd : ℚ → F64} (hs : Strtod sd rnd) {t : List Byte} {x : F64} (h : NumOf rnd t x) : Num sd t x := by
  obtain ⟨q, h1, rfl⟩ := h
  exact ⟨decimal_number h1, fun c r hc => hs t q c r h1 hc⟩

/-! ### Monotonicity in the numbers -/

theorem IsPosn.mono {N N' : List Byte → F64 → Prop} (h : ∀ t x, N t x → N' t x) {t : List Byte} {p : List F64} (hp : IsPosn N t p) : IsPosn N' t p := by
  induction hp with
  | one t x hx => exact .one t x (h t x hx)
  | cons t x w l p hx hw h0 _ ih => exact .cons t x w l p (h t x hx) hw h0 ih

theorem IsItems.mono {α : Type} {I I' : List Byte → α → Prop} (h : ∀ t a, I t a → I' t a) {l : List Byte} {as : List α} (hp : IsItems I l as) : IsItems I' l as := by
  induction hp with
  | one w t w' a hw ht hw' => exact .one w t w' a hw (h t a ht) hw'
  | cons w t w' a l as hw ht hw' _ ih => exact .cons w t w' a l as hw (h t a ht) hw' ih

theorem Paren.mono {β : Type} {L L' : List Byte → β → Prop} (h : ∀ t a, L t a → L' t a) {t : List Byte} {b : β} (hp : Paren L t b) : Paren L' t b := by
  obtain ⟨l, h1, h2⟩ := hp
  exact ⟨l, h l b h1, h2⟩

theorem Tagged.mono {name : String} {z m : Bool} {L L' : List Byte → Prop} (h : ∀ t, L t → L' t) {t : List Byte} (hp : Tagged name z m L t) : Tagged name z m L' t := by
  obtain ⟨tag, w, l, h1, h2, h3, h4⟩ := hp
  exact ⟨tag, w, l, h1, h2, h l h3, h4⟩

section
variable {N N' : List Byte → F64 → Prop} (h : ∀ t x, N t x → N' t x)
include h

theorem IsSeries.mono {t : List Byte} {p : List (List F64)} (hp : IsSeries N t p) : IsSeries N' t p := IsItems.mono (fun _ _ hx => IsPosn.mono h hx) hp
theorem IsRings.mono {t : List Byte} {p : List (List (List F64))} (hp : IsRings N t p) : IsRings N' t p := IsItems.mono (fun _ _ hx => Paren.mono (fun _ _ hy => IsSeries.mono h hy) hx) hp
theorem IsPolys.mono {t : List Byte} {p : List (List (List (List F64)))} (hp : IsPolys N t p) : IsPolys N' t p := IsItems.mono (fun _ _ hx => Paren.mono (fun _ _ hy => IsRings.mono h hy) hx) hp
theorem IsPoints.mono {t : List Byte} {p : List (List F64)} (hp : IsPoints N t p) : IsPoints N' t p := by
  rcases hp with hp | hp
  · exact .inl (IsSeries.mono h hp)
  · exact .inr (IsItems.mono (fun _ _ hx => Paren.mono (fun _ _ hy => IsSeries.mono h hy) hx) hp)

mutual
theorem IsWkt.mono (v : GV) : ∀ t, IsWkt N v t → IsWkt N' v t := by
  match v with
  | .point z m (some p) => exact fun t ht => Tagged.mono (fun _ hx => IsSeries.mono h hx) ht
  | .point z m none => exact fun t ht => ht
  | .line z m ps => intro t ht; rw [IsWkt] at ht ⊢; split_ifs at ht ⊢; exact ht; exact Tagged.mono (fun _ hx => IsSeries.mono h hx) ht
  | .poly z m ps => intro t ht; rw [IsWkt] at ht ⊢; split_ifs at ht ⊢; exact ht; exact Tagged.mono (fun _ hx => IsRings.mono h hx) ht
  | .mpoint z m ps => intro t ht; rw [IsWkt] at ht ⊢; split_ifs at ht ⊢; exact ht; exact Tagged.mono (fun _ hx => IsPoints.mono h hx) ht
  | .mline z m ps => intro t ht; rw [IsWkt] at ht ⊢; split_ifs at ht ⊢; exact ht; exact Tagged.mono (fun _ hx => IsRings.mono h hx) ht
  | .mpoly z m ps => intro t ht; rw [IsWkt] at ht ⊢; split_ifs at ht ⊢; exact ht; exact Tagged.mono (fun _ hx => IsPolys.mono h hx) ht
  | .coll gs =>
    intro t ht
    rw [IsWkt] at ht ⊢
    rcases ht with ht | ⟨h0, z, m, ht⟩
    · exact .inl ht
    · exact .inr ⟨h0, z, m, Tagged.mono (fun l hl => AreWkt.mono gs l hl) ht⟩
theorem AreWkt.mono (vs : List GV) : ∀ l, AreWkt N vs l → AreWkt N' vs l := by
  match vs with
  | [] => exact fun l hl => hl
  | v :: vs =>
    intro l hl
    rw [AreWkt] at hl ⊢
    obtain ⟨w, t, w', h1, h2, h3, h4⟩ := hl
    refine ⟨w, t, w', h1, IsWkt.mono v t h2, h3, ?_⟩
    rcases h4 with h4 | ⟨l', h4, h5⟩
    · exact .inl h4
    · exact .inr ⟨l', AreWkt.mono vs l' h4, h5⟩
end
end

end Tg.Wp
