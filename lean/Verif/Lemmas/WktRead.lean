import Verif.Lemmas.WktSafe
import Verif.Lemmas.WkbParse
import Verif.Spec.Wkt
import Verif.Lemmas.Number
/-! The WKT parser accepts every text of a geometry. -/
set_option linter.unusedSectionVars false
namespace Tg.Wp
open Spec Spec.Wkt Spec.Json

/-! ### Characters -/

theorem isWs_iff (b : Byte) : isWs b = true ↔ (b = 0x20 ∨ b = 0x09 ∨ b = 0x0A ∨ b = 0x0D) := by
  simp [isWs, or_assoc]

theorem ws_isWs {w : List Byte} (h : Ws w) : ∀ b ∈ w, isWs b = true := fun b hb => (isWs_iff b).2 (h b hb)

theorem ws_cons {b : Byte} {w : List Byte} (h : Ws (b :: w)) : Ws w := fun c hc => h c (by simp [hc])

theorem trim_ws {w : List Byte} (h : Ws w) (l : List Byte) : trim (w ++ l) = trim l := by
  induction w with
  | nil => rfl
  | cons b w ih =>
    rw [List.cons_append, trim, List.dropWhile_cons, if_pos (ws_isWs h b (by simp))]
    exact ih (ws_cons h)

theorem trim_ws' {w : List Byte} (h : Ws w) : trim w = [] := by
  have := trim_ws h []
  rwa [List.append_nil] at this

theorem trim_cons {b : Byte} {l : List Byte} (h : isWs b = false) : trim (b :: l) = b :: l := by
  rw [trim, List.dropWhile_cons, if_neg (by simp [h])]

theorem isDigit_iff (b : Byte) : isDigit b = true ↔ Digit b := by
  simp [isDigit, Digit, BitVec.le_def]

theorem upper_eq (b : Byte) : upper b = capital b := by
  simp [upper, capital, BitVec.le_def]

/-- The letters whose capitals are the given letters. -/
theorem capital_plain {b : Byte} (h : 0x41 ≤ (capital b).toNat ∧ (capital b).toNat ≤ 0x5A) : isWs b = false ∧ b ≠ 0x28#8 ∧ b ≠ 0x29#8 ∧ b ≠ 0x2C#8 := by
  have h1 : 0x41 ≤ b.toNat := by
    rw [capital] at h
    split_ifs at h <;> omega
  refine ⟨?_, ?_, ?_, ?_⟩
  · by_contra hc
    rw [Bool.not_eq_false, isWs_iff] at hc
    rcases hc with rfl | rfl | rfl | rfl <;> exact absurd h1 (by decide)
  all_goals rintro rfl; exact absurd h1 (by decide)

/-- A text without white space, parentheses and commas. -/
def Plain (t : List Byte) : Prop := ∀ b ∈ t, isWs b = false ∧ b ≠ 0x28#8 ∧ b ≠ 0x29#8 ∧ b ≠ 0x2C#8

theorem kw_plain {s : String} {t : List Byte} (h : Kw s t) (hs : ∀ b ∈ txt s, 0x41 ≤ b.toNat ∧ b.toNat ≤ 0x5A) : Plain t := by
  intro b hb
  exact capital_plain (hs _ (by rw [← h]; exact List.mem_map_of_mem hb))

theorem kw_upper {s : String} {t : List Byte} (h : Kw s t) : t.map upper = txt s := by
  rw [show upper = capital from funext upper_eq]; exact h

/-! ### The type -/

/-- The names. -/
def tname : GType → String
  | .point => "POINT"
  | .linestring => "LINESTRING"
  | .polygon => "POLYGON"
  | .multipoint => "MULTIPOINT"
  | .multilinestring => "MULTILINESTRING"
  | .multipolygon => "MULTIPOLYGON"
  | .collection => "GEOMETRYCOLLECTION"

theorem tname_letters (T : GType) : ∀ b ∈ txt (tname T), 0x41 ≤ b.toNat ∧ b.toNat ≤ 0x5A := by cases T <;> decide
theorem dimName_letters (z m : Bool) : ∀ b ∈ txt (dimName z m), 0x41 ≤ b.toNat ∧ b.toNat ≤ 0x5A := by cases z <;> cases m <;> decide
theorem empty_letters : ∀ b ∈ txt "EMPTY", 0x41 ≤ b.toNat ∧ b.toNat ≤ 0x5A := by decide

theorem nameLoop_word {w : List Byte} (hw : ∀ b ∈ w, isWs b = false) : ∀ (acc : List Byte) (k : Nat) (rest : List Byte), acc.length + w.length ≤ 31 →
    nameLoop (w ++ rest) acc k = nameLoop rest ((w.map upper).reverse ++ acc) k := by
  induction w with
  | nil => intro acc k rest _; rfl
  | cons b w ih =>
    intro acc k rest hl
    simp only [List.length_cons] at hl
    rw [List.cons_append, nameLoop, if_neg (by omega), if_neg (by simp [hw b (by simp)]), ih (fun c hc => hw c (by simp [hc])) _ _ _ (by simp; omega)]
    simp

theorem nameLoop_more {w : List Byte} (hw : Ws w) : ∀ (acc : List Byte) (k : Nat) (rest : List Byte), acc.length < 30 →
    nameLoop (w ++ rest) (0x20#8 :: acc) k = nameLoop rest (0x20#8 :: acc) k := by
  induction w with
  | nil => intro acc k rest _; rfl
  | cons b w ih =>
    intro acc k rest hl
    rw [List.cons_append, nameLoop, if_neg (by simp; omega), if_pos (ws_isWs hw b (by simp)), if_pos (by simp), ih (ws_cons hw) _ _ _ hl]

theorem nameLoop_ws {w : List Byte} (hw : Ws w) (h0 : w ≠ []) (acc : List Byte) (k : Nat) (rest : List Byte) (hl : acc.length < 30) (hk : k < 2)
    (hh : acc.head? ≠ some 0x20#8) : nameLoop (w ++ rest) acc k = nameLoop rest (0x20#8 :: acc) (k + 1) := by
  cases w with
  | nil => exact absurd rfl h0
  | cons b w =>
    rw [List.cons_append, nameLoop, if_neg (by omega), if_pos (ws_isWs hw b (by simp)), if_neg (by simpa using hh), if_neg (by omega),
      nameLoop_more (ws_cons hw) _ _ _ hl]

/-- The name that is collected. -/
def cname (T : GType) (dec sp z m e : Bool) : List Byte :=
  txt (tname T) ++ ((if dec then (if sp then [0x20#8] else []) ++ txt (dimName z m) else []) ++ (if e then txt " EMPTY" else []))

theorem cname_end (T : GType) (dec sp z m e : Bool) (h : dec = true → (z || m) = true) :
    nameEnd (cname T dec sp z m e) = (txt (tname T), dec && z, dec && m, e) := by
  cases dec with
  | false => clear h; cases sp <;> cases z <;> cases m <;> cases T <;> cases e <;> decide
  | true =>
    have h := h rfl
    cases z <;> cases m <;> first | exact absurd h (by decide) | (clear h; cases T <;> cases sp <;> cases e <;> decide)

theorem nameType_tname (T : GType) : (txt (tname T)).takeWhile (· != 0#8) = txt (tname T) ∧ nameType (txt (tname T)) = some T ∧ txt (tname T) ≠ [] := by
  cases T <;> decide

theorem wkt2type_of {l : List Byte} {T : GType} {dec sp z m e : Bool} (h : dec = true → (z || m) = true)
    (hl : nameLoop l [] 0 = some (some (cname T dec sp z m e))) : wkt2type l = .type T (dec && z) (dec && m) e := by
  rw [wkt2type, hl]
  dsimp only
  rw [cname_end T dec sp z m e h]
  dsimp only
  rw [if_neg (nameType_tname T).2.2, (nameType_tname T).1, (nameType_tname T).2.1]

theorem tname_len (T : GType) : (txt (tname T)).length ≤ 18 ∧ (txt (tname T)).reverse.head? ≠ some 0x20#8 := by cases T <;> decide
theorem dimName_len (z m : Bool) : (txt (dimName z m)).length ≤ 2 := by cases z <;> cases m <;> decide

theorem kw_length {s : String} {t : List Byte} (h : Kw s t) : t.length = (txt s).length := by rw [← h]; simp

/-- A tag, up to the place where `EMPTY` may follow. -/
theorem nameLoop_tag {T : GType} {z m : Bool} {t : List Byte} (h : IsTag (tname T) z m t) :
    ∃ dec sp, (dec = true → (z || m) = true) ∧ (dec = false → m = true → z = true) ∧ (cname T dec sp z m false).length ≤ 21 ∧
      ∃ k, k ≤ 1 ∧ ∀ rest, nameLoop (t ++ rest) [] 0 = nameLoop rest (cname T dec sp z m false).reverse k := by
  rcases h with ⟨h1, h2⟩ | ⟨h1, n, w, d, hn, hw, hd, rfl⟩
  · refine ⟨false, false, by simp, fun _ => h2, by simpa [cname] using (tname_len T).1.trans (by omega), 0, by omega, fun rest => ?_⟩
    rw [nameLoop_word (fun b hb => (kw_plain h1 (tname_letters T) b hb).1) _ _ _ (by rw [kw_length h1]; have := (tname_len T).1; simp; omega), kw_upper h1]
    simp [cname]
  · have hnl := kw_length hn
    have hdl := kw_length hd
    have h18 := (tname_len T).1
    have h2 := dimName_len z m
    have hp := kw_plain hn (tname_letters T)
    have hp' := kw_plain hd (dimName_letters z m)
    by_cases h0 : w = []
    · subst h0
      refine ⟨true, false, fun _ => h1, by simp, by simp [cname]; omega, 0, by omega, fun rest => ?_⟩
      rw [List.nil_append, List.append_assoc, nameLoop_word (fun b hb => (hp b hb).1) _ _ _ (by simp; omega), nameLoop_word (fun b hb => (hp' b hb).1) _ _ _ (by simp; omega),
        kw_upper hn, kw_upper hd]
      simp [cname]
    · refine ⟨true, true, fun _ => h1, by simp, by simp [cname]; omega, 1, by omega, fun rest => ?_⟩
      rw [List.append_assoc, List.append_assoc, nameLoop_word (fun b hb => (hp b hb).1) _ _ _ (by simp; omega), kw_upper hn,
        nameLoop_ws hw h0 _ _ _ (by simp; omega) (by omega) (by simpa using (tname_len T).2), nameLoop_word (fun b hb => (hp' b hb).1) _ _ _ (by simp; omega), kw_upper hd]
      simp [cname]

/-- What the letters after the name say about the number of coordinates. -/
structure Decl (z m z' m' : Bool) : Prop where
  dims : dims0 z' m' = 0 ∨ dims0 z' m' = Spec.dims z m
  flags : dimFlags (Spec.dims z m) m' = zmFlags z m
  meas : m' = m ∨ (m' = false ∧ z = true)

theorem decl_of {dec z m : Bool} (h1 : dec = true → (z || m) = true) (h2 : dec = false → m = true → z = true) : Decl z m (dec && z) (dec && m) := by
  cases dec <;> cases z <;> cases m <;> simp at h1 h2 <;> exact ⟨by decide, by rfl, by decide⟩

theorem wkt2type_tag {T : GType} {z m : Bool} {t : List Byte} (h : IsTag (tname T) z m t) : ∃ z' m', wkt2type t = .type T z' m' false ∧ Decl z m z' m' := by
  obtain ⟨dec, sp, h1, h2, -, k, -, h3⟩ := nameLoop_tag h
  refine ⟨_, _, wkt2type_of h1 (sp := sp) (e := false) ?_, decl_of h1 h2⟩
  have := h3 []
  rw [List.append_nil] at this
  rw [this, nameLoop]; simp

theorem cname_last (T : GType) (dec sp z m : Bool) : (cname T dec sp z m false).reverse.head? ≠ some 0x20#8 := by
  cases dec <;> cases T <;> cases sp <;> cases z <;> cases m <;> decide

theorem wkt2type_empty {T : GType} {z m : Bool} {t w e : List Byte} (h : IsTag (tname T) z m t) (hw : Ws w) (h0 : w ≠ []) (he : Kw "EMPTY" e) :
    ∃ z' m', wkt2type (t ++ (w ++ e)) = .type T z' m' true := by
  obtain ⟨dec, sp, h1, h2, hl, k, hk, h3⟩ := nameLoop_tag h
  refine ⟨_, _, wkt2type_of h1 (sp := sp) (e := true) ?_⟩
  have hel : e.length = 5 := kw_length he
  rw [h3, nameLoop_ws hw h0 _ _ _ (by rw [List.length_reverse]; omega) (by omega) (cname_last T dec sp z m)]
  have := nameLoop_word (w := e) (fun b hb => (kw_plain he empty_letters b hb).1) (0x20#8 :: (cname T dec sp z m false).reverse) (k + 1) [] (by simp; omega)
  rw [List.append_nil] at this
  rw [this, kw_upper he, nameLoop]
  simp [cname]
  decide

/-! ### Plain texts -/

theorem plain_append {a b : List Byte} (ha : Plain a) (hb : Plain b) : Plain (a ++ b) := by
  intro c hc
  rcases List.mem_append.1 hc with h | h
  · exact ha c h
  · exact hb c h

/-- Neither a parenthesis nor a comma. -/
def Flat (t : List Byte) : Prop := ∀ b ∈ t, b ≠ 0x28#8 ∧ b ≠ 0x29#8 ∧ b ≠ 0x2C#8

theorem flat_append {a b : List Byte} (ha : Flat a) (hb : Flat b) : Flat (a ++ b) := by
  intro c hc
  rcases List.mem_append.1 hc with h | h
  · exact ha c h
  · exact hb c h
theorem Plain.flat {t : List Byte} (h : Plain t) : Flat t := fun b hb => (h b hb).2
theorem ws_flat {w : List Byte} (h : Ws w) : Flat w := by
  intro b hb
  rcases h b hb with rfl | rfl | rfl | rfl <;> decide

theorem tag_flat {T : GType} {z m : Bool} {t : List Byte} (h : IsTag (tname T) z m t) : Flat t := by
  rcases h with ⟨h1, -⟩ | ⟨-, n, w, d, hn, hw, hd, rfl⟩
  · exact (kw_plain h1 (tname_letters T)).flat
  · exact flat_append (kw_plain hn (tname_letters T)).flat (flat_append (ws_flat hw) (kw_plain hd (dimName_letters z m)).flat)

/-- A tag starts with a letter and ends with one. -/
theorem tag_ends {T : GType} {z m : Bool} {t : List Byte} (h : IsTag (tname T) z m t) : ∃ b l, t = b :: l ∧ isWs b = false ∧ (l = [] ∨ ∃ l' c, l = l' ++ [c] ∧ isWs c = false) := by
  have key : ∀ n d w : List Byte, n ≠ [] → Plain n → Plain d → Ws w → (d = [] → w = []) →
      ∃ b l, n ++ (w ++ d) = b :: l ∧ isWs b = false ∧ (l = [] ∨ ∃ l' c, l = l' ++ [c] ∧ isWs c = false) := by
    intro n d w hn hp hd hw hdw
    cases n with
    | nil => exact absurd rfl hn
    | cons b n =>
      refine ⟨b, n ++ (w ++ d), rfl, (hp b (by simp)).1, ?_⟩
      rcases List.eq_nil_or_concat d with rfl | ⟨d', c, rfl⟩
      · rw [hdw rfl]
        simp only [List.append_nil]
        rcases List.eq_nil_or_concat n with rfl | ⟨n', c, rfl⟩
        · exact .inl rfl
        · exact .inr ⟨n', c, by simp, (hp c (by simp)).1⟩
      · exact .inr ⟨n ++ (w ++ d'), c, by simp, (hd c (by simp)).1⟩
  rcases h with ⟨h1, -⟩ | ⟨-, n, w, d, hn, hw, hd, rfl⟩
  · have := key t [] [] (by rintro rfl; have := kw_length h1; revert this; cases T <;> decide) (kw_plain h1 (tname_letters T)) (by simp [Plain]) (by simp [Ws]) (by simp)
    simpa using this
  · exact key n d w (by rintro rfl; have := kw_length hn; revert this; cases T <;> decide) (kw_plain hn (tname_letters T)) (kw_plain hd (dimName_letters z m)) hw
      (by rintro rfl; have := kw_length hd; exact absurd this (by cases z <;> cases m <;> decide))

theorem trimEnd_of {b : Byte} {l w : List Byte} (hw : Ws w) (hl : l = [] ∨ ∃ l' c, l = l' ++ [c] ∧ isWs c = false) : trimEnd (b :: l ++ w) = b :: l := by
  rw [List.cons_append, trimEnd]
  congr 1
  have hd : ∀ (w : List Byte) (r : List Byte), (∀ b ∈ w, isWs b = true) → (w ++ r).dropWhile isWs = r.dropWhile isWs := by
    intro w r h
    induction w with
    | nil => rfl
    | cons a w ih => rw [List.cons_append, List.dropWhile_cons, if_pos (h a (by simp)), ih (fun b hb => h b (by simp [hb]))]
  rw [List.reverse_append, hd _ _ (fun c hc => ws_isWs hw c (by simpa using hc))]
  rcases hl with rfl | ⟨l', c, rfl, hc⟩
  · rfl
  · rw [List.reverse_append, List.reverse_singleton, List.singleton_append, List.dropWhile_cons, if_neg (by simp [hc])]
    simp

theorem split_flat {h : List Byte} (hf : ∀ b ∈ h, b ≠ 0x28#8) (r : List Byte) (hr : r = [] ∨ ∃ u, r = 0x28#8 :: u) :
    (h ++ r).takeWhile (· != 0x28#8) = h ∧ (h ++ r).dropWhile (· != 0x28#8) = r := by
  induction h with
  | nil =>
    rcases hr with rfl | ⟨u, rfl⟩
    · exact ⟨rfl, rfl⟩
    · simp
  | cons b h ih =>
    have hb := hf b (by simp)
    obtain ⟨i1, i2⟩ := ih (fun c hc => hf c (by simp [hc]))
    rw [List.cons_append, List.takeWhile_cons, List.dropWhile_cons]
    simp [hb, i1, i2]

/-! ### Depth of the texts -/

/-- The parentheses match. -/
def Neutral (l : List Byte) : Prop := ∀ d, lvl d l = some d

theorem Neutral.append {a b : List Byte} (ha : Neutral a) (hb : Neutral b) : Neutral (a ++ b) := by
  intro d; rw [lvl_append, ha d]; exact hb d
theorem Flat.neutral {t : List Byte} (h : Flat t) : Neutral t := by
  intro d
  induction t with
  | nil => rfl
  | cons b t ih =>
    rw [lvl_other (h b (by simp)).1 (h b (by simp)).2.1]
    exact ih (fun c hc => h c (by simp [hc]))
theorem Neutral.paren {l : List Byte} (h : Neutral l) : Neutral (0x28#8 :: (l ++ [0x29#8])) := by
  intro d
  rw [lvl_open, lvl_append, h]
  exact lvl_close
theorem neutral_comma {l : List Byte} (h : Neutral l) : Neutral (0x2C#8 :: l) := by
  intro d; rw [lvl_other (by decide) (by decide)]; exact h d
theorem Neutral.closed {l : List Byte} (h : Neutral l) (n : Nat) (ho : opens l ≤ n) : Closed n l := ⟨h 0, ho⟩

theorem items_neutral {α : Type} {I : List Byte → α → Prop} (hI : ∀ t a, I t a → Neutral t) {l : List Byte} {as : List α} (h : IsItems I l as) : Neutral l := by
  induction h with
  | one w t w' a hw ht hw' => exact (ws_flat hw).neutral.append ((hI t a ht).append (ws_flat hw').neutral)
  | cons w t w' a l as hw ht hw' hl ih => exact (ws_flat hw).neutral.append ((hI t a ht).append ((ws_flat hw').neutral.append (neutral_comma ih)))

/-! ### Numbers -/

/-- What a number text has to be. -/
def Num (sd : List Byte → F64) (t : List Byte) (x : F64) : Prop := IsNumber t ∧ ∀ c r, Delim c → sd (t ++ c :: r) = x

/-- Nothing, or a character that ends a number. -/
def Stop (r : List Byte) : Prop := ∀ c, r.head? = some c → Delim c

theorem delim_chars {c : Byte} (h : Delim c) : isDigit c = false ∧ c ≠ 0x2E#8 ∧ c ≠ 0x65#8 ∧ c ≠ 0x45#8 := by
  rcases h with h | rfl | rfl
  · rcases h c (by simp) with rfl | rfl | rfl | rfl <;> decide
  · decide
  · decide

theorem drop_digits {ds : List Byte} (h : ∀ b ∈ ds, Digit b) {r : List Byte} (hr : ∀ c, r.head? = some c → isDigit c = false) : (ds ++ r).dropWhile isDigit = r := by
  induction ds with
  | nil =>
    cases r with
    | nil => rfl
    | cons c r => rw [List.nil_append, List.dropWhile_cons, if_neg (by simp [hr c rfl])]
  | cons b ds ih => rw [List.cons_append, List.dropWhile_cons, if_pos ((isDigit_iff b).2 (h b (by simp))), ih (fun c hc => h c (by simp [hc]))]

theorem vExp_of {e r : List Byte} (he : IsExp e) (hr : Stop r) : vExp (e ++ r) = .ok r := by
  rcases he with rfl | ⟨c, s, d, ds, rfl, hc, hs, hd, hds⟩
  · rw [List.nil_append]
    cases r with
    | nil => rfl
    | cons c r =>
      have := delim_chars (hr c rfl)
      rw [vExp.eq_def]
      dsimp only
      rw [if_neg (by rintro (h | h); exact this.2.2.1 h; exact this.2.2.2 h)]
  · have hdd : isDigit d = true := (isDigit_iff d).2 hd
    have hdn := digit_not hd
    have e1 := drop_digits hds (r := r) (fun c hc => (delim_chars (hr c hc)).1)
    rw [vExp.eq_def]
    simp only [List.cons_append]
    rw [if_pos (show c = 0x65#8 ∨ c = 0x45#8 from hc)]
    rcases hs with rfl | rfl | rfl
    · simp only [List.nil_append, List.cons_append]
      rw [if_neg (by rintro (h | h); exact hdn.2.1 h; exact hdn.1 h)]
      dsimp only
      rw [if_pos hdd, e1]
    · simp only [List.cons_append, List.nil_append]
      rw [if_pos (.inl rfl)]
      dsimp only
      rw [if_pos hdd, e1]
    · simp only [List.cons_append, List.nil_append]
      rw [if_pos (.inr rfl)]
      dsimp only
      rw [if_pos hdd, e1]

theorem exp_head {e r : List Byte} (he : IsExp e) (hr : Stop r) : ∀ c, (e ++ r).head? = some c → isDigit c = false ∧ c ≠ 0x2E#8 := by
  intro c hc
  rcases he with rfl | ⟨c', s, d, ds, rfl, hc', -⟩
  · rw [List.nil_append] at hc
    exact ⟨(delim_chars (hr c hc)).1, (delim_chars (hr c hc)).2.1⟩
  · simp only [List.cons_append, List.head?_cons, Option.some.injEq] at hc
    subst hc
    rcases hc' with rfl | rfl <;> decide

theorem vFrac_of {f e r : List Byte} (hf : IsFrac f) (he : IsExp e) (hr : Stop r) : vFrac (f ++ (e ++ r)) = .ok (e ++ r) := by
  have hh := exp_head he hr
  rcases hf with rfl | ⟨d, ds, rfl, hd, hds⟩
  · rw [List.nil_append]
    generalize e ++ r = x at hh
    cases x with
    | nil => rfl
    | cons c x =>
      rw [vFrac.eq_def]
      dsimp only
      rw [if_neg (hh c rfl).2]
  · rw [vFrac.eq_def]
    simp only [List.cons_append]
    rw [if_pos (show (0x2E : Byte) = 0x2E#8 from rfl), if_pos ((isDigit_iff d).2 hd), drop_digits hds (fun c hc => (hh c hc).1)]

theorem int_parts {i : List Byte} (h : IsInt i) : ∃ d ds, i = d :: ds ∧ Digit d ∧ ∀ b ∈ ds, Digit b := by
  rcases h with rfl | ⟨d, ds, rfl, hd, -, hds⟩
  · exact ⟨0x30#8, [], rfl, digit_zero, by simp⟩
  · exact ⟨d, ds, rfl, hd, hds⟩

theorem vnumber_of {t r : List Byte} (ht : IsNumber t) (hr : Stop r) : vnumber (t ++ r) = .ok r := by
  obtain ⟨s, i, f, e, rfl, hs, hi, hf, he⟩ := ht
  obtain ⟨d, ds, rfl, hd, hds⟩ := int_parts hi
  have hdd : isDigit d = true := (isDigit_iff d).2 hd
  have hf0 : ∀ c, (f ++ (e ++ r)).head? = some c → isDigit c = false := by
    intro c hc
    rcases hf with rfl | ⟨d', ds', rfl, -⟩
    · exact (exp_head he hr c hc).1
    · simp only [List.cons_append, List.head?_cons, Option.some.injEq] at hc
      subst hc; decide
  have key : ¬ (!isDigit d && d != 0x2E#8) = true ∧ (vFrac ((d :: (ds ++ (f ++ (e ++ r)))).dropWhile isDigit)).bind vExp = .ok r := by
    refine ⟨by simp [hdd], ?_⟩
    rw [List.dropWhile_cons, if_pos hdd, drop_digits hds hf0, vFrac_of hf he hr]
    exact vExp_of he hr
  have hdn := digit_not hd
  rw [vnumber.eq_def]
  rcases hs with rfl | rfl
  · simp only [List.nil_append, List.cons_append, List.append_assoc]
    rw [if_neg (by rintro ⟨h, -⟩; exact hdn.1 h), if_neg hdn.1]
    dsimp only
    rw [if_neg key.1, key.2]
  · simp only [List.nil_append, List.cons_append, List.append_assoc]
    rw [if_neg (by rintro ⟨-, h⟩; cases h), if_pos (show (0x2D : Byte) = 0x2D#8 from rfl)]
    dsimp only
    rw [if_neg key.1, key.2]

/-- A number starts with a sign or a digit and has no special character. -/
theorem number_head {t : List Byte} (ht : IsNumber t) : ∃ b u, t = b :: u ∧ isNum b = true ∧ isWs b = false ∧ b ≠ 0x28#8 := by
  obtain ⟨s, i, f, e, rfl, hs, hi, hf, he⟩ := ht
  obtain ⟨d, ds, rfl, hd, hds⟩ := int_parts hi
  rcases hs with rfl | rfl
  · refine ⟨d, _, rfl, by simp [isNum, (isDigit_iff d).2 hd], ?_, ?_⟩
    · by_contra hc
      rw [Bool.not_eq_false, isWs_iff] at hc
      rcases hc with rfl | rfl | rfl | rfl <;> exact absurd hd.1 (by decide)
    · rintro rfl; exact absurd hd.1 (by decide)
  · exact ⟨_, _, rfl, by decide, by decide, by decide⟩

theorem number_flat {t : List Byte} (ht : IsNumber t) : Flat t := by
  have hdig : ∀ b, Digit b → b ≠ 0x28#8 ∧ b ≠ 0x29#8 ∧ b ≠ 0x2C#8 := by
    intro b hb
    refine ⟨?_, ?_, ?_⟩ <;> rintro rfl <;> exact absurd hb.1 (by decide)
  obtain ⟨s, i, f, e, rfl, hs, hi, hf, he⟩ := ht
  obtain ⟨d, ds, rfl, hd, hds⟩ := int_parts hi
  have h1 : Flat s := by
    rcases hs with rfl | rfl
    · simp [Flat]
    · intro b hb; rw [List.mem_singleton] at hb; subst hb; decide
  have h2 : Flat (d :: ds) := by
    intro b hb
    rcases List.mem_cons.1 hb with rfl | hb
    · exact hdig _ hd
    · exact hdig _ (hds b hb)
  have h3 : Flat f := by
    rcases hf with rfl | ⟨d', ds', rfl, hd', hds'⟩
    · simp [Flat]
    · intro b hb
      rcases List.mem_cons.1 hb with rfl | hb
      · decide
      · rcases List.mem_cons.1 hb with rfl | hb
        · exact hdig _ hd'
        · exact hdig _ (hds' b hb)
  have h4 : Flat e := by
    rcases he with rfl | ⟨c, s, d', ds', rfl, hc, hs, hd', hds'⟩
    · simp [Flat]
    · intro b hb
      rcases List.mem_cons.1 hb with rfl | hb
      · rcases hc with rfl | rfl <;> decide
      · rcases List.mem_append.1 hb with hb | hb
        · rcases hs with rfl | rfl | rfl
          · simp at hb
          · rw [List.mem_singleton] at hb; subst hb; decide
          · rw [List.mem_singleton] at hb; subst hb; decide
        · rcases List.mem_cons.1 hb with rfl | hb
          · exact hdig _ hd'
          · exact hdig _ (hds' b hb)
  exact flat_append h1 (flat_append h2 (flat_append h3 h4))

variable {sd : List Byte → F64}

/-- The bytes after a slice start with a closing parenthesis. -/
def Ends (after : List Byte) : Prop := ∃ r, after = 0x29#8 :: r

theorem Ends.mem {after : List Byte} (h : Ends after) : 0x29#8 ∈ after := by
  obtain ⟨r, rfl⟩ := h; simp

theorem conv_num {t r after : List Byte} {x : F64} (h : Num sd t x) (hr : Stop r) (ha : Ends after) : conv sd (t ++ r ++ after) = .ok x := by
  rw [conv, if_pos (by simp [ha.mem])]
  congr 1
  cases r with
  | nil =>
    obtain ⟨u, rfl⟩ := ha
    rw [List.append_nil]
    exact h.2 _ _ (.inr (.inr rfl))
  | cons c r =>
    rw [List.append_assoc, List.cons_append]
    exact h.2 _ _ (hr c rfl)

theorem stop_ws {w k : List Byte} (hw : Ws w) (hk : Stop k) : Stop (w ++ k) := by
  intro c hc
  cases w with
  | nil => exact hk c hc
  | cons b w =>
    simp only [List.cons_append, List.head?_cons, Option.some.injEq] at hc
    subst hc
    refine .inl ?_
    intro d hd
    rw [List.mem_singleton] at hd
    subst hd
    exact hw _ (by simp)

theorem stop_nil : Stop [] := by intro c hc; cases hc

/-! ### Positions -/

theorem posn_head {t : List Byte} {p : List F64} (h : IsPosn (Num sd) t p) : ∃ b u, t = b :: u ∧ isNum b = true ∧ isWs b = false ∧ b ≠ 0x28#8 := by
  cases h with
  | one t x hx => exact number_head hx.1
  | cons t x w l p hx =>
    obtain ⟨b, u, rfl, h⟩ := number_head hx.1
    exact ⟨b, _, rfl, h⟩

theorem posn_flat {t : List Byte} {p : List F64} (h : IsPosn (Num sd) t p) : Flat t := by
  induction h with
  | one t x hx => exact number_flat hx.1
  | cons t x w l p hx hw _ _ ih => exact flat_append (number_flat hx.1) (flat_append (ws_flat hw) ih)

theorem isNum_special {b : Byte} (h : isNum b = true) : ¬ (b = 0x29#8 ∨ b = 0x2C#8) := by
  rintro (rfl | rfl) <;> exact absurd h (by decide)

/-- What may follow a position inside its slice: the end, a comma or a closing parenthesis. -/
def After (k : List Byte) : Prop := k = [] ∨ ∃ u, k = 0x2C#8 :: u ∨ k = 0x29#8 :: u

theorem After.stop {k : List Byte} (h : After k) : Stop k := by
  intro c hc
  rcases h with rfl | ⟨u, rfl | rfl⟩
  · cases hc
  · cases hc; exact .inr (.inl rfl)
  · cases hc; exact .inr (.inr rfl)

theorem numLoop_of {dims : Nat} {after w' k : List Byte} (ha : Ends after) (hw' : Ws w') (hk : After k) {t : List Byte} {p : List F64}
    (h : IsPosn (Num sd) t p) : ∀ (f : Nat) (ps : List F64), (t ++ (w' ++ k)).length < f → ps.length + p.length ≤ 4 →
      numLoop sd dims after f (t ++ (w' ++ k)) ps = .ok (k, ps ++ p) := by
  induction h with
  | one t x hx =>
    intro f ps hf hp
    obtain ⟨f, rfl⟩ : ∃ g, f = g + 1 := ⟨f - 1, by omega⟩
    have hst := stop_ws hw' hk.stop
    have hv := vnumber_of hx.1 hst
    have hc := conv_num hx hst ha
    obtain ⟨b, u, rfl, hb, -⟩ := number_head hx.1
    simp only [List.length_cons, List.length_nil] at hp
    rw [numLoop.eq_def]
    simp only [List.cons_append] at hv hc ⊢
    rw [if_pos hb, hv]
    simp only [P.bind]
    rw [hc]
    simp only
    rw [if_neg (by omega)]
    cases w' with
    | nil =>
      rw [List.nil_append]
      rcases hk with rfl | ⟨u, rfl | rfl⟩
      · rfl
      · dsimp only; rw [if_neg (by decide)]
      · dsimp only; rw [if_neg (by decide)]
    | cons c w' =>
      simp only [List.cons_append]
      rw [if_pos (ws_isWs hw' c (by simp)), trim_ws (ws_cons hw')]
      rcases hk with rfl | ⟨u, rfl | rfl⟩
      · rfl
      · rw [trim_cons (by decide)]; dsimp only; rw [if_pos (.inr rfl)]
      · rw [trim_cons (by decide)]; dsimp only; rw [if_pos (.inl rfl)]
  | cons t x w l p hx hw h0 hl ih =>
    intro f ps hf hp
    obtain ⟨f, rfl⟩ : ∃ g, f = g + 1 := ⟨f - 1, by omega⟩
    obtain ⟨b', u', hl', hb', hbw', -⟩ := posn_head hl
    have hst : Stop (w ++ (l ++ (w' ++ k))) := by
      intro c hc
      cases w with
      | nil => exact absurd rfl h0
      | cons d w =>
        simp only [List.cons_append, List.head?_cons, Option.some.injEq] at hc
        subst hc
        exact .inl (fun e he => by rw [List.mem_singleton] at he; subst he; exact hw _ (by simp))
    have hv := vnumber_of hx.1 hst
    have hc := conv_num hx hst ha
    obtain ⟨b, u, rfl, hb, -⟩ := number_head hx.1
    simp only [List.length_cons] at hp
    rw [numLoop.eq_def]
    simp only [List.cons_append, List.append_assoc] at hv hc hf ⊢
    rw [if_pos hb, hv]
    simp only [P.bind]
    rw [hc]
    simp only
    rw [if_neg (by omega)]
    cases w with
    | nil => exact absurd rfl h0
    | cons c w =>
      simp only [List.cons_append]
      rw [if_pos (ws_isWs hw c (by simp)), trim_ws (ws_cons hw)]
      have ih' := ih f (ps ++ [x]) (by simp only [List.length_cons, List.length_append] at hf ⊢; omega) (by simp; omega)
      rw [hl'] at ih' ⊢
      simp only [List.cons_append] at ih' ⊢
      rw [trim_cons hbw']
      dsimp only
      rw [if_neg (isNum_special hb'), ih']
      simp

theorem pointLoop_of {dims : Nat} {after w' : List Byte} (ha : Ends after) (hw' : Ws w') {t : List Byte} {p : List F64}
    (h : IsPosn (Num sd) t p) : ∀ (f : Nat) (ps : List F64), (t ++ w').length < f → ps.length + p.length ≤ 4 →
      pointLoop sd dims after f (t ++ w') ps = .ok (ps ++ p) := by
  induction h with
  | one t x hx =>
    intro f ps hf hp
    obtain ⟨f, rfl⟩ : ∃ g, f = g + 1 := ⟨f - 1, by omega⟩
    have hst : Stop w' := by have := stop_ws hw' stop_nil; rwa [List.append_nil] at this
    have hv := vnumber_of hx.1 hst
    have hc := conv_num hx hst ha
    simp only [List.length_cons, List.length_nil] at hp
    rw [pointLoop, hv]
    simp only [P.bind]
    rw [if_pos (by omega), hc]
    simp only
    cases w' with
    | nil => rfl
    | cons c w' =>
      dsimp only
      rw [if_pos (ws_isWs hw' c (by simp)), trim_ws' hw']
  | cons t x w l p hx hw h0 hl ih =>
    intro f ps hf hp
    obtain ⟨f, rfl⟩ : ∃ g, f = g + 1 := ⟨f - 1, by omega⟩
    obtain ⟨b', u', hl', hb', hbw', -⟩ := posn_head hl
    have hst : Stop (w ++ (l ++ w')) := by
      intro c hc
      cases w with
      | nil => exact absurd rfl h0
      | cons d w =>
        simp only [List.cons_append, List.head?_cons, Option.some.injEq] at hc
        subst hc
        exact .inl (fun e he => by rw [List.mem_singleton] at he; subst he; exact hw _ (by simp))
    have hv := vnumber_of hx.1 hst
    have hc := conv_num hx hst ha
    simp only [List.length_cons] at hp
    simp only [List.append_assoc] at hv hc hf ⊢
    rw [pointLoop, hv]
    simp only [P.bind]
    rw [if_pos (by omega)]
    simp only [List.append_assoc] at hc ⊢
    rw [hc]
    simp only
    cases w with
    | nil => exact absurd rfl h0
    | cons c w =>
      simp only [List.cons_append]
      rw [if_pos (ws_isWs hw c (by simp))]
      have e1 : trim (c :: (w ++ (l ++ w'))) = l ++ w' := by
        rw [← List.cons_append, trim_ws hw, hl', List.cons_append, trim_cons hbw']
      have ih' := ih f (ps ++ [x]) (by simp only [List.length_cons, List.length_append] at hf ⊢; omega) (by simp; omega)
      rw [e1]
      split
      · rename_i h; rw [hl'] at h; cases h
      · rename_i r hr
        rw [ih']; simp

theorem items_head {N : List Byte → F64 → Prop} {l : List Byte} {ps : List (List F64)} (h : IsItems (IsPosn N) l ps) : ps ≠ [] := by
  cases h <;> simp

/-- One position, without parentheses around it. -/
theorem posnLoop_of {D : Nat} (hD : 2 ≤ D ∧ D ≤ 4) {after : List Byte} (ha : Ends after) {l : List Byte} {ps : List (List F64)}
    (h : IsItems (IsPosn (Num sd)) l ps) (hp : ∀ p ∈ ps, p.length = D) : ∀ (f dims : Nat), l.length < f → dims = 0 ∨ dims = D →
      posnLoop sd false after f dims (trim l) = .ok (D, ps) ∧ ∃ b u, trim l = b :: u ∧ b ≠ 0x28#8 := by
  induction h with
  | one w t w' p hw ht hw' =>
    intro f dims hf hd
    obtain ⟨f, rfl⟩ : ∃ g, f = g + 1 := ⟨f - 1, by omega⟩
    obtain ⟨b, u, hb, hbn, hbw, hb2⟩ := posn_head ht
    have e1 : trim (w ++ (t ++ w')) = b :: (u ++ w') := by rw [trim_ws hw, hb, List.cons_append, trim_cons hbw]
    refine ⟨?_, b, _, e1, hb2⟩
    have hpl := hp p (by simp)
    have hn := numLoop_of (dims := dims) ha hw' (.inl rfl) ht ((b :: (u ++ w')).length + 1) [] (by rw [hb]; simp) (by simp; omega)
    rw [List.append_nil, hb, List.cons_append] at hn
    rw [e1, posnLoop.eq_def]
    simp only [expect, Bool.false_eq_true, if_false, P.bind]
    rw [hn]
    simp only [comma, List.nil_append]
    rw [if_neg (by rintro ⟨h1, h2⟩; rcases hd with rfl | rfl; exact h2 ⟨rfl, by omega⟩; exact h1 hpl.symm)]
    have : posnLoop sd false after f p.length [] = .ok (p.length, []) := by
      obtain ⟨f, rfl⟩ : ∃ g, f = g + 1 := ⟨f - 1, by
        have : 0 < (w ++ (t ++ w')).length := by rw [hb]; simp
        omega⟩
      rw [posnLoop.eq_def]
    rw [this, hpl]
  | cons w t w' p l ps hw ht hw' hl ih =>
    intro f dims hf hd
    obtain ⟨f, rfl⟩ : ∃ g, f = g + 1 := ⟨f - 1, by omega⟩
    obtain ⟨b, u, hb, hbn, hbw, hb2⟩ := posn_head ht
    have e1 : trim (w ++ (t ++ (w' ++ 0x2C#8 :: l))) = b :: (u ++ (w' ++ 0x2C#8 :: l)) := by rw [trim_ws hw, hb, List.cons_append, trim_cons hbw]
    refine ⟨?_, b, _, e1, hb2⟩
    have hpl := hp p (by simp)
    have hn := numLoop_of (dims := dims) (k := 0x2C#8 :: l) ha hw' (.inr ⟨l, .inl rfl⟩) ht ((b :: (u ++ (w' ++ 0x2C#8 :: l))).length + 1) [] (by rw [hb]; simp) (by simp; omega)
    rw [hb, List.cons_append] at hn
    obtain ⟨i1, b', u', i2, i3⟩ := ih (fun q hq => hp q (by simp [hq])) f D (by simp only [List.length_append, List.length_cons] at hf; omega) (.inr rfl)
    rw [e1, posnLoop.eq_def]
    simp only [expect, Bool.false_eq_true, if_false, P.bind]
    rw [hn]
    simp only [comma, List.nil_append, if_true]
    rw [i2]
    simp only
    rw [if_neg (by rintro ⟨h1, h2⟩; rcases hd with rfl | rfl; exact h2 ⟨rfl, by omega⟩; exact h1 hpl.symm), hpl, ← i2, i1]

/-- Positions in parentheses, as in a MultiPoint. -/
theorem posnLoop_paren {D : Nat} (hD : 2 ≤ D ∧ D ≤ 4) {after : List Byte} (ha : Ends after) {l : List Byte} {ps : List (List F64)}
    (h : IsItems (Paren fun l p => IsItems (IsPosn (Num sd)) l [p]) l ps) (hp : ∀ p ∈ ps, p.length = D) : ∀ (f dims : Nat), l.length < f → dims = 0 ∨ dims = D →
      posnLoop sd true after f dims (trim l) = .ok (D, ps) ∧ ∃ u, trim l = 0x28#8 :: u := by
  have one : ∀ (t : List Byte) (p : List F64), IsItems (IsPosn (Num sd)) t [p] → ∃ w t' w', Ws w ∧ IsPosn (Num sd) t' p ∧ Ws w' ∧ t = w ++ (t' ++ w') := by
    intro t p h
    cases h with
    | one w t' w' a hw ht hw' => exact ⟨w, t', w', hw, ht, hw', rfl⟩
    | cons w t' w' a l' as hw ht hw' hl => cases hl
  induction h with
  | one w t w' p hw ht hw' =>
    intro f dims hf hd
    obtain ⟨f, rfl⟩ : ∃ g, f = g + 1 := ⟨f - 1, by omega⟩
    obtain ⟨x, hx, rfl⟩ := ht
    obtain ⟨v, t, v', hv, ht, hv', rfl⟩ := one _ _ hx
    obtain ⟨b, u, hb, hbn, hbw, hb2⟩ := posn_head ht
    have e1 : trim (w ++ (0x28#8 :: (v ++ (t ++ v') ++ [0x29#8]) ++ w')) = 0x28#8 :: (v ++ (t ++ (v' ++ (0x29#8 :: w')))) := by
      rw [trim_ws hw, List.cons_append, trim_cons (by decide)]; simp
    refine ⟨?_, _, e1⟩
    have hpl := hp p (by simp)
    have hn := numLoop_of (dims := dims) (k := 0x29#8 :: w') ha hv' (.inr ⟨w', .inr rfl⟩) ht ((t ++ (v' ++ 0x29#8 :: w')).length + 1) [] (by omega) (by simp; omega)
    rw [e1, posnLoop.eq_def]
    simp only [expect, if_true, P.bind]
    have e2 : trim (v ++ (t ++ (v' ++ 0x29#8 :: w'))) = t ++ (v' ++ 0x29#8 :: w') := by rw [trim_ws hv, hb, List.cons_append, trim_cons hbw]
    rw [e2, hn]
    simp only [if_true]
    rw [trim_ws' hw']
    simp only [comma, List.nil_append]
    rw [if_neg (by rintro ⟨h1, h2⟩; rcases hd with rfl | rfl; exact h2 ⟨rfl, by omega⟩; exact h1 hpl.symm)]
    have : posnLoop sd true after f p.length [] = .ok (p.length, []) := by
      obtain ⟨f, rfl⟩ : ∃ g, f = g + 1 := ⟨f - 1, by
        simp only [List.length_append, List.length_cons] at hf
        omega⟩
      rw [posnLoop.eq_def]
    rw [this, hpl]
  | cons w t w' p l ps hw ht hw' hl ih =>
    intro f dims hf hd
    obtain ⟨f, rfl⟩ : ∃ g, f = g + 1 := ⟨f - 1, by omega⟩
    obtain ⟨x, hx, rfl⟩ := ht
    obtain ⟨v, t, v', hv, ht, hv', rfl⟩ := one _ _ hx
    obtain ⟨b, u, hb, hbn, hbw, hb2⟩ := posn_head ht
    have e1 : trim (w ++ (0x28#8 :: (v ++ (t ++ v') ++ [0x29#8]) ++ (w' ++ 0x2C#8 :: l))) = 0x28#8 :: (v ++ (t ++ (v' ++ (0x29#8 :: (w' ++ 0x2C#8 :: l))))) := by
      rw [trim_ws hw, List.cons_append, trim_cons (by decide)]; simp
    refine ⟨?_, _, e1⟩
    have hpl := hp p (by simp)
    have hn := numLoop_of (dims := dims) (k := 0x29#8 :: (w' ++ 0x2C#8 :: l)) ha hv' (.inr ⟨_, .inr rfl⟩) ht ((t ++ (v' ++ 0x29#8 :: (w' ++ 0x2C#8 :: l))).length + 1) [] (by omega) (by simp; omega)
    obtain ⟨i1, u', i2⟩ := ih (fun q hq => hp q (by simp [hq])) f D (by simp only [List.length_append, List.length_cons] at hf; omega) (.inr rfl)
    rw [e1, posnLoop.eq_def]
    simp only [expect, if_true, P.bind]
    have e2 : trim (v ++ (t ++ (v' ++ 0x29#8 :: (w' ++ 0x2C#8 :: l)))) = t ++ (v' ++ 0x29#8 :: (w' ++ 0x2C#8 :: l)) := by rw [trim_ws hv, hb, List.cons_append, trim_cons hbw]
    rw [e2, hn]
    simp only [if_true]
    rw [trim_ws hw', trim_cons (by decide)]
    simp only [comma, List.nil_append, if_true]
    rw [i2]
    simp only
    rw [if_neg (by rintro ⟨h1, h2⟩; rcases hd with rfl | rfl; exact h2 ⟨rfl, by omega⟩; exact h1 hpl.symm), hpl, ← i2, i1]

theorem parsePosns_of {base : Base} {D : Nat} (hD : 2 ≤ D ∧ D ≤ 4) {after : List Byte} (ha : Ends after) {l : List Byte} {ps : List (List F64)}
    (h : IsSeries (Num sd) l ps) (hp : ∀ p ∈ ps, p.length = D) (hc : checkBase base (ps.map ptOf) = none) {dims : Nat} (hd : dims = 0 ∨ dims = D) :
    parsePosns sd base dims l after = .ok (D, ps) := by
  obtain ⟨h1, b, u, h2, h3⟩ := posnLoop_of hD ha h hp (l.length + 1) dims (by omega) hd
  rw [parsePosns, rawPosns.eq_def, h2]
  dsimp only
  rw [show (decide (base = Base.point) && b == 0x28#8) = false by simp [h3], ← h2, h1]
  simp only [P.bind]
  rw [hc]

theorem parsePosns_points {D : Nat} (hD : 2 ≤ D ∧ D ≤ 4) {after : List Byte} (ha : Ends after) {l : List Byte} {ps : List (List F64)}
    (h : IsPoints (Num sd) l ps) (hp : ∀ p ∈ ps, p.length = D) {dims : Nat} (hd : dims = 0 ∨ dims = D) :
    parsePosns sd .point dims l after = .ok (D, ps) := by
  rcases h with h | h
  · exact parsePosns_of hD ha h hp rfl hd
  · obtain ⟨h1, u, h2⟩ := posnLoop_paren hD ha h hp (l.length + 1) dims (by omega) hd
    rw [parsePosns, rawPosns.eq_def, h2]
    dsimp only
    rw [show (decide (Base.point = Base.point) && (0x28#8 : Byte) == 0x28#8) = true by decide, ← h2, h1]
    rfl

/-! ### Groups -/

theorem series_neutral {l : List Byte} {ps : List (List F64)} (h : IsSeries (Num sd) l ps) : Neutral l :=
  items_neutral (fun _ _ h => (posn_flat h).neutral) h
theorem rings_neutral {l : List Byte} {ps : List (List (List F64))} (h : IsRings (Num sd) l ps) : Neutral l :=
  items_neutral (fun _ _ h => by obtain ⟨x, hx, rfl⟩ := h; exact (series_neutral hx).paren) h
theorem polys_neutral {l : List Byte} {ps : List (List (List (List F64)))} (h : IsPolys (Num sd) l ps) : Neutral l :=
  items_neutral (fun _ _ h => by obtain ⟨x, hx, rfl⟩ := h; exact (rings_neutral hx).paren) h
theorem points_neutral {l : List Byte} {ps : List (List F64)} (h : IsPoints (Num sd) l ps) : Neutral l := by
  rcases h with h | h
  · exact series_neutral h
  · exact items_neutral (fun _ _ h => by obtain ⟨x, hx, rfl⟩ := h; exact (series_neutral hx).paren) h

theorem balance_neutral {g r : List Byte} (h : Neutral g) (ho : opens g ≤ 1023) : balance 1 1 (g ++ 0x29#8 :: r) = some (g, r) :=
  balance_of (h 0) (by omega)

theorem groupLoop_of {α : Type} {inner : Nat → List Byte → List Byte → P (Nat × α)} {L : List Byte → α → Prop} {D : Nat} {Q : α → Prop}
    (hi : ∀ dims g after a, dims = 0 ∨ dims = D → L g a → Q a → Ends after → opens g ≤ 1023 → inner dims g after = .ok (D, a))
    (hL : ∀ g a, L g a → Neutral g) (after : List Byte) {l : List Byte} {as : List α} (h : IsItems (Paren L) l as) (hQ : ∀ a ∈ as, Q a) (ho : opens l ≤ 1023) :
    ∀ (f dims : Nat), l.length < f → dims = 0 ∨ dims = D → groupLoop inner after f dims (trim l) = .ok (D, as) ∧ ∃ u, trim l = 0x28#8 :: u := by
  induction h with
  | one w t w' a hw ht hw' =>
    intro f dims hf hd
    obtain ⟨f, rfl⟩ : ∃ g, f = g + 1 := ⟨f - 1, by omega⟩
    obtain ⟨x, hx, rfl⟩ := ht
    have e1 : trim (w ++ (0x28#8 :: (x ++ [0x29#8]) ++ w')) = 0x28#8 :: (x ++ 0x29#8 :: w') := by
      rw [trim_ws hw, List.cons_append, trim_cons (by decide)]; simp
    refine ⟨?_, _, e1⟩
    have hxo : opens x ≤ 1023 := by
      simp only [opens_append, opens_cons, List.cons_append] at ho; omega
    rw [e1, groupLoop.eq_def]
    dsimp only
    rw [if_pos rfl, balance_neutral (hL _ _ hx) hxo]
    dsimp only
    rw [hi dims x _ a hd hx (hQ a (by simp)) ⟨_, rfl⟩ hxo]
    simp only [P.bind]
    rw [trim_ws' hw']
  | cons w t w' a l as hw ht hw' hl ih =>
    intro f dims hf hd
    obtain ⟨f, rfl⟩ : ∃ g, f = g + 1 := ⟨f - 1, by omega⟩
    obtain ⟨x, hx, rfl⟩ := ht
    have e1 : trim (w ++ (0x28#8 :: (x ++ [0x29#8]) ++ (w' ++ 0x2C#8 :: l))) = 0x28#8 :: (x ++ 0x29#8 :: (w' ++ 0x2C#8 :: l)) := by
      rw [trim_ws hw, List.cons_append, trim_cons (by decide)]; simp
    refine ⟨?_, _, e1⟩
    have hxo : opens x ≤ 1023 := by
      simp only [opens_append, opens_cons, List.cons_append] at ho; omega
    obtain ⟨i1, u', i2⟩ := ih (fun a ha => hQ a (by simp [ha])) (by simp only [opens_append, opens_cons, List.cons_append] at ho; omega) f D
      (by simp only [List.length_append, List.length_cons] at hf; omega) (.inr rfl)
    rw [e1, groupLoop.eq_def]
    dsimp only
    rw [if_pos rfl, balance_neutral (hL _ _ hx) hxo]
    dsimp only
    rw [hi dims x _ a hd hx (hQ a (by simp)) ⟨_, rfl⟩ hxo]
    simp only [P.bind]
    rw [trim_ws hw', trim_cons (by decide)]
    simp only [if_true]
    rw [i2]
    simp only
    rw [← i2, i1]

end Tg.Wp
