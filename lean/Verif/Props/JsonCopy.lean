import Verif.Model.JsonCopy
import Verif.Model.GeojsonParse
import Verif.Lemmas.GeojsonNav
import Verif.Props.JsonEscape
/-!
C92: `json_string_copy` stays within its block and within the string, and gives back what `json_escapen` was given.
-/
namespace Tg

open Json Spec.Json Spec.Geojson Gp

theorem Json.hexAt_some {a : List Byte} {i : Nat} {h1 h2 h3 h4 : Byte} {t : List Byte} (h : a.drop i = h1 :: h2 :: h3 :: h4 :: t) : hexAt a i = some (hex4 h1 h2 h3 h4) := by
  have g : ∀ k, a[i + k]? = (a.drop i)[k]? := fun k => by rw [List.getElem?_drop]
  have g0 := g 0
  rw [hexAt, show a[i]? = a[i + 0]? from rfl, g 0, g 1, g 2, g 3, h]
  rfl

/-- The loop does not leave the string and yields what `unescape` does. -/
theorem Json.utf8Loop_eq (a : List Byte) : ∀ (k ii : Nat), a.length - ii < k → utf8Loop a k ii = some (unescape (a.drop ii))
  | 0, _, h => by omega
  | k + 1, ii, h => by
    have g : ∀ m, a[ii + m]? = (a.drop ii)[m]? := fun m => by rw [List.getElem?_drop]
    have dl : (a.drop ii).length = a.length - ii := List.length_drop
    have dd : ∀ m, a.drop (ii + m) = (a.drop ii).drop m := fun m => by rw [List.drop_drop]
    rw [utf8Loop]
    by_cases hi : ii < a.length
    swap
    · rw [if_neg hi, List.drop_eq_nil_of_le (by omega), unescape]
    rw [if_pos hi]
    have g0 := g 0
    rw [Nat.add_zero] at g0
    have hrec : ∀ m, 0 < m → utf8Loop a k (ii + m) = some (unescape ((a.drop ii).drop m)) := fun m hm => by
      rw [utf8Loop_eq a k (ii + m) (by omega), dd]
    have e1 : ii + 1 + 1 = ii + 2 := rfl
    have e5 : ii + 1 + 5 = ii + 6 := by omega
    have e6 : ii + 6 + 6 = ii + 12 := by omega
    have e7 : ii + 6 + 1 = ii + 7 := by omega
    have e8 : ii + 6 + 2 = ii + 8 := by omega
    rw [e1, e5, e6, e7, e8, g0, g 1, g 6, g 7, hrec 1 (by omega), hrec 2 (by omega), hrec 6 (by omega), hrec 12 (by omega)]
    have h2 : ∀ {h1 h2 h3 h4 : Byte} {t : List Byte}, (a.drop ii).drop 2 = h1 :: h2 :: h3 :: h4 :: t → hexAt a (ii + 2) = some (hex4 h1 h2 h3 h4) := fun e =>
      hexAt_some (by rw [dd, e])
    have h8 : ∀ {h1 h2 h3 h4 : Byte} {t : List Byte}, (a.drop ii).drop 8 = h1 :: h2 :: h3 :: h4 :: t → hexAt a (ii + 8) = some (hex4 h1 h2 h3 h4) := fun e =>
      hexAt_some (by rw [dd, e])
    generalize a.drop ii = l at *
    match l, dl with
    | [], dl => simp at dl; omega
    | c :: t, dl =>
      show (if c ≠ 0x5C#8 then _ else _) = _
      by_cases hc : c = 0x5C#8
      swap
      · rw [if_pos hc, unescape_plain hc]; rfl
      subst hc
      rw [if_neg (by simp)]
      match t, dl with
      | [], dl =>
        rw [if_pos (by simp at dl; omega)]
        simp [unescape]
      | c :: t, dl =>
        rw [if_neg (by simp at dl; omega)]
        show (if c = 0x75#8 then _ else _) = _
        by_cases hu : c = 0x75#8
        swap
        · rw [if_neg hu, unescape_esc hu]
          cases escChr c <;> rfl
        subst hu
        rw [if_pos rfl]
        match t, dl with
        | [], dl => rw [if_pos (by simp at dl; omega)]; simp [unescape]
        | [_], dl => rw [if_pos (by simp at dl; omega)]; simp [unescape]
        | [_, _], dl => rw [if_pos (by simp at dl; omega)]; simp [unescape]
        | [_, _, _], dl => rw [if_pos (by simp at dl; omega)]; simp [unescape]
        | b1 :: b2 :: b3 :: b4 :: t, dl =>
          rw [if_neg (by simp at dl; omega), h2 rfl]
          dsimp only
          by_cases hp : ∃ g1 g2 g3 g4 t', t = 0x5C#8 :: 0x75#8 :: g1 :: g2 :: g3 :: g4 :: t'
          · obtain ⟨g1, g2, g3, g4, t', rfl⟩ := hp
            rw [unescape.eq_2]
            have hn : decide (a.length - (ii + 6) ≥ 6) = true := by simp at dl ⊢; omega
            rw [hn]
            cases hs : isSurr (hex4 b1 b2 b3 b4)
            · rfl
            · rw [h8 rfl]; rfl
          · rw [unescape.eq_3 _ _ _ _ _ fun g1 g2 g3 g4 t' e => hp ⟨g1, g2, g3, g4, t', e⟩]
            rw [if_neg]
            · rfl
            · intro hh
              simp only [Bool.and_eq_true, decide_eq_true_eq, beq_iff_eq, List.getElem?_cons_succ] at hh
              obtain ⟨-, h6, i1, i2⟩ := hh
              match t, dl, i1, i2, h6 with
              | [], _, i1, _, _ => simp at i1
              | [_], _, _, i2, _ => simp at i2
              | x :: y :: t, dl, i1, i2, h6 =>
                simp only [List.getElem?_cons_zero, List.getElem?_cons_succ, Option.some.injEq] at i1 i2
                subst i1 i2
                match t, dl with
                | [], dl => simp at dl; omega
                | [_], dl => simp at dl; omega
                | [_, _], dl => simp at dl; omega
                | [_, _, _], dl => simp at dl; omega
                | g1 :: g2 :: g3 :: g4 :: t', _ => exact hp ⟨g1, g2, g3, g4, t', rfl⟩

theorem Json.copyLoop_eq {m : List Byte} : ∀ (cs w : List Byte), copyLoop m.length cs (w.take m.length ++ m.drop w.length) w.length =
    some ((w ++ cs).take m.length ++ m.drop (w ++ cs).length, (w ++ cs).length)
  | [], w => by simp [copyLoop]
  | c :: cs, w => by
    have ih := copyLoop_eq (m := m) cs (w ++ [c])
    rw [List.append_assoc, List.singleton_append] at ih
    rw [copyLoop, ← ih]
    by_cases h : w.length < m.length
    · rw [if_pos h, if_pos (by simp; omega)]
      rw [List.take_of_length_le (by omega), List.set_append_right _ _ (by omega), Nat.sub_self, List.drop_eq_getElem_cons h, List.set_cons_zero,
        List.take_of_length_le (by simp; omega)]
      simp
    · rw [if_neg h, List.take_append_of_le_length (by omega), List.drop_eq_nil_of_le (by omega), List.drop_eq_nil_of_le (by simp; omega)]
      simp

/-- The text that `json_string_copy` copies. -/
def Json.copied (isjsonstr iesc : Bool) (raw : List Byte) : List Byte :=
  if isjsonstr then (if iesc then unescape ((raw.drop 1).take (raw.length - 2)) else (raw.drop 1).take (raw.length - 2)) else raw

theorem Json.stringCopy_eq (isjsonstr iesc : Bool) (raw str : List Byte) : stringCopy isjsonstr iesc raw str =
    some (if str = [] then [] else (copied isjsonstr iesc raw).take (str.length - 1) ++
      0#8 :: str.drop (min (copied isjsonstr iesc raw).length (str.length - 1) + 1), (copied isjsonstr iesc raw).length) := by
  have len2 : (if raw.length < 2 then 0 else raw.length - 2) = raw.length - 2 := by split_ifs <;> omega
  have plain : ∀ (r : List Byte) (len : Nat), len ≤ r.length →
      (if str.length = 0 then some (str, len) else
        if (if str.length - 1 < len then str.length - 1 else len) ≤ r.length ∧ (if str.length - 1 < len then str.length - 1 else len) < str.length then
          some (r.take (if str.length - 1 < len then str.length - 1 else len) ++ 0#8 :: str.drop ((if str.length - 1 < len then str.length - 1 else len) + 1), len) else none) =
      some (if str = [] then [] else (r.take len).take (str.length - 1) ++ 0#8 :: str.drop (min (r.take len).length (str.length - 1) + 1), (r.take len).length) := by
    intro r len hr
    have hm : (if str.length - 1 < len then str.length - 1 else len) = min len (str.length - 1) := by split_ifs <;> omega
    have hl : (r.take len).length = len := by simp; omega
    rw [hm, hl]
    by_cases he : str = []
    · subst he; simp
    · have := List.length_pos_iff.2 he
      rw [if_neg (by omega), if_pos (by omega), if_neg he, List.take_take, Nat.min_comm len]
  unfold stringCopy copied
  cases isjsonstr
  · have := plain raw raw.length le_rfl
    rw [List.take_length] at this
    exact this
  · cases iesc
    · dsimp only
      rw [if_pos rfl, if_pos rfl, len2]
      exact plain (raw.drop 1) (raw.length - 2) (by simp; omega)
    · dsimp only
      rw [if_pos rfl, if_pos rfl, len2, utf8Loop_eq _ _ _ (by simp)]
      simp only [Bool.and_self, Bool.not_true, Bool.false_eq_true, if_false, List.drop_zero, if_true]
      generalize unescape (List.take (raw.length - 2) (List.drop 1 raw)) = s
      have hc := copyLoop_eq (m := str) s []
      simp only [List.take_nil, List.length_nil, List.drop_zero, List.nil_append] at hc
      rw [hc]
      dsimp only
      by_cases he : str = []
      · subst he; simp
      have hp := List.length_pos_iff.2 he
      rw [if_neg he]
      by_cases hs : str.length > s.length
      · rw [if_pos hs, if_pos (by simp; omega), List.take_of_length_le (by omega), List.set_append_right _ _ (by omega), Nat.sub_self,
          List.drop_eq_getElem_cons hs, List.set_cons_zero, List.take_of_length_le (by omega), show min s.length (str.length - 1) = s.length by omega]
      · rw [if_neg hs, if_pos hp, if_pos (by simp; omega)]
        congr 2
        rw [List.drop_eq_nil_of_le (by omega), List.append_nil, show min s.length (str.length - 1) + 1 = str.length by omega, List.drop_length]
        have : s.take str.length = s.take (str.length - 1) ++ [s[str.length - 1]'(by omega)] := by
          have := List.take_concat_get' s (str.length - 1) (by omega)
          rw [Nat.sub_add_cancel hp] at this
          exact this.symm
        rw [this, List.set_append_right _ _ (by simp)]
        simp
        rw [show str.length - 1 - min (str.length - 1) s.length = 0 by omega]
        rfl

/-- C92. For each value there is one text, such that `json_string_copy` into a block of any size returns the length of the text, writes as much of it as fits with a final
zero, changes nothing behind that and nothing outside the block, and reads no byte outside of the string; `json_string_length` is the length of the text. The text of a string token is
what the token spells, if the flag is set that the token has escapes, or it has none. -/
theorem C92_copy (isjsonstr iesc : Bool) (raw : List Byte) :
    ∃ text : List Byte, (isjsonstr = false → text = raw) ∧
      (∀ cs s, isjsonstr = true → raw = 0x22#8 :: (cs ++ [0x22#8]) → Spells cs s → iesc = true ∨ 0x5C#8 ∉ cs → text = s) ∧
      stringLength isjsonstr iesc raw = some text.length ∧
      ∀ str : List Byte, stringCopy isjsonstr iesc raw str =
        some (if str = [] then [] else text.take (str.length - 1) ++ 0#8 :: str.drop (min text.length (str.length - 1) + 1), text.length) := by
  refine ⟨copied isjsonstr iesc raw, ?_, ?_, ?_, stringCopy_eq _ _ _⟩
  · rintro rfl; rfl
  · rintro cs s rfl rfl hs hc
    have hb : ((0x22#8 :: (cs ++ [0x22#8])).drop 1).take ((0x22#8 :: (cs ++ [0x22#8])).length - 2) = cs := by simp
    unfold copied
    rw [if_pos rfl, hb]
    have he := spells_unescape hs
    cases iesc
    · have hc : 0x5C#8 ∉ cs := by simpa using hc
      have := unescape_plains (l := cs) (fun b hb e => hc (e ▸ hb)) []
      rw [List.append_nil, unescape, List.append_nil, he] at this
      simp [this]
    · simpa using he
  · have len2 : (if raw.length < 2 then 0 else raw.length - 2) = raw.length - 2 := by split_ifs <;> omega
    unfold stringLength copied
    cases isjsonstr
    · rfl
    · cases iesc
      · dsimp only
        rw [len2]
        simp
        omega
      · dsimp only
        rw [len2, utf8Loop_eq _ _ _ (by simp)]
        rfl

/-- C92. What `json_escapen` is given, `json_string_copy` gives back, if it is ASCII and UTF-8 without U+10FFFF. -/
theorem C92_round_trip (str : List Byte) (h : Clean str) :
    ∃ tok, (∀ esc : List Byte, tok.length < esc.length → ∃ rest, jsonEscapen str esc = some (tok ++ 0#8 :: rest, tok.length)) ∧
      ∀ out : List Byte, str.length < out.length → ∃ rest, stringCopy true true tok out = some (str ++ 0#8 :: rest, str.length) := by
  obtain ⟨tok, cs, e, -, -, -, hs, hw⟩ := C91_escape str
  obtain ⟨text, -, ht, -, hc⟩ := C92_copy true true tok
  obtain rfl := ht cs str rfl e (hs h) (.inl rfl)
  refine ⟨tok, fun esc hl => ⟨esc.drop (tok.length + 1), ?_⟩, fun out hl => ⟨out.drop (text.length + 1), ?_⟩⟩
  · rw [hw esc, if_neg (by rintro rfl; simp at hl), List.take_of_length_le (by omega), show min tok.length (esc.length - 1) = tok.length by omega]
  · rw [hc out, if_neg (by rintro rfl; simp at hl), List.take_of_length_le (by omega), show min text.length (out.length - 1) = text.length by omega]

/-- C92. The C string left in the block is the one the model of the GeoJSON parser uses. -/
theorem C92_parser (j : J) (hj : (rawOf (some j)).length = rawLen (some j)) (str : List Byte) (hn : str ≠ []) :
    ∃ mem count, stringCopy (isStr (some j)) j.esc (rawOf (some j)) str = some (mem, count) ∧ mem.takeWhile (· != 0#8) = copyStr (some j) str.length := by
  refine ⟨_, _, stringCopy_eq _ _ _ _, ?_⟩
  rw [if_neg hn]
  have hz : ∀ l r : List Byte, (l ++ 0#8 :: r).takeWhile (· != 0#8) = l.takeWhile (· != 0#8) := by
    intro l r
    induction l with
    | nil => simp
    | cons b l ih => simp only [List.cons_append, List.takeWhile_cons]; split <;> simp_all
  rw [hz]
  unfold copyStr copied
  rw [hj]

/-- `C92_parser` applies: a string `"P"` in a text that goes on. -/
example : (rawOf (some ⟨[0x22#8, 0x50#8, 0x22#8, 0x20#8, 0x7D#8], 3, false⟩)).length = rawLen (some ⟨[0x22#8, 0x50#8, 0x22#8, 0x20#8, 0x7D#8], 3, false⟩) := by decide

/-- The token `"\u003cé\""` and blocks of four and six bytes; `C92_round_trip` applies to this text (`S.esc_clean`). -/
example : stringCopy true true [0x22#8, 0x5C#8, 0x75#8, 0x30#8, 0x30#8, 0x33#8, 0x63#8, 0xC3#8, 0xA9#8, 0x5C#8, 0x22#8, 0x22#8] [1#8, 1#8, 1#8, 1#8] = some ([0x3C#8, 0xC3#8, 0xA9#8, 0#8], 4) ∧
    stringCopy true true [0x22#8, 0x5C#8, 0x75#8, 0x30#8, 0x30#8, 0x33#8, 0x63#8, 0xC3#8, 0xA9#8, 0x5C#8, 0x22#8, 0x22#8] [1#8, 1#8, 1#8, 1#8, 1#8, 1#8] =
      some ([0x3C#8, 0xC3#8, 0xA9#8, 0x22#8, 0#8, 1#8], 4) := by decide +kernel

end Tg
