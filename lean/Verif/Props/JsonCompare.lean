import Verif.Model.JsonCompare
import Verif.Props.JsonCopy
/-!
C93: `json_string_comparen` orders values by the text that `json_string_copy` copies, in the order of the bytes. If the given length is not that of the C string, this fails for
strings with escapes.
-/
namespace Tg

open Json Spec.Json Spec.Geojson

/-- The sign of the number tells the lexicographic order of the texts, with bytes from 0 to 255. -/
def Spec.Json.Orders (s t : List Byte) (r : Int) : Prop := (r = 0 ↔ s = t) ∧ (r < 0 ↔ s < t) ∧ (0 < r ↔ t < s)

theorem Json.orders_cons {x y : Byte} {s t : List Byte} {r : Int} (h : x = y → Orders s t r) : Orders (x :: s) (y :: t) (if x < y then -1 else if y < x then 1 else r) := by
  have e : ∀ a b : Byte, a < b ↔ a.toNat < b.toNat := fun _ _ => BitVec.lt_def
  unfold Orders
  rw [List.cons_lt_cons_iff, List.cons_lt_cons_iff, List.cons.injEq, eq_comm (a := y), ← BitVec.toNat_inj (x := x)]
  simp only [e]
  split_ifs with h1 h2
  · exact ⟨⟨fun h => absurd h (by decide), fun h => by omega⟩, ⟨fun _ => .inl h1, fun _ => by decide⟩, ⟨fun h => absurd h (by decide), fun h => by omega⟩⟩
  · exact ⟨⟨fun h => absurd h (by decide), fun h => by omega⟩, ⟨fun h => absurd h (by decide), fun h => by omega⟩, ⟨fun _ => .inl h2, fun _ => by decide⟩⟩
  · have hxy : x.toNat = y.toNat := by omega
    obtain ⟨a, b, c⟩ := h (BitVec.eq_of_toNat_eq hxy)
    rw [a, b, c]
    refine ⟨⟨fun h => ⟨hxy, h⟩, fun h => h.2⟩, ⟨fun h => .inr ⟨hxy, h⟩, fun h => ?_⟩, ⟨fun h => .inr ⟨hxy, h⟩, fun h => ?_⟩⟩
    · rcases h with h | h
      exacts [absurd h h1, h.2]
    · rcases h with h | h
      exacts [absurd h h2, h.2]

theorem Json.cmpLoop_orders : ∀ s t : List Byte, Orders s t (cmpLoop s t)
  | [], [] => by simp [Orders, cmpLoop]
  | [], y :: t => by simp [Orders, cmpLoop]
  | x :: s, [] => by simp [Orders, cmpLoop]
  | x :: s, y :: t => by
    have := orders_cons (x := x) (y := y) fun _ => cmpLoop_orders s t
    rw [cmpLoop]
    convert this using 1
    have e : ∀ a b : Byte, a < b ↔ a.toNat < b.toNat := fun _ _ => BitVec.lt_def
    simp only [gt_iff_lt, e]
    split_ifs <;> first | rfl | omega

/-- The code of `strcmpn` with the lengths compared last. -/
theorem Json.strcmpn_orders : ∀ s t : List Byte, 0#8 ∉ t → ∃ r, strcmpn s t = some r ∧ Orders s t r
  | [], [], _ => ⟨0, rfl, by simp [Orders]⟩
  | [], y :: t, _ => ⟨-1, by simp [strcmpn, strncmp], by simp [Orders]⟩
  | x :: s, [], _ => ⟨1, by simp [strcmpn, strncmp], by simp [Orders]⟩
  | x :: s, y :: t, h => by
    obtain ⟨r, hr, ho⟩ := strcmpn_orders s t fun hm => h (List.mem_cons_of_mem _ hm)
    refine ⟨_, ?_, orders_cons fun _ => ho⟩
    unfold strcmpn at hr ⊢
    dsimp only at hr ⊢
    have hn : (if (x :: s).length < (y :: t).length then (x :: s).length else (y :: t).length) = (if s.length < t.length then s.length else t.length) + 1 := by
      simp only [List.length_cons]
      split_ifs <;> omega
    rw [hn, strncmp]
    by_cases h1 : x < y
    · rw [if_pos h1, if_pos h1]; rfl
    · rw [if_neg h1, if_neg h1]
      by_cases h2 : y < x
      · rw [if_pos h2, if_pos h2]; rfl
      · rw [if_neg h2, if_neg h2]
        have hxy : x = y := by
          have e : ∀ a b : Byte, a < b ↔ a.toNat < b.toNat := fun _ _ => BitVec.lt_def
          rw [e] at h1 h2
          exact BitVec.eq_of_toNat_eq (by omega)
        rw [if_neg (by rintro rfl; exact h (hxy ▸ List.mem_cons_self))]
        simpa only [List.length_cons, Nat.add_lt_add_iff_right, gt_iff_lt] using hr

/-- C93. For each value there is one text, the one that `json_string_copy` copies. The sign of `json_string_comparen` tells how the text compares byte by byte to the given number of
bytes of the C string, but for strings with escapes to all of the C string. No byte outside of the value or the C string is read. -/
theorem C93_comparen (isjsonstr iesc : Bool) (raw : List Byte) :
    ∃ text : List Byte,
      (∀ str : List Byte, text.length < str.length → ∃ rest, stringCopy isjsonstr iesc raw str = some (text ++ 0#8 :: rest, text.length)) ∧
      ∀ (str : List Byte) (slen : Nat), 0#8 ∉ str → ∃ key, key = (if isjsonstr = true ∧ iesc = true then str else str.take slen) ∧
        ∃ r, stringCompareN isjsonstr iesc raw str slen = some r ∧ (r = 0 ↔ text = key) ∧ (r < 0 ↔ text < key) ∧ (0 < r ↔ key < text) := by
  refine ⟨copied isjsonstr iesc raw, fun str hl => ⟨str.drop ((copied isjsonstr iesc raw).length + 1), ?_⟩, fun str slen hk => ⟨_, rfl, ?_⟩⟩
  · rw [stringCopy_eq, if_neg (by rintro rfl; simp at hl), List.take_of_length_le (by omega),
      show min (copied isjsonstr iesc raw).length (str.length - 1) = (copied isjsonstr iesc raw).length by omega]
  · have len2 : (if raw.length < 2 then 0 else raw.length - 2) = raw.length - 2 := by split_ifs <;> omega
    have hk' : 0#8 ∉ str.take slen := fun h => hk (List.mem_of_mem_take h)
    unfold stringCompareN copied
    cases isjsonstr
    · exact strcmpn_orders raw _ hk'
    · cases iesc
      · dsimp only
        rw [len2]
        exact strcmpn_orders _ _ hk'
      · dsimp only
        rw [len2, utf8Loop_eq _ _ _ (by simp)]
        exact ⟨_, rfl, cmpLoop_orders _ str⟩

/-- C93. The sign of `json_string_compare` with any C string tells how the text that `json_string_copy` copies compares to it byte by byte. -/
theorem C93_compare (isjsonstr iesc : Bool) (raw : List Byte) :
    ∃ text : List Byte,
      (∀ str : List Byte, text.length < str.length → ∃ rest, stringCopy isjsonstr iesc raw str = some (text ++ 0#8 :: rest, text.length)) ∧
      ∀ key : List Byte, 0#8 ∉ key → ∃ r, stringCompare isjsonstr iesc raw key = some r ∧ (r = 0 ↔ text = key) ∧ (r < 0 ↔ text < key) ∧ (0 < r ↔ key < text) := by
  obtain ⟨text, h1, h2⟩ := C93_comparen isjsonstr iesc raw
  refine ⟨text, h1, fun key hk => ?_⟩
  obtain ⟨_, rfl, h⟩ := h2 key key.length hk
  rwa [List.take_length, ite_self] at h

/-- C93. The lookup of a path, `json_getn` in tg.c:7724-7752, passes the length of a part of the path: for the path `a.b` the key is `a`, but the JSON string `"\u0061"`, whose text is
`a`, does not compare equal to it; the same text without an escape does. -/
theorem C93_length_ignored :
    (∀ str : List Byte, 1 < str.length → ∃ rest, stringCopy true true [0x22#8, 0x5C#8, 0x75#8, 0x30#8, 0x30#8, 0x36#8, 0x31#8, 0x22#8] str = some (0x61#8 :: 0#8 :: rest, 1)) ∧
    stringCompareN true true [0x22#8, 0x5C#8, 0x75#8, 0x30#8, 0x30#8, 0x36#8, 0x31#8, 0x22#8] [0x61#8, 0x2E#8, 0x62#8] 1 = some (-1) ∧
    stringCompareN true false [0x22#8, 0x61#8, 0x22#8] [0x61#8, 0x2E#8, 0x62#8] 1 = some 0 := by
  refine ⟨fun str hl => ?_, by decide +kernel, by decide +kernel⟩
  have e : copied true true [0x22#8, 0x5C#8, 0x75#8, 0x30#8, 0x30#8, 0x36#8, 0x31#8, 0x22#8] = [0x61#8] := by decide +kernel
  rw [stringCopy_eq, if_neg (by rintro rfl; simp at hl), e]
  exact ⟨str.drop 2, by rw [List.take_of_length_le (by simp; omega), show min [0x61#8].length (str.length - 1) = 1 by simp; omega]; rfl⟩

/-- C93. The test for equality in the model of the parsers and writers is this comparison. -/
theorem C93_equal (j : J) (hj : (rawOf (some j)).length = rawLen (some j)) (key : List Byte) (hk : 0#8 ∉ key) :
    ∃ r, stringCompare (isStr (some j)) j.esc (rawOf (some j)) key = some r ∧ (r = 0 ↔ strEq (some j) key = true) := by
  obtain ⟨text, hc, h⟩ := C93_compare (isStr (some j)) j.esc (rawOf (some j))
  obtain ⟨r, h1, h2, -⟩ := h key hk
  refine ⟨r, h1, h2.trans ?_⟩
  have ht : text = copied (isStr (some j)) j.esc (rawOf (some j)) := by
    let m := text.length + (copied (isStr (some j)) j.esc (rawOf (some j))).length + 1
    obtain ⟨rest, e⟩ := hc (List.replicate m 0#8) (by simp [m]; omega)
    rw [stringCopy_eq, Option.some.injEq, Prod.mk.injEq, if_neg (by simp [m]), List.take_of_length_le (by simp [m])] at e
    exact (List.append_inj_left e.1 e.2).symm
  rw [ht]
  unfold strEq copied
  rw [hj]
  cases isStr (some j) <;> cases hE : j.esc <;> simp [hE]

/-- `"ab"` is before `"b"` and after `"a"`. -/
example : stringCompare true true [0x22#8, 0x5C#8, 0x75#8, 0x30#8, 0x30#8, 0x36#8, 0x31#8, 0x62#8, 0x22#8] [0x62#8] = some (-1) ∧
    stringCompare true true [0x22#8, 0x5C#8, 0x75#8, 0x30#8, 0x30#8, 0x36#8, 0x31#8, 0x62#8, 0x22#8] [0x61#8] = some 1 ∧
    stringCompare true true [0x22#8, 0x5C#8, 0x75#8, 0x30#8, 0x30#8, 0x36#8, 0x31#8, 0x62#8, 0x22#8] [0x61#8, 0x62#8] = some 0 := by decide +kernel

end Tg
