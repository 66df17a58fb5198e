import Verif.Model.JsonBool
import Verif.Props.JsonCompare
/-!
C95: what `json_bool` returns.
-/
namespace Tg

open Json Spec.Double

theorem Json.boolLoop_iff (iesc : Bool) (raw text : List Byte)
    (h : ∀ key : List Byte, 0#8 ∉ key → ∃ r, stringCompare true iesc raw key = some r ∧ (r = 0 ↔ text = key)) :
    ∀ ss : List (List Byte), (∀ s ∈ ss, 0#8 ∉ s) → boolLoop iesc raw ss = some (decide (text ∈ ss))
  | [], _ => by simp [boolLoop]
  | s :: ss, hs => by
    obtain ⟨r, h1, h2⟩ := h s (hs s List.mem_cons_self)
    rw [boolLoop, h1]
    dsimp only
    by_cases hr : r = 0
    · rw [if_pos hr, h2.1 hr]; simp
    · rw [if_neg hr, boolLoop_iff iesc raw text h ss fun s' hm => hs s' (List.mem_cons_of_mem _ hm)]
      have : text ≠ s := fun e => hr (h2.2 e)
      simp [this]

/-- C95. A string counts as true exactly if the text that `json_string_copy` copies is `1`, `t`, `T`, `true`, `TRUE` or `True`, however it is escaped. No byte outside of it is read. -/
theorem C95_string (sd : List Byte → F64 × Nat) (iesc : Bool) (raw : List Byte) :
    ∃ (text : List Byte) (b : Bool),
      (∀ str : List Byte, text.length < str.length → ∃ rest, stringCopy true iesc raw str = some (text ++ 0#8 :: rest, text.length)) ∧
      Json.bool sd .string iesc raw = some b ∧
      (b = true ↔ text = txt "1" ∨ text = txt "t" ∨ text = txt "T" ∨ text = txt "true" ∨ text = txt "TRUE" ∨ text = txt "True") := by
  obtain ⟨text, h1, h2⟩ := C93_compare true iesc raw
  refine ⟨text, _, h1, boolLoop_iff iesc raw text (fun key hk => ?_) trues (by decide), by simp [trues]⟩
  obtain ⟨r, a, b, -⟩ := h2 key hk
  exact ⟨r, a, b⟩

/-- C95. A number counts as true exactly if the double that is read is not zero: neither zero nor negative zero. NaN and what is infinite count as true. A number of 512 bytes or more and one that
`strtod` does not read as a whole count as false. -/
theorem C95_number (sd : List Byte → F64 × Nat) (iesc : Bool) (raw : List Byte) :
    ∃ b, Json.bool sd .number iesc raw = some b ∧
      (b = true ↔ raw.length < 512 ∧ (sd raw).2 = raw.length ∧ (sd raw).1 ≠ 0#64 ∧ (sd raw).1 ≠ 0x8000000000000000#64) := by
  refine ⟨_, rfl, ?_⟩
  have key : ∀ y : F64, F64.feq y 0#64 = true ↔ y = 0#64 ∨ y = 0x8000000000000000#64 := by
    intro y
    have n0 : F64.isNaN 0#64 = false := by decide
    constructor
    · intro h
      simp only [F64.feq, n0, Bool.and_eq_true, Bool.or_eq_true, beq_iff_eq, BitVec.or_zero] at h
      rcases h.2 with h | h
      · exact .inl h
      · have h' : ∀ i : Nat, i < 63 → y.getLsbD i = false := by
          intro i hi
          have := congrArg (fun z => z.getLsbD i) h
          have m : (0x7fffffffffffffff#64).getLsbD i = true := (by decide : ∀ i < 63, (0x7fffffffffffffff#64).getLsbD i = true) i hi
          simpa [m] using this
        by_cases c : y.getLsbD 63
        · right
          apply BitVec.eq_of_getLsbD_eq
          intro i hi
          by_cases hi' : i < 63
          · rw [h' i hi']
            exact ((by decide : ∀ i < 63, (0x8000000000000000#64).getLsbD i = false) i hi').symm
          · have : i = 63 := by omega
            subst this; rw [c]; decide
        · left
          apply BitVec.eq_of_getLsbD_eq
          intro i hi
          by_cases hi' : i < 63
          · rw [h' i hi']; simp
          · have : i = 63 := by omega
            subst this; simpa using c
    · rintro (rfl | rfl) <;> decide
  rw [Bool.not_eq_true', ← Bool.not_eq_true, key, double, Gp.parseDouble]
  split_ifs with h1 h2
  · simp; omega
  · simp [h2]; omega
  · simp [h2]

/-- C95. `true` counts as true; objects, arrays, `false`, `null` and what does not exist count as false. -/
theorem C95_other (sd : List Byte → F64 × Nat) (iesc : Bool) (raw : List Byte) : Json.bool sd .true iesc raw = some true ∧ Json.bool sd .other iesc raw = some false := ⟨rfl, rfl⟩

/-- `"\u0074rue"` counts as true, `"tru"` does not; a number that is read as 1 counts as true, one that is read as -0 does not. -/
example (sd : List Byte → F64 × Nat) : Json.bool sd .string true (txt "\"\\u0074rue\"") = some true ∧ Json.bool sd .string false (txt "\"tru\"") = some false ∧
    Json.bool (fun _ => (0x3FF0000000000000#64, 1)) .number false (txt "1") = some true ∧
    Json.bool (fun _ => (0x8000000000000000#64, 2)) .number false (txt "-0") = some false := by
  refine ⟨?_, ?_, by decide, by decide⟩
  · show boolLoop true (txt "\"\\u0074rue\"") trues = some true
    decide +kernel
  · show boolLoop false (txt "\"tru\"") trues = some false
    decide +kernel

end Tg
