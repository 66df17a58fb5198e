import Verif.Lemmas.JsonText
/-!
Properties C16 and C17: the JSON validator.
-/
namespace Tg
open Spec.Json Json

/-! ### transfer between the two kinds of strings -/

namespace Json

theorem chrs_to_tg {cs} (h : Chrs Utf8 cs) (hn : ¬ ([0xF4, 0x8F, 0xBF, 0xBF] : List Byte) <:+: cs) : Chrs TgUtf8 cs := by
  induction h with
  | nil => exact .nil
  | cons c l hc hl ih =>
    refine .cons _ _ ?_ (ih fun hi => hn (hi.trans ⟨c, [], by simp⟩))
    cases hc with
    | ascii b a1 a2 a3 a4 => exact .ascii b a1 a2 a3 a4
    | multi _ hu =>
      refine .multi _ (Utf8.to_tg hu ?_)
      rintro rfl
      exact hn ⟨[], l, by simp [utf8]⟩
    | esc b h => exact .esc b h
    | uesc a b c d h1 h2 h3 h4 => exact .uesc a b c d h1 h2 h3 h4

theorem str_to_tg {s} (h : Str s) (hn : ¬ ([0xF4, 0x8F, 0xBF, 0xBF] : List Byte) <:+: s) : TgStr s := by
  obtain ⟨cs, hc, rfl⟩ := h
  refine ⟨cs, [0x22], chrs_to_tg hc fun hi => hn (hi.trans ⟨[0x22], [0x22], rfl⟩), .inl rfl, rfl⟩

/-- `v` occurs in `d`, and what follows it can follow a value. -/
def At (d v : List Byte) : Prop := ∃ p k, d = p ++ (v ++ k) ∧ Follow k

theorem At.sub {d v v'} (h : At d v') (p k : List Byte) (he : v' = p ++ (v ++ k)) (hk : ∀ k', Follow k' → Follow (k ++ k')) :
    At d v := by
  obtain ⟨p', k', rfl, hf⟩ := h
  exact ⟨p' ++ p, k ++ k', by simp [he], hk k' hf⟩

mutual
theorem val_mono {S T : List Byte → Prop} {d : List Byte} (hST : ∀ s, S s → At d s → T s) :
    ∀ {r v}, Val S r v → At d v → Val T r v
  | _, _, .null r, _ => .null r
  | _, _, .true_ r, _ => .true_ r
  | _, _, .false_ r, _ => .false_ r
  | _, _, .num r l h, _ => .num r l h
  | _, _, .str r l h, hi => .str r l (hST l h hi)
  | _, _, .arr0 r w h, _ => .arr0 r w h
  | _, _, .arr r l h, hi =>
    .arr r l (elems_mono hST h (hi.sub [0x5B] [0x5D] rfl fun _ _ => follow_close _))
  | _, _, .obj0 r w h, _ => .obj0 r w h
  | _, _, .obj r l h, hi =>
    .obj r l (mems_mono hST h (hi.sub [0x7B] [0x7D] rfl fun _ _ => follow_brace _))
theorem elems_mono {S T : List Byte → Prop} {d : List Byte} (hST : ∀ s, S s → At d s → T s) :
    ∀ {r v}, Elems S r v → At d v → Elems T r v
  | _, _, .one r w v w' hw hv hw', hi =>
    .one r w v w' hw (val_mono hST hv (hi.sub w w' rfl fun _ h => follow_ws hw' h)) hw'
  | _, _, .cons r w v w' l hw hv hw' hl, hi =>
    .cons r w v w' l hw (val_mono hST hv (hi.sub w (w' ++ 0x2C :: l) rfl fun k _ => by
        rw [List.append_assoc]; exact follow_ws hw' (follow_comma _))) hw'
      (elems_mono hST hl (hi.sub (w ++ (v ++ (w' ++ [0x2C]))) [] (by simp) fun _ h => h))
theorem mems_mono {S T : List Byte → Prop} {d : List Byte} (hST : ∀ s, S s → At d s → T s) :
    ∀ {r v}, Mems S r v → At d v → Mems T r v
  | _, _, .one r w k w1 w2 v w3 hw hk h1 h2 hv h3, hi =>
    .one r w k w1 w2 v w3 hw
      (hST k hk (hi.sub w (w1 ++ 0x3A :: (w2 ++ (v ++ w3))) (by simp) fun k _ => by
        rw [List.append_assoc]; exact follow_ws h1 (follow_colon _))) h1 h2
      (val_mono hST hv (hi.sub (w ++ (k ++ (w1 ++ 0x3A :: w2))) w3 (by simp) fun _ h => follow_ws h3 h)) h3
  | _, _, .cons r w k w1 w2 v w3 l hw hk h1 h2 hv h3 hl, hi =>
    .cons r w k w1 w2 v w3 l hw
      (hST k hk (hi.sub w (w1 ++ 0x3A :: (w2 ++ (v ++ (w3 ++ 0x2C :: l)))) (by simp) fun k _ => by
        rw [List.append_assoc]; exact follow_ws h1 (follow_colon _))) h1 h2
      (val_mono hST hv (hi.sub (w ++ (k ++ (w1 ++ 0x3A :: w2))) (w3 ++ 0x2C :: l) (by simp) fun k _ => by
        rw [List.append_assoc]; exact follow_ws h3 (follow_comma _))) h3
      (mems_mono hST hl (hi.sub (w ++ (k ++ (w1 ++ 0x3A :: (w2 ++ (v ++ (w3 ++ [0x2C])))))) [] (by simp) fun _ h => h))
end

theorem text_mono {S T : List Byte → Prop} {d : List Byte} (h : Text S d) (hST : ∀ s, S s → At d s → T s) : Text T d := by
  obtain ⟨w, v, w', h1, h2, h3, rfl⟩ := h
  exact ⟨w, v, w', h1, val_mono hST h2 ⟨w, w', rfl, by simpa using follow_ws (l := []) h3 trivial⟩, h3, rfl⟩

theorem tgUtf8_std {l} (h : TgUtf8 l) (hn : ∀ b ∈ l, b ≠ 0xE0 ∧ b ≠ 0xF0) : Utf8 l := by
  obtain ⟨cp, h1, h2, h3, h4⟩ := h
  refine ⟨cp, ⟨h1, by omega, h3⟩, ?_⟩
  rcases h4 with ⟨a, rfl⟩ | ⟨a, rfl⟩ | rfl
  · simp [utf8, a]
  · have : ¬ cp < 0x800 := by
      intro hlt
      have := (hn (BitVec.ofNat 8 (0xE0 + cp / 4096)) (by simp)).1
      apply this
      rw [show cp / 4096 = 0 by omega]; rfl
    simp [utf8, a, this]
  · have : ¬ cp < 0x10000 := by
      intro hlt
      have := (hn (BitVec.ofNat 8 (0xF0 + cp / 262144)) (by simp)).2
      apply this
      rw [show cp / 262144 = 0 by omega]; rfl
    have h5 : ¬ cp < 0x800 := by omega
    simp [utf8, this, h5]

theorem chrs_to_std {cs} (h : Chrs TgUtf8 cs) (hn : ∀ b ∈ cs, b ≠ 0xE0 ∧ b ≠ 0xF0) : Chrs Utf8 cs := by
  induction h with
  | nil => exact .nil
  | cons c l hc hl ih =>
    refine .cons _ _ ?_ (ih fun b hb => hn b (by simp [hb]))
    cases hc with
    | ascii b a1 a2 a3 a4 => exact .ascii b a1 a2 a3 a4
    | multi _ hu => exact .multi _ (tgUtf8_std hu fun b hb => hn b (by simp [hb]))
    | esc b h => exact .esc b h
    | uesc a b c d h1 h2 h3 h4 => exact .uesc a b c d h1 h2 h3 h4

end Json

/-! ### C16  The language of the validator -/

/-- C16, exact form. `json_validn` accepts exactly the texts of the JSON grammar of at most 1024 levels, where
strings are those of `TgStr`. The grammar is the standard's except for the strings: see `C16_json_complete`
and `C16_json_sound_partial` for how far the strings agree with the standard, and the
witnesses for where they do not. -/
theorem C16_json_exact (d : List Byte) : jsonValidn d = some true ↔ Text TgStr d := jsonValidn_iff d

/-- C16, one half. Every standard JSON text of at most 1024 levels is accepted, unless it contains
the UTF-8 encoding of U+10FFFF. -/
theorem C16_json_complete (d : List Byte) (h : Text Str d)
    (hn : ¬ ([0xF4, 0x8F, 0xBF, 0xBF] : List Byte) <:+: d) : jsonValidn d = some true := by
  rw [C16_json_exact]
  refine text_mono h fun s hs ⟨p, k, hi, _⟩ => str_to_tg hs fun hj => hn (hj.trans ⟨p, k, by simp [hi]⟩)

/-- Every backslash of `d` is followed by one of the eight escape letters, or by `u` and four hex digits. -/
def EscapesOk (d : List Byte) : Prop :=
  ∀ p t, d = p ++ 0x5C :: t →
    (∃ b t', t = b :: t' ∧ b ∈ ([0x22, 0x5C, 0x2F, 0x62, 0x66, 0x6E, 0x72, 0x74] : List Byte)) ∨
    (∃ a b c e t', t = 0x75 :: a :: b :: c :: e :: t' ∧ HexDigit a ∧ HexDigit b ∧ HexDigit c ∧ HexDigit e)

/-- C16, other half, partial. The full statement is `jsonValidn d = some true → Text Str d`; it is
false (`C16_bad_escape_accepted`, `C16_overlong_accepted`). It holds for texts in which every backslash starts an escape
and the two lead bytes of over-long UTF-8 sequences do not occur. Missing: texts with an escaped
backslash before something that is no escape, and valid uses of the two lead bytes. -/
theorem C16_json_sound_partial (d : List Byte) (h : jsonValidn d = some true)
    (hn : ∀ b ∈ d, b ≠ 0xE0 ∧ b ≠ 0xF0) (he : EscapesOk d) : Text Str d := by
  rw [C16_json_exact] at h
  refine text_mono h fun s hs ⟨p, k, hi, hk⟩ => ?_
  obtain ⟨cs, e, hc, hcl, rfl⟩ := hs
  refine ⟨cs, chrs_to_std hc fun b hb => hn b (by simp [hi, hb]), ?_⟩
  rcases hcl with rfl | rfl | ⟨hs, rfl, hlen, hhex⟩
  · rfl
  · exfalso
    rcases he (p ++ 0x22 :: cs) k (by simp [hi]) with ⟨b, t', rfl, hb⟩ | ⟨a, b, c, e, t', rfl, _⟩
    · simp only [Follow, isWs_iff] at hk
      revert hb hk; clear * -; revert b; decide
    · revert hk; simp [Follow, isWs]
  · exfalso
    rcases he (p ++ 0x22 :: cs) (0x75 :: (hs ++ k)) (by simp [hi]) with ⟨b, t', e, hb⟩ | ⟨a, b, c, e, t', e', h1, h2, h3, h4⟩
    · cases e; simp at hb
    · simp only [List.cons.injEq, true_and] at e'
      obtain ⟨x, hx, hxh⟩ : ∃ x t, k = x :: t ∧ HexDigit x := by
        match hs, hlen, e' with
        | [], _, e' => exact ⟨a, _, e', h1⟩
        | [_], _, e' => simp at e'; exact ⟨b, _, e'.2, h2⟩
        | [_, _], _, e' => simp at e'; exact ⟨c, _, e'.2.2, h3⟩
        | [_, _, _], _, e' => simp at e'; exact ⟨e, _, e'.2.2.2, h4⟩
      obtain ⟨rfl, hxh⟩ := hxh
      have := follow_not_hex hk x _ rfl
      rw [(isHex_iff x).2 hxh] at this
      cases this

set_option maxRecDepth 100000 in
/-- `{"a\n":[1,-2.5e+3,true],"é":{}}` is accepted and meets the hypotheses. -/
example : let d : List Byte := [0x7B, 0x22, 0x61, 0x5C, 0x6E, 0x22, 0x3A, 0x5B, 0x31, 0x2C, 0x2D, 0x32, 0x2E, 0x35, 0x65, 0x2B,
      0x33, 0x2C, 0x74, 0x72, 0x75, 0x65, 0x5D, 0x2C, 0x22, 0xC3, 0xA9, 0x22, 0x3A, 0x7B, 0x7D, 0x7D]
    jsonValidn d = some true ∧ (∀ b ∈ d, b ≠ 0xE0 ∧ b ≠ 0xF0) ∧ EscapesOk d := by
  refine ⟨by decide, by decide, ?_⟩
  intro p t h
  left
  have : p = [0x7B, 0x22, 0x61] := by
    match p with
    | [] => simp at h
    | [_] => simp at h
    | [_, _] => simp at h
    | [_, _, _] => simp at h; simp [h.1, h.2.1, h.2.2.1]
    | _ :: _ :: _ :: _ :: q =>
      exfalso
      simp only [List.cons_append, List.cons.injEq] at h
      have : (0x5C : Byte) ∈ q ++ 0x5C :: t := by simp
      rw [← h.2.2.2.2] at this
      revert this; decide
  subst this
  simp at h
  exact ⟨_, _, h.symm, by decide⟩

/-- No string token of the standard is a lone quote and backslash. -/
theorem not_std_quote_backslash : ¬ Text Str [0x22, 0x5C] := by
  rintro ⟨w, v, w', h1, h2, h3, h⟩
  have hw : w = [] := by
    cases w with
    | nil => rfl
    | cons b t =>
      simp only [List.cons_append, List.cons.injEq] at h
      have := h1 b (by simp)
      rw [← h.1] at this
      simp at this
  subst hw
  have hw' : w' = [] := by
    rcases List.eq_nil_or_concat w' with rfl | ⟨t, b, rfl⟩
    · rfl
    · have hb := h3 b (by simp)
      have e := congrArg List.getLast? h
      simp at e
      rw [← e] at hb
      simp at hb
  subst hw'
  simp only [List.nil_append, List.append_nil] at h
  cases h2 with
  | num _ _ h2 =>
    rw [← h] at h2
    obtain ⟨_, b, t, e, hb⟩ := vnumber_complete (k := []) h2 trivial
    cases e
    revert hb; decide
  | str _ _ h2 =>
    obtain ⟨cs, _, e⟩ := h2
    rw [← h] at e
    have e := congrArg List.getLast? e
    rw [show (0x22 :: (cs ++ [0x22]) : List Byte) = (0x22 :: cs) ++ [0x22] from rfl, List.getLast?_concat] at e
    simp at e
  | _ => simp at h

/-- C16 is false as it stands: the two bytes `"\` are accepted, though they are no JSON. The
failure code of `vesc` is negated a second time at the end of `vstring` (tg.c:6878-6882), which makes a position of it. -/
theorem C16_bad_escape_accepted : jsonValidn [0x22, 0x5C] = some true ∧ ¬ Text Str [0x22, 0x5C] :=
  ⟨by decide, not_std_quote_backslash⟩

set_option maxRecDepth 100000 in
/-- The same in the middle of a text: `["\,"b"]` and `{"a":"\u12}` are accepted. -/
example : jsonValidn [0x5B, 0x22, 0x5C, 0x2C, 0x22, 0x62, 0x22, 0x5D] = some true ∧
    jsonValidn [0x7B, 0x22, 0x61, 0x22, 0x3A, 0x22, 0x5C, 0x75, 0x31, 0x32, 0x7D] = some true := by
  constructor <;> decide

/-- Over-long UTF-8 sequences (here `E0 82 80` for U+0080) are accepted. -/
theorem C16_overlong_accepted : jsonValidn [0x22, 0xE0, 0x82, 0x80, 0x22] = some true ∧
    ¬ Utf8 [0xE0, 0x82, 0x80] := by
  refine ⟨by decide, ?_⟩
  rintro ⟨cp, ⟨h1, h2, _⟩, h⟩
  unfold utf8 at h
  split at h
  · simp at h
  · split at h
    · simp only [List.cons.injEq, and_true] at h
      obtain ⟨a, b, c⟩ := h
      have a := congrArg BitVec.toNat a
      have b := congrArg BitVec.toNat b
      simp at a b
      omega
    · simp at h

/-- The string of U+10FFFF alone is standard JSON and is rejected. -/
theorem C16_max_codepoint_rejected : let d : List Byte := [0x22, 0xF4, 0x8F, 0xBF, 0xBF, 0x22]
    jsonValidn d = some false ∧ Text Str d := by
  refine ⟨by decide, [], [0x22, 0xF4, 0x8F, 0xBF, 0xBF, 0x22], [], ws_nil, .str _ _ ?_, ws_nil, rfl⟩
  exact ⟨_, .cons _ [] (.multi _ ⟨0x10FFFF, by simp [Scalar], rfl⟩) .nil, rfl⟩

/-! ### C17  The validator stays inside its input -/

/-- C17. For every input the validator ends with an answer: it never reads outside the input, and none of
its loops runs out of the bound its input gives it. -/
theorem C17_json_safe (d : List Byte) : jsonValidn d = some true ∨ jsonValidn d = some false := by
  have := jsonValidn_total d
  cases h : jsonValidn d with
  | none => exact absurd h this
  | some b => cases b <;> simp

/-- C17, position. When the validator accepts, the cursor it returns is the end of the input. -/
theorem C17_json_end (d k : List Byte) (h : vpayload d = .pos k) : k = [] := by
  have h1 := vpayload_sound h
  rw [vpayload_complete h1] at h
  cases h; rfl

/-- C17, depth. Whatever follows, more than 1024 opening brackets are rejected. -/
theorem C17_json_depth (n : Nat) (hn : 1024 < n) (k : List Byte) :
    jsonValidn (List.replicate n 0x5B ++ k) = some false := by
  have key : ∀ r n, r < n → ∃ l, vany r (List.replicate n 0x5B ++ k) = .neg l := by
    intro r
    induction r with
    | zero => intro n _; exact ⟨_, rfl⟩
    | succ r ih =>
      intro n hn
      obtain ⟨m, rfl⟩ : ∃ m, n = m + 2 := ⟨n - 2, by omega⟩
      obtain ⟨l, hl⟩ := ih (m + 1) (by omega)
      rw [List.replicate_succ, List.cons_append] at hl
      refine ⟨l, ?_⟩
      rw [vany, List.replicate_succ, List.replicate_succ, List.cons_append, List.cons_append, vanyBody,
        if_neg (by decide), if_neg (by decide), if_pos (by decide), varray, if_neg (by decide), if_neg (by decide), arrLoop, hl]
  obtain ⟨l, hl⟩ := key 1024 n hn
  obtain ⟨m, rfl⟩ : ∃ m, n = m + 1 := ⟨n - 1, by omega⟩
  rw [List.replicate_succ, List.cons_append] at hl ⊢
  rw [jsonValidn, vpayload, if_neg (by decide), hl]

/-- ... and 1024 of them, closed again, are accepted. -/
theorem C17_json_depth_reached : jsonValidn (List.replicate 1024 0x5B ++ List.replicate 1024 0x5D) = some true := by
  rw [C16_json_exact]
  have key : ∀ r, Val TgStr (r + 1) (List.replicate (r + 1) 0x5B ++ List.replicate (r + 1) 0x5D) := by
    intro r
    induction r with
    | zero => exact .arr0 0 [] ws_nil
    | succ r ih =>
      have := Val.arr (r + 1) _ (.one _ [] _ [] ws_nil ih ws_nil)
      rw [List.replicate_succ, List.replicate_succ' (n := r + 1) (a := (0x5D : Byte))]
      simpa using this
  refine ⟨[], _, [], ws_nil, key 1023, ws_nil, ?_⟩
  rw [List.nil_append, List.append_nil]

end Tg
