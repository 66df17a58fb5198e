import Verif.Model.JsonEscape
import Verif.Lemmas.JsonGrammar
import Verif.Spec.Geojson
/-!
C91: `json_escapen` writes a JSON string whatever the bytes are, and never outside of its buffer.
-/
namespace Tg

open Json Spec.Json Spec.Geojson

/-! ### What is appended -/

/-- What the loop appends. -/
def Json.escOut : Nat → List Byte → List Byte
  | _, [] => []
  | k + 1, _ :: t => escOut k t
  | 0, c :: t =>
    match jescBody c t with
    | none => []
    | some (out, skip) => out ++ escOut skip t

/-- The state after `w` was appended, in a block that was `m` before. -/
structure Json.Wrote (m w : List Byte) (b : JescBuf) : Prop where
  mem : b.mem = w.take (m.length - 1) ++ m.drop (min w.length (m.length - 1))
  pos : b.pos = min w.length (m.length - 1)
  esclen : b.esclen = m.length - min w.length (m.length - 1)
  count : b.count = w.length

theorem Json.Wrote.len {m w : List Byte} {b : JescBuf} (h : Wrote m w b) : b.mem.length = m.length := by
  rw [h.mem]; simp; omega

theorem Json.append_wrote {m w : List Byte} {b : JescBuf} (h : Wrote m w b) (ch : Byte) : ∃ b', jescAppend b ch = some b' ∧ Wrote m (w ++ [ch]) b' := by
  have hl := h.len
  unfold jescAppend
  have h2 := h.pos
  have h3 := h.esclen
  by_cases hc : w.length < m.length - 1
  · rw [if_pos (by omega), if_pos (by omega)]
    refine ⟨_, rfl, ?_, ?_, ?_, ?_⟩
    · dsimp only
      rw [h.mem, h2, show min w.length (m.length - 1) = w.length by omega, List.take_of_length_le (by omega), List.set_append_right _ _ (by omega), Nat.sub_self,
        List.take_of_length_le (by simp; omega), List.drop_eq_getElem_cons (show w.length < m.length by omega), List.set_cons_zero, List.append_assoc]
      rw [List.length_append, List.length_singleton, show min (w.length + 1) (m.length - 1) = w.length + 1 by omega]
      rfl
    · simp; omega
    · simp; omega
    · simp [h.count]
  · rw [if_neg (by omega)]
    refine ⟨_, rfl, ?_, ?_, ?_, ?_⟩
    · dsimp only
      rw [h.mem, List.take_append_of_le_length (by omega)]
      congr 2
      simp; omega
    · simp; omega
    · simp; omega
    · simp [h.count]

theorem Json.appends_wrote {m : List Byte} : ∀ (out : List Byte) {w : List Byte} {b : JescBuf}, Wrote m w b → ∃ b', jescAppends b out = some b' ∧ Wrote m (w ++ out) b'
  | [], w, b, h => ⟨b, rfl, by simpa using h⟩
  | c :: cs, w, b, h => by
    obtain ⟨b1, e1, h1⟩ := append_wrote h c
    obtain ⟨b2, e2, h2⟩ := appends_wrote cs h1
    exact ⟨b2, by rw [jescAppends, e1]; exact e2, by simpa using h2⟩

theorem Json.body_some (c : Byte) (t : List Byte) : ∃ r, jescBody c t = some r := by
  unfold jescBody
  split_ifs <;> try exact ⟨_, rfl⟩
  obtain ⟨r, hr, -⟩ := vutf8_adv c t
  rw [hr]
  rcases r with _ | n <;> exact ⟨_, rfl⟩

theorem Json.loop_wrote {m : List Byte} : ∀ (t : List Byte) (k : Nat) {w : List Byte} {b : JescBuf}, Wrote m w b → ∃ b', jescLoop k t b = some b' ∧ Wrote m (w ++ escOut k t) b'
  | [], k, w, b, h => ⟨b, by cases k <;> rfl, by cases k <;> simpa [escOut] using h⟩
  | c :: t, k + 1, w, b, h => loop_wrote t k h
  | c :: t, 0, w, b, h => by
    obtain ⟨⟨out, skip⟩, hr⟩ := body_some c t
    obtain ⟨b1, e1, h1⟩ := appends_wrote out h
    obtain ⟨b2, e2, h2⟩ := loop_wrote t skip h1
    refine ⟨b2, ?_, ?_⟩
    · rw [jescLoop, hr]; dsimp only; rw [e1]; exact e2
    · rw [escOut, hr]; simpa using h2

/-! ### Characters -/

theorem Json.encode_utf8 {cp : Nat} (h : Scalar cp) : encodeCp cp = utf8 cp := by
  obtain ⟨h1, h2, h3⟩ := h
  have : (decide (1114111 < cp) || isSurr cp) = false := by simp [isSurr]; omega
  simp only [encodeCp, utf8, this, Bool.false_eq_true, if_false]
  rw [if_neg (by omega)]

theorem Json.utf8_high {cp : Nat} (h : Scalar cp) : ∀ b ∈ utf8 cp, 0x80 ≤ b.toNat := by
  obtain ⟨h1, h2, h3⟩ := h
  unfold utf8
  split_ifs <;> intro b hb <;> simp only [List.mem_cons, List.not_mem_nil, or_false] at hb
  · rcases hb with rfl | rfl <;> rw [byte_toNat (by omega)] <;> omega
  · rcases hb with rfl | rfl | rfl <;> rw [byte_toNat (by omega)] <;> omega
  · rcases hb with rfl | rfl | rfl | rfl <;> rw [byte_toNat (by omega)] <;> omega

theorem Json.cp2 {cp : Nat} (h : cp < 0x800) (r : List Byte) : vutf8Cp 2 (BitVec.ofNat 8 (0xC0 + cp / 64) :: BitVec.ofNat 8 (0x80 + cp % 64) :: r) = cp := by
  rw [vutf8Cp, byte_toNat (by omega), byte_toNat (by omega)]; omega

theorem Json.cp3 {cp : Nat} (h : cp < 0x10000) (r : List Byte) :
    vutf8Cp 3 (BitVec.ofNat 8 (0xE0 + cp / 4096) :: BitVec.ofNat 8 (0x80 + cp / 64 % 64) :: BitVec.ofNat 8 (0x80 + cp % 64) :: r) = cp := by
  rw [vutf8Cp, byte_toNat (by omega), byte_toNat (by omega), byte_toNat (by omega)]; omega

theorem Json.cp4 {cp : Nat} (h : cp ≤ 0x10FFFF) (r : List Byte) :
    vutf8Cp 4 (BitVec.ofNat 8 (0xF0 + cp / 262144) :: BitVec.ofNat 8 (0x80 + cp / 4096 % 64) :: BitVec.ofNat 8 (0x80 + cp / 64 % 64) :: BitVec.ofNat 8 (0x80 + cp % 64) :: r) = cp := by
  rw [vutf8Cp, byte_toNat (by omega), byte_toNat (by omega), byte_toNat (by omega), byte_toNat (by omega)]; omega

theorem Json.cp_scalar {c : Byte} {t : List Byte} {n : Nat} (h : vutf8 (c :: t) = some (some n)) : Scalar (vutf8Cp n (c :: t)) := by
  obtain ⟨l, rest, e, rfl, cp, f1, f2, f3, hl⟩ := vutf8_sound h
  have : vutf8Cp l.length (c :: t) = cp := by
    rw [e]
    rcases hl with ⟨hc, rfl⟩ | ⟨hc, rfl⟩ | rfl
    exacts [cp2 hc rest, cp3 hc rest, cp4 (by omega) rest]
  rw [this]
  exact ⟨f1, by omega, f3⟩

theorem Json.hexChar_ok {x : Nat} (h : x < 16) : HexDigit (hexChar x) ∧ hexDigit (hexChar x) = x ∧ 0x30 ≤ (hexChar x).toNat ∧ hexChar x ≠ 0x3C#8 ∧ hexChar x ≠ 0x3E#8 := by
  interval_cases x <;> refine ⟨?_, ?_, ?_, ?_, ?_⟩ <;> first | decide | (unfold HexDigit; decide)

/-- A byte that may be in a token: no control character, nor `<`, `>` or `&`. -/
def Json.Web (b : Byte) : Prop := 0x20 ≤ b.toNat ∧ b ≠ 0x3C#8 ∧ b ≠ 0x3E#8 ∧ b ≠ 0x26#8

theorem Json.high_web {b : Byte} (h : 0x80 ≤ b.toNat) : Web b :=
  ⟨by omega, by rintro rfl; revert h; decide, by rintro rfl; revert h; decide, by rintro rfl; revert h; decide⟩

theorem Json.hex_web {x : Nat} (h : x < 16) : Web (hexChar x) := by
  obtain ⟨-, -, h1, h2, h3⟩ := hexChar_ok h
  exact ⟨by omega, h2, h3, by intro e; rw [e] at h1; revert h1; decide⟩

theorem Json.ux_ok (c : Byte) : Chr Utf8 (jescUx c.toNat) ∧ ∀ b ∈ jescUx c.toNat, Web b := by
  have h (x : Nat) : x % 16 < 16 := Nat.mod_lt _ (by norm_num)
  refine ⟨.uesc _ _ _ _ (hexChar_ok (h _)).1 (hexChar_ok (h _)).1 (hexChar_ok (h _)).1 (hexChar_ok (h _)).1, ?_⟩
  simp only [jescUx, List.mem_cons, List.not_mem_nil, or_false]
  rintro b (rfl | rfl | rfl | rfl | rfl | rfl)
  · unfold Web; decide
  · unfold Web; decide
  all_goals exact hex_web (h _)

/-- Each piece that is appended is one character of a JSON string. -/
theorem Json.body_chr {c : Byte} {t out : List Byte} {skip : Nat} (h : jescBody c t = some (out, skip)) : Chr Utf8 out ∧ ∀ b ∈ out, Web b := by
  have two : ∀ e : Byte, e ∈ ([0x22, 0x5C, 0x2F, 0x62, 0x66, 0x6E, 0x72, 0x74] : List Byte) → Chr Utf8 [0x5C#8, e] ∧ ∀ b ∈ [0x5C#8, e], Web b := by
    intro e he
    refine ⟨.esc e he, ?_⟩
    simp only [List.mem_cons, List.not_mem_nil, or_false] at he ⊢
    rintro b (rfl | rfl)
    · unfold Web; decide
    · rcases he with rfl | rfl | rfl | rfl | rfl | rfl | rfl | rfl <;> (unfold Web; decide)
  have multi : ∀ {cp}, Scalar cp → Chr Utf8 (encodeCp cp) ∧ ∀ b ∈ encodeCp cp, Web b := fun {cp} hs => by
    rw [encode_utf8 hs]
    exact ⟨.multi _ ⟨_, hs, rfl⟩, fun b hb => high_web (utf8_high hs b hb)⟩
  unfold jescBody at h
  split_ifs at h with h1 h2 h3 h4 h5 h6 h7 h8 h9 h10
  any_goals
    cases h
    first
      | exact two _ (by decide)
      | exact ux_ok c
  · split at h
    · cases h
    · cases h
      exact multi ⟨by norm_num, by norm_num, by norm_num⟩
    · rename_i n hn
      cases h
      exact multi (cp_scalar hn)
  · cases h
    refine ⟨.ascii c (by omega) (by omega) h9 h8, fun b hb => ?_⟩
    rw [List.mem_singleton.1 hb]
    push Not at h7
    exact ⟨by omega, h7.2.1, h7.1, h7.2.2⟩

theorem Json.out_chrs : ∀ (t : List Byte) (k : Nat), Chrs Utf8 (escOut k t) ∧ ∀ b ∈ escOut k t, Web b
  | [], k => by cases k <;> exact ⟨.nil, by simp [escOut]⟩
  | c :: t, k + 1 => out_chrs t k
  | c :: t, 0 => by
    obtain ⟨⟨out, skip⟩, hr⟩ := body_some c t
    obtain ⟨a1, a2⟩ := body_chr hr
    obtain ⟨b1, b2⟩ := out_chrs t skip
    rw [escOut, hr]
    exact ⟨.cons _ _ a1 b1, fun b hb => (List.mem_append.1 hb).elim (a2 b) (b2 b)⟩

/-! ### Texts -/

/-- The text is ASCII and characters in UTF-8, other than U+10FFFF. -/
def Spec.Json.Clean (s : List Byte) : Prop :=
  ∃ cs : List (List Byte), s = cs.flatten ∧ ∀ c ∈ cs, (∃ b : Byte, b.toNat < 0x80 ∧ c = [b]) ∨ ∃ cp, Scalar cp ∧ cp ≠ 0x10FFFF ∧ c = utf8 cp

theorem Json.escOut_skip (l r : List Byte) : escOut l.length (l ++ r) = escOut 0 r := by
  induction l with
  | nil => rfl
  | cons b l ih => exact ih

theorem Json.spells_high : ∀ (l : List Byte) {cs s : List Byte}, (∀ b ∈ l, 0x80 ≤ b.toNat) → Spells cs s → Spells (l ++ cs) (l ++ s)
  | [], _, _, _, h => h
  | b :: l, _, _, hb, h => .plain b _ _ (by rintro rfl; exact absurd (hb _ List.mem_cons_self) (by decide)) (spells_high l (fun x hx => hb x (List.mem_cons_of_mem _ hx)) h)

theorem Json.ascii_spells {b : Byte} (hb : b.toNat < 0x80) {t s : List Byte} (ih : Spells (escOut 0 t) s) : Spells (escOut 0 (b :: t)) (b :: s) := by
  have ux : Spells (jescUx b.toNat ++ escOut 0 t) (b :: s) := by
    have h (x : Nat) : x % 16 < 16 := Nat.mod_lt _ (by norm_num)
    refine .uni _ _ _ _ b _ _ (hexChar_ok (h _)).1 (hexChar_ok (h _)).1 (hexChar_ok (h _)).1 (hexChar_ok (h _)).1 hb ?_ ih
    rw [(hexChar_ok (h _)).2.1, (hexChar_ok (h _)).2.1, (hexChar_ok (h _)).2.1, (hexChar_ok (h _)).2.1]
    omega
  obtain ⟨⟨out, skip⟩, hr⟩ := body_some b t
  rw [escOut, hr]
  dsimp only
  unfold jescBody at hr
  split_ifs at hr with h1 h2 h3 h4 h5 h6 h7 h8 h9 h10
  any_goals
    cases hr
    first
      | exact ux
      | (subst_vars; exact .esc _ _ _ _ (by decide) ih)
  · omega
  · cases hr
    exact .plain b _ _ h8 ih

theorem Json.out_spells : ∀ cs : List (List Byte), (∀ c ∈ cs, (∃ b : Byte, b.toNat < 0x80 ∧ c = [b]) ∨ ∃ cp, Scalar cp ∧ cp ≠ 0x10FFFF ∧ c = utf8 cp) →
    Spells (escOut 0 cs.flatten) cs.flatten
  | [], _ => .nil
  | c :: cs, h => by
    have ih := out_spells cs fun x hx => h x (List.mem_cons_of_mem _ hx)
    rcases h c List.mem_cons_self with ⟨b, hb, rfl⟩ | ⟨cp, hs, hne, rfl⟩
    · exact ascii_spells hb ih
    · have hu := utf8_high hs
      obtain ⟨h1, h2, h3⟩ := hs
      have tg : TgUtf8 (utf8 cp) := by
        refine ⟨cp, h1, by omega, h3, ?_⟩
        unfold utf8
        split_ifs with c1 c2
        exacts [.inl ⟨c1, rfl⟩, .inr (.inl ⟨c2, rfl⟩), .inr (.inr rfl)]
      obtain ⟨v1, v2, b, t, e, -, -, -⟩ := vutf8_complete tg cs.flatten
      have hcp : vutf8Cp (utf8 cp).length (utf8 cp ++ cs.flatten) = cp := by
        unfold utf8
        split_ifs with c1 c2
        exacts [cp2 c1 _, cp3 c2 _, cp4 h2 _]
      have hb : 0x80 ≤ b.toNat := hu b (by rw [e]; exact List.mem_cons_self)
      have hbody : jescBody b (t ++ cs.flatten) = some (utf8 cp, t.length) := by
        have w := high_web hb
        unfold jescBody
        rw [if_neg (by omega), if_neg (by rintro (h | h | h); exacts [w.2.2.1 h, w.2.1 h, w.2.2.2 h]), if_neg (by rintro rfl; revert hb; decide),
          if_neg (by rintro rfl; revert hb; decide), if_pos (by omega)]
        rw [e] at v1 hcp
        rw [show b :: (t ++ cs.flatten) = b :: t ++ cs.flatten from rfl, v1]
        dsimp only
        rw [hcp, encode_utf8 ⟨h1, h2, h3⟩]
        rfl
      rw [List.flatten_cons]
      have : escOut 0 (utf8 cp ++ cs.flatten) = utf8 cp ++ escOut 0 cs.flatten := by
        conv_lhs => rw [e]
        rw [List.cons_append, escOut, hbody]
        dsimp only
        rw [escOut_skip]
      rw [this]
      exact spells_high _ hu ih

/-- The bytes have the shape of a sequence of two, three or four bytes with the value `cp`, a character outside ASCII below U+10FFFF; it may be longer than need be. -/
def Spec.Json.Code (cp : Nat) (l : List Byte) : Prop :=
  Scalar cp ∧ cp < 0x10FFFF ∧
    ((cp < 0x800 ∧ l = [BitVec.ofNat 8 (0xC0 + cp / 64), BitVec.ofNat 8 (0x80 + cp % 64)]) ∨
     (cp < 0x10000 ∧ l = [BitVec.ofNat 8 (0xE0 + cp / 4096), BitVec.ofNat 8 (0x80 + cp / 64 % 64), BitVec.ofNat 8 (0x80 + cp % 64)]) ∨
     l = [BitVec.ofNat 8 (0xF0 + cp / 262144), BitVec.ofNat 8 (0x80 + cp / 4096 % 64), BitVec.ofNat 8 (0x80 + cp / 64 % 64), BitVec.ofNat 8 (0x80 + cp % 64)])

/-- The second text is the first with each sequence in its shortest form, and each byte that is in none replaced by U+FFFD. -/
inductive Spec.Json.Repaired : List Byte → List Byte → Prop
  | nil : Repaired [] []
  | ascii (b : Byte) (s r) : b.toNat < 0x80 → Repaired s r → Repaired (b :: s) (b :: r)
  | code (cp : Nat) (l s r) : Code cp l → Repaired s r → Repaired (l ++ s) (utf8 cp ++ r)
  | bad (b : Byte) (s r) : 0x80 ≤ b.toNat → (∀ cp l s', b :: s = l ++ s' → ¬ Code cp l) → Repaired s r → Repaired (b :: s) (utf8 0xFFFD ++ r)

theorem Spec.Json.Code.tg {cp : Nat} {l : List Byte} (h : Code cp l) : TgUtf8 l := ⟨cp, h.1.1, h.2.1, h.1.2.2, h.2.2⟩

theorem Json.body_high {c : Byte} (hb : 0x80 ≤ c.toNat) (t : List Byte) : jescBody c t = match vutf8 (c :: t) with
    | none => none
    | some none => some (encodeCp 0xFFFD, 0)
    | some (some n) => some (encodeCp (vutf8Cp n (c :: t)), n - 1) := by
  have w := high_web hb
  unfold jescBody
  rw [if_neg (by omega), if_neg (by rintro (h | h | h); exacts [w.2.2.1 h, w.2.1 h, w.2.2.2 h]), if_neg (by rintro rfl; revert hb; decide),
    if_neg (by rintro rfl; revert hb; decide), if_pos (by omega)]
  rcases vutf8 (c :: t) with _ | _ | n <;> rfl

theorem Json.out_repaired : ∀ (n : Nat) (str : List Byte), str.length ≤ n → ∃ r, Repaired str r ∧ Spells (escOut 0 str) r
  | _, [], _ => ⟨[], .nil, .nil⟩
  | 0, _ :: _, h => by simp at h
  | n + 1, c :: t, h => by
    rw [List.length_cons] at h
    by_cases hb : c.toNat < 0x80
    · obtain ⟨r, h1, h2⟩ := out_repaired n t (by omega)
      exact ⟨c :: r, .ascii c t r hb h1, ascii_spells hb h2⟩
    have hb : 0x80 ≤ c.toNat := by omega
    have hbody := body_high hb t
    obtain ⟨v, hv, -⟩ := vutf8_adv c t
    rw [hv] at hbody
    rcases v with _ | k <;> dsimp only at hbody
    · obtain ⟨r, h1, h2⟩ := out_repaired n t (by omega)
      have hs : Scalar 0xFFFD := ⟨by norm_num, by norm_num, by norm_num⟩
      refine ⟨utf8 0xFFFD ++ r, .bad c t r hb ?_ h1, ?_⟩
      · intro cp l s' e hc
        have := (vutf8_complete hc.tg s').1
        rw [← e, hv] at this
        simp at this
      · rw [escOut, hbody]
        dsimp only
        rw [encode_utf8 hs]
        exact spells_high _ (utf8_high hs) h2
    · obtain ⟨l, rest, e, rfl, cp, f1, f2, f3, hl⟩ := vutf8_sound hv
      have hs : Scalar cp := ⟨f1, by omega, f3⟩
      have hcp : vutf8Cp l.length (c :: t) = cp := by
        rw [e]
        rcases hl with ⟨hc, rfl⟩ | ⟨hc, rfl⟩ | rfl
        exacts [cp2 hc rest, cp3 hc rest, cp4 (by omega) rest]
      have hne : l ≠ [] := by rcases hl with ⟨hc, rfl⟩ | ⟨hc, rfl⟩ | rfl <;> simp
      obtain ⟨c', l', rfl⟩ := List.exists_cons_of_ne_nil hne
      rw [List.cons_append, List.cons.injEq] at e
      obtain ⟨rfl, rfl⟩ := e
      obtain ⟨r, h1, h2⟩ := out_repaired n rest (by simp at h; omega)
      refine ⟨utf8 cp ++ r, .code cp (c :: l') rest r ⟨hs, f2, hl⟩ h1, ?_⟩
      rw [escOut, hbody]
      dsimp only
      rw [hcp, encode_utf8 hs, List.length_cons, Nat.add_sub_cancel, escOut_skip]
      exact spells_high _ (utf8_high hs) h2

/-- C91. For each sequence of bytes there is one token, such that for a block of any size `json_escapen` returns the length of the token, writes as much of it as fits
with a final zero, changes nothing behind that, and nothing outside the block. The token is a string of RFC 8259, also if the bytes are not UTF-8, without control
characters and without `<`, `>` and `&`. It spells the bytes with each sequence in its shortest form and each byte that is in none replaced by U+FFFD. If the bytes are ASCII and UTF-8, other than U+10FFFF, the token spells them. -/
theorem C91_escape (str : List Byte) :
    ∃ tok cs : List Byte, tok = 0x22#8 :: (cs ++ [0x22#8]) ∧ Str tok ∧ (∀ b ∈ tok, 0x20 ≤ b.toNat ∧ b ≠ 0x3C#8 ∧ b ≠ 0x3E#8 ∧ b ≠ 0x26#8) ∧ (∃ r, Repaired str r ∧ Spells cs r) ∧ (Clean str → Spells cs str) ∧
      ∀ esc : List Byte, jsonEscapen str esc =
        some (if esc = [] then [] else tok.take (esc.length - 1) ++ 0#8 :: esc.drop (min tok.length (esc.length - 1) + 1), tok.length) := by
  obtain ⟨o1, o2⟩ := out_chrs str 0
  refine ⟨_, escOut 0 str, rfl, ⟨_, o1, rfl⟩, ?_, out_repaired _ str le_rfl, ?_, ?_⟩
  · intro b hb
    simp only [List.mem_cons, List.mem_append, List.not_mem_nil, or_false] at hb
    rcases hb with rfl | hb | rfl
    · decide
    · exact o2 b hb
    · decide
  · rintro ⟨cs, rfl, h⟩
    exact out_spells cs h
  · intro esc
    have h0 : Wrote esc [] ⟨esc, 0, esc.length, 0⟩ := ⟨by simp, by simp, by simp, rfl⟩
    obtain ⟨b1, e1, h1⟩ := append_wrote h0 0x22#8
    obtain ⟨b2, e2, h2⟩ := loop_wrote str 0 h1
    obtain ⟨b3, e3, h3⟩ := append_wrote h2 0x22#8
    unfold jsonEscapen
    rw [e1]; dsimp only
    rw [e2]; dsimp only
    rw [e3]; dsimp only
    have ew : [] ++ [0x22#8] ++ escOut 0 str ++ [0x22#8] = 0x22#8 :: (escOut 0 str ++ [0x22#8]) := by simp
    rw [ew] at h3
    generalize 0x22#8 :: (escOut 0 str ++ [0x22#8]) = tok at h3
    have hl := h3.len
    have hp := h3.pos
    have hn := h3.esclen
    by_cases he : esc = []
    · subst he
      rw [if_neg (by rw [hn]; simp), if_pos rfl, h3.count]
      rw [h3.mem]; simp
    · have : 0 < esc.length := List.length_pos_iff.2 he
      rw [if_pos (by omega), if_pos (by omega), if_neg he, h3.count, h3.mem, hp]
      congr 2
      rw [List.set_append_right _ _ (by simp), List.length_take, Nat.min_comm, Nat.sub_self,
        List.drop_eq_getElem_cons (show min (esc.length - 1) tok.length < esc.length by omega), List.set_cons_zero]

/-! ### Examples -/

/-- `<é"` is clean. -/
theorem S.esc_clean : Clean [0x3C#8, 0xC3#8, 0xA9#8, 0x22#8] :=
  ⟨[[0x3C#8], [0xC3#8, 0xA9#8], [0x22#8]], rfl, by
    simp only [List.mem_cons, List.not_mem_nil, or_false]
    rintro c (rfl | rfl | rfl)
    · exact .inl ⟨_, by decide, rfl⟩
    · exact .inr ⟨0xE9, ⟨by norm_num, by norm_num, by norm_num⟩, by norm_num, by decide⟩
    · exact .inl ⟨_, by decide, rfl⟩⟩

/-- Its token is `"\u003cé\""`; of a block of 6 bytes 5 are for the token. -/
example : jsonEscapen [0x3C#8, 0xC3#8, 0xA9#8, 0x22#8] [1#8, 1#8, 1#8, 1#8, 1#8, 1#8] = some ([0x22#8, 0x5C#8, 0x75#8, 0x30#8, 0x30#8, 0#8], 12) := by decide +kernel

/-- C91. U+10FFFF is replaced, each of its bytes by U+FFFD: the last character of Unicode is lost. -/
theorem C91_max_replaced : Utf8 [0xF4#8, 0x8F#8, 0xBF#8, 0xBF#8] ∧ jsonEscapen [0xF4#8, 0x8F#8, 0xBF#8, 0xBF#8] (List.replicate 15 1#8) =
    some ([0x22#8, 0xEF#8, 0xBF#8, 0xBD#8, 0xEF#8, 0xBF#8, 0xBD#8, 0xEF#8, 0xBF#8, 0xBD#8, 0xEF#8, 0xBF#8, 0xBD#8, 0x22#8, 0#8], 14) :=
  ⟨⟨0x10FFFF, ⟨by norm_num, by norm_num, by norm_num⟩, by decide⟩, by decide +kernel⟩

end Tg
