import Verif.Lemmas.JsonValid
/-!
The JSON validator accepts exactly the grammar with tg's strings.
-/
namespace Tg.Json
open Spec.Json

/-! ### multi-byte sequences -/

theorem or2 {x y : Nat} (hx : x < 4) (hy : y < 4) : (x ||| y * 4) = 10 ↔ x = 2 ∧ y = 2 := by
  interval_cases x <;> interval_cases y <;> decide

theorem or3 {x y z : Nat} (hx : x < 4) (hy : y < 4) (hz : z < 4) :
    (x ||| y * 4 ||| z * 16) = 42 ↔ x = 2 ∧ y = 2 ∧ z = 2 := by
  interval_cases x <;> interval_cases y <;> interval_cases z <;> decide

theorem byte_eq {b : Byte} {n : Nat} (h : b.toNat = n) : b = BitVec.ofNat 8 n := by
  apply BitVec.eq_of_toNat_eq; rw [BitVec.toNat_ofNat, ← h]; exact (Nat.mod_eq_of_lt b.isLt).symm

theorem byte_toNat {n : Nat} (h : n < 256) : (BitVec.ofNat 8 n).toNat = n := by
  rw [BitVec.toNat_ofNat]; exact Nat.mod_eq_of_lt h

theorem vutf8_sound {b : Byte} {t k} (h : vutf8 (b :: t) = some (some k)) :
    ∃ l rest, b :: t = l ++ rest ∧ l.length = k ∧ TgUtf8 l := by
  have hb := b.isLt
  have fin : ∀ cp n, (if cp < 128 then some none
      else if cp ≥ 0x10FFFF then some none
      else if cp ≥ 0xD800 && cp ≤ 0xDFFF then some none
      else some (some n) : Option (Option Nat)) = some (some k) →
      n = k ∧ 0x80 ≤ cp ∧ cp < 0x10FFFF ∧ ¬ (0xD800 ≤ cp ∧ cp ≤ 0xDFFF) := by
    intro cp n h
    split at h
    · simp at h
    · split at h
      · simp at h
      · split at h
        · simp at h
        · rename_i h1 h2 h3
          simp at h h3
          omega
  unfold vutf8 at h
  dsimp only at h
  split at h
  · rename_i h0
    have h0 : b.toNat / 16 = 14 := by simpa using h0
    split at h
    · simp at h
    · split at h
      · rename_i b1 b2 rest _
        split at h
        · simp at h
        · rename_i hc
          have h1 := b1.isLt
          have h2 := b2.isLt
          obtain ⟨c1, c2⟩ := (or2 (by omega) (by omega)).1 (not_not.1 hc)
          obtain ⟨rfl, f1, f2, f3⟩ := fin _ _ h
          refine ⟨[b, b1, b2], rest, rfl, rfl, _, f1, f2, f3, .inr (.inl ⟨by omega, ?_⟩)⟩
          simp only [List.cons.injEq, and_true]
          exact ⟨byte_eq (by omega), byte_eq (by omega), byte_eq (by omega)⟩
      · simp at h
  · split at h
    · rename_i h0
      have h0 : b.toNat / 8 = 30 := by simpa using h0
      split at h
      · simp at h
      · split at h
        · rename_i b1 b2 b3 rest _
          split at h
          · simp at h
          · rename_i hc
            have h1 := b1.isLt
            have h2 := b2.isLt
            have h3 := b3.isLt
            obtain ⟨c1, c2, c3⟩ := (or3 (by omega) (by omega) (by omega)).1 (not_not.1 hc)
            obtain ⟨rfl, f1, f2, f3⟩ := fin _ _ h
            refine ⟨[b, b1, b2, b3], rest, rfl, rfl, _, f1, f2, f3, .inr (.inr ?_)⟩
            simp only [List.cons.injEq, and_true]
            exact ⟨byte_eq (by omega), byte_eq (by omega), byte_eq (by omega), byte_eq (by omega)⟩
        · simp at h
    · split at h
      · rename_i h0
        have h0 : b.toNat / 32 = 6 := by simpa using h0
        split at h
        · simp at h
        · split at h
          · rename_i b1 rest _
            split at h
            · simp at h
            · rename_i hc
              have h1 := b1.isLt
              have c1 := not_not.1 hc
              obtain ⟨rfl, f1, f2, f3⟩ := fin _ _ h
              refine ⟨[b, b1], rest, rfl, rfl, _, f1, f2, f3, .inl ⟨by omega, ?_⟩⟩
              simp only [List.cons.injEq, and_true]
              exact ⟨byte_eq (by omega), byte_eq (by omega)⟩
          · simp at h
      · simp at h

theorem vutf8_complete {l} (h : TgUtf8 l) (rest) :
    vutf8 (l ++ rest) = some (some l.length) ∧ 2 ≤ l.length ∧ ∃ b t, l = b :: t ∧ strtoksu b ≠ 0 ∧ (b == 0x22) = false ∧ b > 0x7F := by
  obtain ⟨cp, f1, f2, f3, h⟩ := h
  have lead : ∀ n, 0x80 ≤ n → n < 0xF8 → n ∉ List.range 0 → 0xC0 ≤ n → strtoksu (BitVec.ofNat 8 n) ≠ 0 ∧ (BitVec.ofNat 8 n == 0x22) = false ∧
      BitVec.ofNat 8 n > 0x7F := by
    intro n h1 h2 _ h3
    interval_cases n <;> decide
  rcases h with ⟨hc, rfl⟩ | ⟨hc, rfl⟩ | rfl
  · refine ⟨?_, by simp, _, _, rfl, lead _ (by omega) (by omega) (by simp) (by omega)⟩
    have e0 := byte_toNat (n := 0xC0 + cp / 64) (by omega)
    have e1 := byte_toNat (n := 0x80 + cp % 64) (by omega)
    simp only [List.cons_append, List.nil_append, vutf8, e0, e1]
    rw [if_neg (by simp; omega), if_neg (by simp; omega), if_pos (by simp; omega), if_neg (by simp), if_neg (by omega),
      if_neg (by omega), if_neg (by omega), if_neg (by simp; omega)]
    rfl
  · refine ⟨?_, by simp, _, _, rfl, lead _ (by omega) (by omega) (by simp) (by omega)⟩
    have e0 := byte_toNat (n := 0xE0 + cp / 4096) (by omega)
    have e1 := byte_toNat (n := 0x80 + cp / 64 % 64) (by omega)
    have e2 := byte_toNat (n := 0x80 + cp % 64) (by omega)
    simp only [List.cons_append, List.nil_append, vutf8, e0, e1, e2]
    rw [if_pos (by simp; omega), if_neg (by simp), if_neg (not_not.2 ((or2 (by omega) (by omega)).2 (by omega))),
      if_neg (by omega), if_neg (by omega), if_neg (by simp; omega)]
    rfl
  · refine ⟨?_, by simp, _, _, rfl, lead _ (by omega) (by omega) (by simp) (by omega)⟩
    have e0 := byte_toNat (n := 0xF0 + cp / 262144) (by omega)
    have e1 := byte_toNat (n := 0x80 + cp / 4096 % 64) (by omega)
    have e2 := byte_toNat (n := 0x80 + cp / 64 % 64) (by omega)
    have e3 := byte_toNat (n := 0x80 + cp % 64) (by omega)
    simp only [List.cons_append, List.nil_append, vutf8, e0, e1, e2, e3]
    rw [if_neg (by simp; omega), if_pos (by simp; omega), if_neg (by simp),
      if_neg (not_not.2 ((or3 (by omega) (by omega) (by omega)).2 (by omega))),
      if_neg (by omega), if_neg (by omega), if_neg (by simp; omega)]
    rfl

theorem Utf8.to_tg {l} (h : Utf8 l) (hne : l ≠ utf8 0x10FFFF) : TgUtf8 l := by
  obtain ⟨cp, ⟨h1, h2, h3⟩, rfl⟩ := h
  refine ⟨cp, h1, ?_, h3, ?_⟩
  · rcases Nat.lt_or_ge cp 0x10FFFF with h | h
    · exact h
    · exact absurd (by rw [show cp = 0x10FFFF by omega]) hne
  · unfold utf8
    split
    · exact .inl ⟨by omega, rfl⟩
    · split
      · exact .inr (.inl ⟨by omega, rfl⟩)
      · exact .inr (.inr rfl)

/-! ### strings -/

theorem strtoksu_ascii : ∀ b : Byte, strtoksu b = 0 ↔ 0x20 ≤ b.toNat ∧ b.toNat < 0x80 ∧ b ≠ 0x22 ∧ b ≠ 0x5C := by
  decide

theorem vescHex_pos {j l k} (h : vescHex j l = .pos k) :
    ∃ hs, l = hs ++ k ∧ hs.length = j ∧ ∀ b ∈ hs, HexDigit b := by
  induction j generalizing l with
  | zero => cases l <;> (cases h; exact ⟨[], by simp⟩)
  | succ j ih =>
    cases l with
    | nil => cases h
    | cons b t =>
      rw [vescHex] at h
      split at h
      · rename_i hb
        obtain ⟨hs, rfl, hl, hh⟩ := ih h
        refine ⟨b :: hs, rfl, by simp [hl], ?_⟩
        intro c hc
        rcases List.mem_cons.1 hc with rfl | hc
        · exact (isHex_iff _).1 hb
        · exact hh c hc
      · cases h

theorem vescHex_neg {j l k} (h : vescHex j l = .neg k) :
    ∃ hs, l = hs ++ k ∧ hs.length < j ∧ ∀ b ∈ hs, HexDigit b := by
  induction j generalizing l with
  | zero => cases l <;> cases h
  | succ j ih =>
    cases l with
    | nil => cases h; exact ⟨[], by simp⟩
    | cons b t =>
      rw [vescHex] at h
      split at h
      · rename_i hb
        obtain ⟨hs, rfl, hl, hh⟩ := ih h
        refine ⟨b :: hs, rfl, by simp [hl], ?_⟩
        intro c hc
        rcases List.mem_cons.1 hc with rfl | hc
        · exact (isHex_iff _).1 hb
        · exact hh c hc
      · cases h; exact ⟨[], by simp⟩

theorem vescHex_complete {hs k} (j) (hl : hs.length = j) (hh : ∀ b ∈ hs, HexDigit b) : vescHex j (hs ++ k) = .pos k := by
  induction hs generalizing j with
  | nil => subst hl; cases k <;> rfl
  | cons b hs ih =>
    cases j with
    | zero => simp at hl
    | succ j =>
      rw [List.cons_append, vescHex, if_pos ((isHex_iff b).2 (hh b (by simp)))]
      exact ih j (by simpa using hl) (fun c hc => hh c (List.mem_cons_of_mem _ hc))

theorem vescHex_bad {hs k} (j) (hl : hs.length < j) (hh : ∀ b ∈ hs, HexDigit b)
    (hk : ∀ b t, k = b :: t → isHex b = false) : vescHex j (hs ++ k) = .neg k := by
  induction hs generalizing j with
  | nil =>
    cases j with
    | zero => simp at hl
    | succ j =>
      cases k with
      | nil => rfl
      | cons b t => simp [vescHex, hk b t rfl]
  | cons b hs ih =>
    cases j with
    | zero => simp at hl
    | succ j =>
      rw [List.cons_append, vescHex, if_pos ((isHex_iff b).2 (hh b (by simp)))]
      exact ih j (by simpa using hl) (fun c hc => hh c (List.mem_cons_of_mem _ hc))

theorem vesc_pos {b c : Byte} {t k} (hb : b = 0x5C) (h : vesc (b :: c :: t) = .pos k) :
    ∃ e, b :: c :: t = e ++ k ∧ Chr TgUtf8 e := by
  subst hb
  unfold vesc at h
  dsimp only at h
  split at h
  · rename_i hc
    cases h
    refine ⟨[0x5C, c], rfl, .esc c ?_⟩
    simpa [or_assoc] using hc
  · split at h
    · rename_i hu
      obtain ⟨hs, rfl, hl, hh⟩ := vescHex_pos h
      match hs, hl with
      | [a, b, c', d], _ =>
        refine ⟨[0x5C, c, a, b, c', d], rfl, ?_⟩
        rw [show c = 0x75 by simpa using hu]
        exact .uesc a b c' d (hh _ (by simp)) (hh _ (by simp)) (hh _ (by simp)) (hh _ (by simp))
    · cases h

theorem vesc_neg {b : Byte} {t k} (hb : b = 0x5C) (h : vesc (b :: t) = .neg k) :
    ∃ e, b :: t = e ++ k ∧ TgClose e := by
  subst hb
  unfold vesc at h
  cases t with
  | nil => cases h; exact ⟨[0x5C], rfl, .inr (.inl rfl)⟩
  | cons c t =>
    dsimp only at h
    split at h
    · cases h
    · split at h
      · rename_i hu
        obtain ⟨hs, rfl, hl, hh⟩ := vescHex_neg h
        exact ⟨0x5C :: c :: hs, rfl, .inr (.inr ⟨hs, by rw [show c = 0x75 by simpa using hu], hl, hh⟩)⟩
      · cases h; exact ⟨[0x5C], rfl, .inr (.inl rfl)⟩

theorem vstringN_sound {n l k} (h : vstringN n l = .pos k) :
    ∃ cs e, l = cs ++ (e ++ k) ∧ Chrs TgUtf8 cs ∧ TgClose e := by
  induction n generalizing l with
  | zero => cases h
  | succ n ih =>
    cases l with
    | nil => cases h
    | cons b t =>
      rw [vstringN] at h
      split at h
      · rename_i hb
        obtain ⟨cs, e, rfl, hc, he⟩ := ih h
        obtain ⟨h1, h2, h3, h4⟩ := (strtoksu_ascii b).1 hb
        exact ⟨[b] ++ cs, e, rfl, .cons _ _ (.ascii b h1 h2 h3 h4) hc, he⟩
      · split at h
        · rename_i hq
          cases h
          exact ⟨[], [b], rfl, .nil, .inl (by rw [show b = 0x22 by simpa using hq])⟩
        · split at h
          · split at h
            · cases h
            · cases h
            · rename_i k' hv
              obtain ⟨m, rest, hm, hl, hu⟩ := vutf8_sound hv
              rw [hm, ← hl, List.drop_left] at h
              obtain ⟨cs, e, rfl, hc, he⟩ := ih h
              exact ⟨m ++ cs, e, by rw [hm]; simp, .cons _ _ (.multi m hu) hc, he⟩
          · split at h
            · rename_i hbs
              have hbs : b = 0x5C := by simpa using hbs
              split at h
              · cases h
              · rename_i l' hv
                cases t with
                | nil => simp [vesc] at hv
                | cons c t =>
                  obtain ⟨e', hm, hu⟩ := vesc_pos hbs hv
                  obtain ⟨cs, e, rfl, hc, he⟩ := ih h
                  exact ⟨e' ++ cs, e, by rw [hm]; simp, .cons _ _ hu hc, he⟩
              · rename_i l' hv
                cases h
                obtain ⟨e, hm, he⟩ := vesc_neg hbs hv
                exact ⟨[], e, hm, .nil, he⟩
            · cases h

theorem follow_not_hex {k} (h : Follow k) : ∀ b t, k = b :: t → isHex b = false := by
  rintro b t rfl
  simp only [Follow, isWs_iff] at h
  revert h; clear * -; revert b; decide

theorem follow_not_esc {k} (h : Follow k) (n) : vstringN (n + 1) (0x5C :: k) = .pos k := by
  cases k with
  | nil => simp [vstringN, strtoksu, vesc, V.flip]
  | cons b t =>
    have : (b == 0x22 || b == 0x5C || b == 0x2F || b == 0x62 || b == 0x66 || b == 0x6E ||
       b == 0x72 || b == 0x74) = false ∧ (b == 0x75) = false := by
      simp only [Follow, isWs_iff] at h
      revert h; clear * -; revert b; decide
    rw [vstringN, if_neg (by decide), if_neg (by decide), if_neg (by decide), if_pos (by decide)]
    unfold vesc
    dsimp only
    rw [this.1, this.2]
    rfl

theorem vstringN_complete {cs e k} (hc : Chrs TgUtf8 cs) (he : TgClose e) (hk : e = [0x22] ∨ Follow k) :
    ∀ n, cs.length < n → vstringN n (cs ++ (e ++ k)) = .pos k := by
  induction hc with
  | nil =>
    intro n hn
    obtain ⟨n, rfl⟩ : ∃ m, n = m + 1 := ⟨n - 1, by omega⟩
    rcases he with rfl | rfl | ⟨hs, rfl, hl, hh⟩
    · simp [vstringN, strtoksu]
    · exact follow_not_esc (hk.resolve_left (by decide)) n
    · have hk := hk.resolve_left (by simp)
      rw [List.nil_append, List.cons_append, vstringN, if_neg (by decide), if_neg (by decide), if_neg (by decide),
        if_pos (by decide), List.cons_append]
      unfold vesc
      dsimp only
      rw [if_neg (by decide), if_pos (by decide), vescHex_bad 4 hl hh (follow_not_hex hk)]
      rfl
  | cons c l hu _ ih =>
    intro n hn
    obtain ⟨n, rfl⟩ : ∃ m, n = m + 1 := ⟨n - 1, by omega⟩
    rw [List.append_assoc]
    rw [List.length_append] at hn
    cases hu with
    | ascii b h1 h2 h3 h4 =>
      rw [List.cons_append, List.nil_append, vstringN, if_pos ((strtoksu_ascii b).2 ⟨h1, h2, h3, h4⟩)]
      exact ih n (by simp at hn; omega)
    | multi _ hu =>
      obtain ⟨h1, h2, b, t, rfl, h3, h4, h5⟩ := vutf8_complete hu (l ++ (e ++ k))
      rw [List.cons_append, vstringN, if_neg h3, h4, if_neg (by simp), if_pos h5]
      rw [← List.cons_append, h1]
      dsimp only
      rw [List.drop_left]
      exact ih n (by omega)
    | esc b hb =>
      rw [List.cons_append, vstringN, if_neg (by decide), if_neg (by decide), if_neg (by decide), if_pos (by decide)]
      unfold vesc
      dsimp only [List.cons_append, List.nil_append]
      rw [if_pos (by simpa [or_assoc] using hb)]
      exact ih n (by simp at hn; omega)
    | uesc a b c d ha hb hc hd =>
      rw [List.cons_append, vstringN, if_neg (by decide), if_neg (by decide), if_neg (by decide), if_pos (by decide)]
      unfold vesc
      dsimp only [List.cons_append, List.nil_append]
      rw [if_neg (by decide), if_pos (by decide)]
      have := vescHex_complete (hs := [a, b, c, d]) (k := l ++ (e ++ k)) 4 rfl (by simp [ha, hb, hc, hd])
      simp only [List.cons_append, List.nil_append] at this
      rw [this]
      exact ih n (by simp at hn; omega)

theorem vstring_sound {l k} (h : vstring l = .pos k) :
    ∃ s, 0x22 :: l = s ++ k ∧ TgStr s := by
  obtain ⟨cs, e, rfl, hc, he⟩ := vstringN_sound h
  exact ⟨0x22 :: (cs ++ e), by simp, cs, e, hc, he, rfl⟩

theorem vstring_complete {cs e k} (hc : Chrs TgUtf8 cs) (he : TgClose e) (hk : Follow k) :
    vstring (cs ++ (e ++ k)) = .pos k :=
  vstringN_complete hc he (.inr hk) _ (by simp; omega)

/-- `vkey` is `vstring`: it only adds a fast scan over ASCII. -/
theorem vkey_eq (l) : vkey l = vstring l := by
  unfold vstring
  induction l with
  | nil => rfl
  | cons b t ih =>
    rw [vkey, List.length_cons, vstringN]
    split
    · exact ih
    · split
      · rfl
      · unfold vstring
        rename_i h1 h2
        rw [List.length_cons, vstringN, if_neg h1, if_neg h2]

end Tg.Json
