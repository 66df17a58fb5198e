import Verif.Model.Hex
import Verif.Spec.Hex
import Verif.Lemmas.WkbTop
namespace Tg
open Spec

theorem hexchars_lo : ∀ b : Byte, hexchars[(b &&& 15#8).toNat]? = some (upDigit (b.toNat % 16)) := by decide
theorem hexchars_hi : ∀ b : Byte, hexchars[((b >>> 4) &&& 15#8).toNat]? = some (upDigit (b.toNat / 16)) := by decide

theorem hexText_length (bs : List Byte) : (hexText bs).length = 2 * bs.length := by
  induction bs with
  | nil => rfl
  | cons b bs ih => simp only [hexText, List.flatMap_cons, List.length_append] at *; simp [ih]; omega

theorem hexText_get (bs : List Byte) (i : Nat) (b : Byte) (h : bs[i]? = some b) :
    (hexText bs)[2 * i]? = some (upDigit (b.toNat / 16)) ∧ (hexText bs)[2 * i + 1]? = some (upDigit (b.toNat % 16)) := by
  induction bs generalizing i with
  | nil => simp at h
  | cons a bs ih =>
    have e : hexText (a :: bs) = upDigit (a.toNat / 16) :: upDigit (a.toNat % 16) :: hexText bs := rfl
    rw [e]
    cases i with
    | zero => simp at h; subst h; simp
    | succ i =>
      simp only [List.getElem?_cons_succ] at h
      have := ih i h
      rw [show 2 * (i + 1) = 2 * i + 1 + 1 by omega]
      simpa using this

/-- State of the loop before index `i` is handled (`i + 1` bytes are left), `bs` the WKB, `orig` the buffer before the call. -/
structure HexInv (bs orig : List Byte) (n c : Nat) (w : Wr) : Prop where
  len : w.dst.length = orig.length
  ub : w.ub = false
  low : ∀ k, k < n → k < c → w.dst[k]? = bs[k]?
  high : ∀ k, k < n → 2 * c ≤ k → k < 2 * bs.length → w.dst[k]? = (hexText bs)[k]?
  rest : ∀ k, n ≤ k ∨ 2 * bs.length ≤ k → w.dst[k]? = orig[k]?

theorem hexStore_eq {n k : Nat} {x c : Byte} {w : Wr} (hn : n ≤ w.dst.length) (hx : hexchars[x.toNat]? = some c) :
    hexStore n k x w = if k < n then { w with dst := w.dst.set k c } else w := by
  unfold hexStore
  split
  · rw [hx]
    simp only [Wr.store]
    rw [if_pos (by omega)]
  · rfl

theorem hexStep_inv {bs orig : List Byte} {n i : Nat} {w : Wr} (hn : n ≤ orig.length) (hi : i < bs.length)
    (h : HexInv bs orig n (i + 1) w) : HexInv bs orig n i (hexStep n i (2 * i + 1) w) := by
  unfold hexStep
  by_cases hin : i < n
  · rw [if_pos hin]
    have hlow := h.low i hin (by omega)
    have hb : bs[i]? = some bs[i] := List.getElem?_eq_getElem hi
    rw [hlow, hb]
    dsimp only
    obtain ⟨t1, t2⟩ := hexText_get bs i _ hb
    have hl := h.len
    rw [hexStore_eq (k := 2 * i + 1) (w := w) (by omega) (hexchars_lo _)]
    generalize bs[i] = b at *
    have key : ∀ w1 : Wr, w1.dst.length = w.dst.length → w1.ub = w.ub →
        (∀ k, w1.dst[k]? = if 2 * i + 1 = k ∧ k < n then some (upDigit (b.toNat % 16)) else w.dst[k]?) →
        HexInv bs orig n i (hexStore n (2 * i + 1 - 1) (b >>> 4 &&& 15#8) w1) := by
      intro w1 e1 e2 e3
      rw [hexStore_eq (by omega) (hexchars_hi _), show 2 * i + 1 - 1 = 2 * i by omega]
      have hget : ∀ k, (if 2 * i < n then { w1 with dst := w1.dst.set (2 * i) (upDigit (b.toNat / 16)) } else w1).dst[k]? =
          if 2 * i = k ∧ k < n then some (upDigit (b.toNat / 16)) else
          if 2 * i + 1 = k ∧ k < n then some (upDigit (b.toNat % 16)) else w.dst[k]? := by
        intro k
        rw [← e3]
        split
        · simp only [List.getElem?_set]
          split
          · subst k
            rw [if_pos (by omega), if_pos ⟨rfl, by omega⟩]
          · simp [*]
        · rw [if_neg (by omega)]
      refine ⟨?_, ?_, ?_, ?_, ?_⟩
      · split <;> simp [e1, hl]
      · split <;> simp [e2, h.ub]
      · intro k h1 h2
        rw [hget, if_neg (by omega), if_neg (by omega)]
        exact h.low k h1 (by omega)
      · intro k h1 h2 h3
        rw [hget]
        split
        · rename_i hk; rw [← hk.1, t1]
        · split
          · rename_i hk; rw [← hk.1, t2]
          · exact h.high k h1 (by omega) h3
      · intro k hk
        rw [hget, if_neg (by omega), if_neg (by omega)]
        exact h.rest k hk
    apply key
    · split <;> simp
    · split <;> simp
    intro k
    split
    · simp only [List.getElem?_set]
      split
      · subst k
        rw [if_pos (by omega), if_pos ⟨rfl, by omega⟩]
      · simp [*]
    · rw [if_neg (by omega)]
  · rw [if_neg hin]
    exact ⟨h.len, h.ub, fun k h1 h2 => h.low k h1 (by omega), fun k h1 h2 h3 => by omega, h.rest⟩

theorem hexLoop_inv {bs orig : List Byte} {n : Nat} (hn : n ≤ orig.length) : ∀ (i : Nat) (w : Wr), i < bs.length →
    HexInv bs orig n (i + 1) w → HexInv bs orig n 0 (hexLoop n i (2 * i + 1) w) := by
  intro i
  induction i with
  | zero => intro w hi h; exact hexStep_inv hn hi h
  | succ i ih =>
    intro w hi h
    unfold hexLoop
    rw [show 2 * (i + 1) + 1 - 2 = 2 * i + 1 by omega]
    exact ih _ (by omega) (hexStep_inv hn hi h)

theorem encode_pos (v : GV) : 0 < (encode v).length := by
  unfold encode; split <;> simp [header]

theorem tgGeomHex_eq {g : Geom} {v : GV} (hg : view g = some v) (hf : Fits v) (dst : List Byte) (n : Nat)
    (hn : n ≤ dst.length) :
    let t := hexText (encode v)
    (tgGeomHex g dst n).ub = false ∧ (tgGeomHex g dst n).count = 2 * (encode v).length ∧
    (tgGeomHex g dst n).dst =
      if n = 0 then dst else t.take (n - 1) ++ 0#8 :: dst.drop (min (n - 1) t.length + 1) := by
  obtain ⟨h1, h2, h3⟩ := tgGeomWkb_eq hg hf dst n hn
  have hpos := encode_pos v
  unfold tgGeomHex
  dsimp only
  rw [h2, if_neg (by omega)]
  generalize encode v = bs at *
  have inv0 : HexInv bs dst n (bs.length - 1 + 1) (tgGeomWkb g dst n) := by
    refine ⟨?_, h1, ?_, ?_, ?_⟩
    · rw [h3]; simp; omega
    · intro k k1 k2
      rw [h3, List.getElem?_append_left (by simp; omega), List.getElem?_take_of_lt k1]
    · intro k k1 k2 k3; omega
    · intro k hk
      rw [h3, List.getElem?_append_right (by simp; omega), List.getElem?_drop]
      congr 1
      simp only [List.length_take]
      omega
  have inv := hexLoop_inv hn (bs.length - 1) _ (by omega) inv0
  rw [show 2 * (bs.length - 1) + 1 = bs.length * 2 - 1 by omega] at inv
  generalize hexLoop n (bs.length - 1) (bs.length * 2 - 1) (tgGeomWkb g dst n) = w at *
  have hl := inv.len
  have ht := hexText_length bs
  have hfin : ∀ m, m = min (n - 1) (hexText bs).length → 0 < n →
      (w.store m 0#8).ub = false ∧ (w.store m 0#8).dst =
        (hexText bs).take (n - 1) ++ 0#8 :: dst.drop (m + 1) := by
    intro m hm h0
    unfold Wr.store
    rw [if_pos (by omega)]
    refine ⟨inv.ub, ?_⟩
    apply List.ext_getElem?
    intro k
    simp only [List.getElem?_set]
    by_cases hk : m = k
    · subst hk
      rw [if_pos rfl, if_pos (by omega), List.getElem?_append_right (by simp; omega)]
      simp only [List.length_take]
      rw [show m - min (n - 1) (hexText bs).length = 0 by omega]
      rfl
    · rw [if_neg hk]
      by_cases hk2 : k < m
      · rw [inv.high k (by omega) (by omega) (by omega), List.getElem?_append_left (by simp; omega),
          List.getElem?_take_of_lt (by omega)]
      · rw [inv.rest k (by omega), List.getElem?_append_right (by simp; omega)]
        simp only [List.length_take]
        rw [← hm, show k - m = (k - m - 1) + 1 by omega, List.getElem?_cons_succ, List.getElem?_drop]
        congr 1
        omega
  refine ⟨?_, by dsimp only; omega, ?_⟩
  · split
    · exact (hfin _ (by omega) (by omega)).1
    · split
      · exact (hfin _ (by omega) (by omega)).1
      · exact inv.ub
  · by_cases h0 : n = 0
    · rw [if_pos h0, if_neg (by omega), if_neg (by omega)]
      apply List.ext_getElem?
      intro k
      exact inv.rest k (by omega)
    · rw [if_neg h0]
      split
      · rw [(hfin _ (by omega) (by omega)).2]
        rw [show min (n - 1) (hexText bs).length = bs.length * 2 by omega]
      · rw [if_pos (by omega), (hfin _ (by omega) (by omega)).2]
        rw [show min (n - 1) (hexText bs).length = n - 1 by omega]

theorem hextoks_spec : ∀ c : Byte, ∃ t, hextoks[c.toNat]? = some t ∧
    ((t = 0#8 ∧ ¬ (48 ≤ c.toNat ∧ c.toNat ≤ 57) ∧ ¬ (65 ≤ c.toNat ∧ c.toNat ≤ 70) ∧ ¬ (97 ≤ c.toNat ∧ c.toNat ≤ 102)) ∨
     (t ≠ 0#8 ∧ (t - 1#8).toNat < 16 ∧
      ((48 ≤ c.toNat ∧ c.toNat ≤ 57 ∧ (t - 1#8).toNat = c.toNat - 48) ∨ (65 ≤ c.toNat ∧ c.toNat ≤ 70 ∧ (t - 1#8).toNat = c.toNat - 55) ∨
  (97 ≤ c.toNat ∧ c.toNat ≤ 102 ∧ (t - 1#8).toNat = c.toNat - 87)))) := by
  have h : hextoks.length = 256 := by decide +kernel
  intro c
  refine ⟨hextoks.getD c.toNat 0, ?_, ?_⟩
  · have := c.isLt
    rw [List.getD_eq_getElem?_getD, List.getElem?_eq_getElem (by omega)]; rfl
  · clear h
    revert c
    decide +kernel

theorem hextoks_hex {c : Byte} {v : Nat} (h : IsHex c v) :
    ∃ t, hextoks[c.toNat]? = some t ∧ t ≠ 0#8 ∧ (t - 1#8).toNat = v ∧ v < 16 := by
  obtain ⟨t, h1, h2⟩ := hextoks_spec c
  refine ⟨t, h1, ?_⟩
  unfold IsHex at h
  rcases h2 with ⟨_, h2⟩ | ⟨h3, h4, h5⟩
  · omega
  · exact ⟨h3, by omega, by omega⟩

theorem hex_byte (a b : Byte) (ha : a.toNat < 16) (hb : b.toNat < 16) :
    (a <<< 4) ||| b = BitVec.ofNat 8 (16 * a.toNat + b.toNat) := by
  apply BitVec.eq_of_toNat_eq
  have h1 : (a <<< 4).toNat = a.toNat <<< 4 := by
    rw [BitVec.toNat_shiftLeft, Nat.mod_eq_of_lt]
    rw [Nat.shiftLeft_eq]; omega
  rw [BitVec.toNat_or, h1, ← Nat.shiftLeft_add_eq_or_of_lt (by simpa using hb), Nat.shiftLeft_eq]
  simp
  omega

theorem hexDecode_hexOf {s bs : List Byte} (h : HexOf s bs) (cap : Nat) : ∀ acc, acc.length + bs.length ≤ cap →
    hexDecode cap s acc = .ok (acc ++ bs) := by
  induction h with
  | nil => intro acc _; simp [hexDecode]
  | cons c d u v s bs hc hd hs ih =>
    intro acc hcap
    obtain ⟨t, t1, t2, t3, t4⟩ := hextoks_hex hc
    obtain ⟨r, r1, r2, r3, r4⟩ := hextoks_hex hd
    simp only [List.length_cons] at hcap
    unfold hexDecode
    rw [t1, r1]
    dsimp only
    rw [if_neg (by simp [t2, r2]), if_pos (by omega), ih _ (by simp; omega), hex_byte _ _ (by omega) (by omega), t3, r3]
    simp

/-- On any text of even length the loop ends with the decoded bytes or with "invalid". -/
theorem hexDecode_cases (cap : Nat) : ∀ (k : Nat) (s acc : List Byte), s.length = 2 * k → acc.length + k ≤ cap →
    (∃ bs, HexOf s bs ∧ hexDecode cap s acc = .ok (acc ++ bs)) ∨
    ((∃ c ∈ s, ∀ v, ¬ IsHex c v) ∧ hexDecode cap s acc = .invalid) := by
  intro k
  induction k with
  | zero =>
    intro s acc h1 h2
    cases s with
    | nil => exact .inl ⟨[], .nil, by simp [hexDecode]⟩
    | cons a s => simp at h1
  | succ k ih =>
    intro s acc h1 h2
    match s, h1 with
    | c :: d :: s, h1 =>
      simp only [List.length_cons] at h1
      obtain ⟨t, t1, t2⟩ := hextoks_spec c
      obtain ⟨r, r1, r2⟩ := hextoks_spec d
      have bad : ∀ x : Byte, (¬ (48 ≤ x.toNat ∧ x.toNat ≤ 57) ∧ ¬ (65 ≤ x.toNat ∧ x.toNat ≤ 70) ∧ ¬ (97 ≤ x.toNat ∧ x.toNat ≤ 102)) →
          ∀ v, ¬ IsHex x v := by intro x hx v hv; unfold IsHex at hv; omega
      rcases t2 with ⟨e1, e2⟩ | ⟨e1, e2, e3⟩
      · right
        refine ⟨⟨c, by simp, bad c e2⟩, ?_⟩
        unfold hexDecode; rw [t1, r1]; dsimp only; rw [if_pos (.inl e1)]
      · rcases r2 with ⟨f1, f2⟩ | ⟨f1, f2, f3⟩
        · right
          refine ⟨⟨d, by simp, bad d f2⟩, ?_⟩
          unfold hexDecode; rw [t1, r1]; dsimp only; rw [if_pos (.inr f1)]
        · rcases ih s (acc ++ [((t - 1#8) <<< 4) ||| (r - 1#8)]) (by omega) (by simp; omega) with ⟨bs, g1, g2⟩ | ⟨⟨x, x1, x2⟩, g2⟩
          · left
            refine ⟨_, .cons c d _ _ s bs e3 f3 g1, ?_⟩
            unfold hexDecode; rw [t1, r1]; dsimp only
            rw [if_neg (by simp [e1, f1]), if_pos (by omega), g2, hex_byte _ _ e2 f2]
            simp
          · right
            refine ⟨⟨x, by simp [x1], x2⟩, ?_⟩
            unfold hexDecode; rw [t1, r1]; dsimp only
            rw [if_neg (by simp [e1, f1]), if_pos (by omega), g2]

theorem hexOf_length {s bs : List Byte} (h : HexOf s bs) : s.length = 2 * bs.length := by
  induction h with
  | nil => rfl
  | cons c d u v s bs hc hd hs ih => simp [ih]; omega

theorem upDigit_isHex {v : Nat} (h : v < 16) : IsHex (upDigit v) v := by
  have : ∀ v : Fin 16, IsHex (upDigit v) v := by unfold IsHex; decide
  exact this ⟨v, h⟩

theorem hexOf_hexText (bs : List Byte) : HexOf (hexText bs) bs := by
  induction bs with
  | nil => exact .nil
  | cons b bs ih =>
    have e : hexText (b :: bs) = upDigit (b.toNat / 16) :: upDigit (b.toNat % 16) :: hexText bs := rfl
    have hb := b.isLt
    have := HexOf.cons _ _ _ _ _ _ (upDigit_isHex (v := b.toNat / 16) (by omega)) (upDigit_isHex (v := b.toNat % 16) (by omega)) ih
    rw [e]
    rw [Nat.div_add_mod, BitVec.ofNat_toNat, BitVec.setWidth_eq] at this
    exact this

end Tg
