import Verif.Lemmas.WkbParse
/-!
The WKB parser on arbitrary bytes: every access is inside the object, except after a
position count of 2^28 or more (the 32-bit product of tg.c:13336).
-/
namespace Tg
open Spec

/-- Result of a parser started at `i`: undefined behaviour only if `bad`, and every returned index is
inside the input. -/
def Safe {α : Type} (len i : Nat) (bad : Prop) : R α → Prop
  | .ub => bad
  | .fail none _ => True
  | .fail (some j) _ => i ≤ j ∧ j ≤ len
  | .ok j _ => i ≤ j ∧ j ≤ len

theorem Safe.mono {α : Type} {len i i' : Nat} {bad bad' : Prop} {r : R α} (h : Safe len i bad r)
    (hi : i' ≤ i) (hb : bad → bad') : Safe len i' bad' r := by
  cases r with
  | ub => exact hb h
  | fail j e => cases j with
    | none => trivial
    | some j => exact ⟨by have := h.1; omega, h.2⟩
  | ok j a => exact ⟨by have := h.1; omega, h.2⟩

/-- Sequencing: dispose of the failing branches of the usual `match` on a result. -/
macro "safe_bind " h:ident : tactic => `(tactic| (
  split
  · rename_i hr; rw [hr] at $h:ident; exact $h
  · rename_i j e hr; rw [hr] at $h:ident; cases j <;> exact $h))

theorem rdU32_some {data : List Byte} {i : Nat} (swap) (h : i + 4 ≤ data.length) :
    ∃ x, rdU32 data i swap = some x := by
  unfold rdU32
  have hl : 4 ≤ (data.drop i).length := by simp; omega
  match hd : data.drop i, hl with
  | b0 :: b1 :: b2 :: b3 :: _, _ => exact ⟨_, rfl⟩

theorem rdU32_bytes {data : List Byte} {i : Nat} {x} (h : rdU32 data i false = some x) :
    ∃ rest, data.drop i = Spec.u32 false x ++ rest := by
  unfold rdU32 at h
  split at h
  · rename_i b0 b1 b2 b3 rest hd
    cases h
    refine ⟨rest, ?_⟩
    have key := byteAt_rd32 b0 b1 b2 b3
    have k0 := key 0 b0 (by simp)
    have k1 := key 1 b1 (by simp)
    have k2 := key 2 b2 (by simp)
    have k3 := key 3 b3 (by simp)
    simp only [byteAt] at k0 k1 k2 k3
    rw [hd]
    simp [Spec.u32, k0, k1, k2, k3]
  · cases h

theorem rdF64_some {data : List Byte} {i : Nat} (swap) (h : i + 8 ≤ data.length) :
    ∃ x, rdF64 data i swap = some x := by
  unfold rdF64
  have hl : 8 ≤ (data.drop i).length := by simp; omega
  match hd : data.drop i, hl with
  | b0 :: b1 :: b2 :: b3 :: b4 :: b5 :: b6 :: b7 :: _, _ => exact ⟨_, rfl⟩

theorem readDoubles_some {data : List Byte} (swap) (d : Nat) {i : Nat} (h : i + 8 * d ≤ data.length) :
    ∃ p, readDoubles data swap d i = some p := by
  induction d generalizing i with
  | zero => exact ⟨[], rfl⟩
  | succ d ih =>
    obtain ⟨x, hx⟩ := rdF64_some (data := data) (i := i) swap (by omega)
    obtain ⟨p, hp⟩ := ih (i := i + 8) (by omega)
    exact ⟨x :: p, by simp [readDoubles, hx, hp]⟩

theorem rawPoints_some {data : List Byte} (c : Nat) {i : Nat} (h : i + 16 * c ≤ data.length) :
    ∃ p, rawPoints data c i = some p := by
  induction c generalizing i with
  | zero => exact ⟨[], rfl⟩
  | succ c ih =>
    obtain ⟨x, hx⟩ := readDoubles_some (data := data) (i := i) false 2 (by omega)
    obtain ⟨p, hp⟩ := ih (i := i + 16) (by omega)
    exact ⟨x :: p, by simp [rawPoints, hx, hp]⟩

/-- Either the word is missing or it is read and the continuation runs. -/
theorem readU32_cases {α : Type} (data : List Byte) (i : Nat) (swap : Bool) (inv : R α) (k) :
    readU32 data i swap inv k = inv ∨
      ∃ x, rdU32 data i swap = some x ∧ i + 4 ≤ data.length ∧ readU32 data i swap inv k = k x (i + 4) := by
  unfold readU32
  split
  · exact .inl rfl
  · rename_i h
    obtain ⟨x, hx⟩ := rdU32_some (data := data) (i := i) swap (by omega)
    exact .inr ⟨x, hx, by omega, by rw [hx]⟩

theorem posnLoop_safe (data : List Byte) (swap) (d c : Nat) {i : Nat} (hi : i ≤ data.length) :
    Safe data.length i False (posnLoop data swap d c i) ∧
      ∀ j ps, posnLoop data swap d c i = .ok j ps → j = i + c * (8 * d) := by
  induction c generalizing i with
  | zero =>
    simp only [posnLoop]
    exact ⟨⟨Nat.le_refl _, hi⟩, fun j ps h => by cases h; simp⟩
  | succ c ih =>
    rw [posnLoop]
    split
    · exact ⟨trivial, fun j ps h => by cases h⟩
    · rename_i hg
      obtain ⟨p, hp⟩ := readDoubles_some (data := data) swap d (i := i) (by omega)
      rw [hp]
      obtain ⟨a, b⟩ := ih (i := i + 8 * d) (by omega)
      dsimp only
      constructor
      · replace a := a.mono (i' := i) (by omega) id
        safe_bind a
        rename_i hr
        rw [hr] at a
        exact a
      · intro j ps h
        cases hr : posnLoop data swap d c (i + 8 * d) with
        | ub => rw [hr] at h; cases h
        | fail j e => rw [hr] at h; cases h
        | ok j' a' =>
          rw [hr] at h
          cases h
          rw [b _ _ hr, Nat.add_mul]
          omega

/-- A word of at least 2^28 at or after `i`, read little endian. -/
def BigAt (data : List Byte) (i : Nat) : Prop :=
  ∃ k n, i ≤ k ∧ rdU32 data k false = some n ∧ 2^28 ≤ n.toNat

theorem npointsCheck_safe {α : Type} {ring count len i bad} {k : R α} (hc : count < 2^28)
    (h : Safe len i bad k) : Safe len i bad (npointsCheck ring count k) := by
  unfold npointsCheck
  rw [if_neg (by omega), if_neg (by omega)]
  exact h

theorem check_safe {ring : Bool} {pts : List Pt} {len i bad} {r : R (List (List F64))} (h : Safe len i bad r) :
    Safe len i bad (match checkPosns ring pts with
      | some e => .fail none e
      | none => r) := by
  cases checkPosns ring pts with
  | some e => trivial
  | none => exact h

theorem parsePosns_safe (ring : Bool) (d : Nat) (hd : 2 ≤ d) (data : List Byte) (hlen : data.length < 2^32)
    {i : Nat} (swap : Bool) :
    Safe data.length i (d = 2 ∧ swap = false ∧ BigAt data i) (parsePosns ring d data i swap) := by
  unfold parsePosns
  rcases readU32_cases data i swap (.fail none invalidBinary) _ with h | ⟨x, hx, hl, h⟩
  · rw [h]; trivial
  · rw [h]
    clear h
    split
    · exact ⟨by omega, hl⟩
    · rename_i hne
      split
      · rename_i hg
        obtain ⟨rfl, rfl, hg⟩ := hg
        by_cases hbig : 2^28 ≤ x.toNat
        · -- a huge count: everything is excused, but returned indices are still checked
          have hbad : (2 = 2 ∧ false = false ∧ BigAt data i) := ⟨rfl, rfl, i, x, Nat.le_refl _, hx, hbig⟩
          unfold npointsCheck
          split
          · exact hbad
          · split
            · trivial
            · cases rawPoints data x.toNat (i + 4) with
              | none => exact hbad
              | some ps => exact check_safe ⟨by omega, by omega⟩
        · have hmod : (x.toNat * 16) % 2^32 = x.toNat * 16 := Nat.mod_eq_of_lt (by omega)
          rw [hmod] at hg ⊢
          refine npointsCheck_safe (by omega) ?_
          obtain ⟨ps, hps⟩ := rawPoints_some (data := data) x.toNat (i := i + 4) (by omega)
          rw [hps]
          exact check_safe ⟨by omega, by omega⟩
      · obtain ⟨a, b⟩ := posnLoop_safe data swap d x.toNat (i := i + 4) hl
        replace a := a.mono (i' := i) (bad' := d = 2 ∧ swap = false ∧ BigAt data i) (by omega)
          (fun h => h.elim)
        safe_bind a
        rename_i j ps h
        rw [h] at a
        have hj := a.2
        have := b j ps h
        have hx : x.toNat * 16 ≤ x.toNat * (8 * d) := Nat.mul_le_mul_left _ (by omega)
        exact npointsCheck_safe (by omega) (check_safe ⟨by omega, hj⟩)

theorem BigAt.mono {data : List Byte} {i j : Nat} (h : BigAt data j) (hij : i ≤ j) : BigAt data i := by
  obtain ⟨k, n, a, b⟩ := h
  exact ⟨k, n, by omega, b⟩

theorem ringLoop_safe (d : Nat) (hd : 2 ≤ d) (data : List Byte) (hlen : data.length < 2^32)
    (swap : Bool) (c : Nat) {i : Nat} (hi : i ≤ data.length) :
    Safe data.length i (d = 2 ∧ swap = false ∧ BigAt data i) (ringLoop d data swap c i) := by
  induction c generalizing i with
  | zero => exact ⟨Nat.le_refl _, hi⟩
  | succ c ih =>
    rw [ringLoop]
    have h := parsePosns_safe true d hd data hlen (i := i) swap
    safe_bind h
    rename_i j r hr
    rw [hr] at h
    have h2 := (ih (i := j) h.2).mono (bad' := d = 2 ∧ swap = false ∧ BigAt data i) h.1 (fun ⟨a, b, c⟩ => ⟨a, b, c.mono h.1⟩)
    safe_bind h2
    rename_i k rs hk
    rw [hk] at h2
    exact h2

theorem dimsOf_two {z m} (h : dimsOf z m = 2) : z = false ∧ m = false := by
  cases z <;> cases m <;> simp_all [dimsOf]

theorem parsePoint_safe (z m) (data : List Byte) {i : Nat} (swap) :
    Safe data.length i False (parsePoint z m data i swap) := by
  unfold parsePoint
  dsimp only
  split
  · trivial
  · obtain ⟨p, hp⟩ := readDoubles_some (data := data) swap (dimsOf z m) (i := i) (by omega)
    rw [hp]
    dsimp only
    split <;> exact ⟨by omega, by omega⟩

theorem parseLine_safe (z m) (data : List Byte) (hlen : data.length < 2^32) {i : Nat}
    (_hi : i ≤ data.length) (swap) :
    Safe data.length i (z = false ∧ m = false ∧ swap = false ∧ BigAt data i)
      (parseLine z m data i swap) := by
  unfold parseLine
  have h := (parsePosns_safe false (dimsOf z m) (by rw [dimsOf_eq]; exact dims_ge z m) data hlen (i := i)
    swap).mono (Nat.le_refl _) (bad' := z = false ∧ m = false ∧ swap = false ∧ BigAt data i)
    (fun ⟨a, b, c⟩ => ⟨(dimsOf_two a).1, (dimsOf_two a).2, b, c⟩)
  safe_bind h
  rename_i j r hr
  rw [hr] at h
  exact h

theorem parsePoly_safe (z m) (data : List Byte) (hlen : data.length < 2^32) {i : Nat}
    (swap) :
    Safe data.length i (z = false ∧ m = false ∧ swap = false ∧ BigAt data i)
      (parsePoly z m data i swap) := by
  unfold parsePoly
  rcases readU32_cases data i swap (.fail none invalidBinary) _ with h | ⟨x, hx, hl, h⟩
  · rw [h]; trivial
  · rw [h]
    clear h
    have h := (ringLoop_safe (dimsOf z m) (by rw [dimsOf_eq]; exact dims_ge z m) data hlen swap x.toNat
      (i := i + 4) hl).mono (i' := i) (bad' := z = false ∧ m = false ∧ swap = false ∧ BigAt data i)
      (by omega) (fun ⟨a, b, c⟩ => ⟨(dimsOf_two a).1, (dimsOf_two a).2, b, c.mono (by omega)⟩)
    safe_bind h
    rename_i j r hr
    rw [hr] at h
    exact h

theorem childLoop_safe {child : Nat → R Geom} {len : Nat} {bad : Prop}
    (hc : ∀ i, i ≤ len → Safe len i bad (child i)) (want z m) (c : Nat) {i : Nat} (hi : i ≤ len) :
    Safe len i bad (childLoop child want z m c i) := by
  induction c generalizing i with
  | zero => exact ⟨Nat.le_refl _, hi⟩
  | succ c ih =>
    rw [childLoop]
    have h := hc i hi
    safe_bind h
    rename_i j g hg
    rw [hg] at h
    split
    · exact h
    · have h2 := (ih (i := j) h.2).mono h.1 id
      safe_bind h2
      rename_i k gs hk
      rw [hk] at h2
      exact h2

theorem parseMulti_safe {child : Nat → R Geom} {bad : Prop} (data : List Byte)
    (hc : ∀ i, i ≤ data.length → Safe data.length i bad (child i)) (t want z m) {i : Nat} (hi : i ≤ data.length) (swap) :
    Safe data.length i bad (parseMulti child t want z m data i swap) := by
  unfold parseMulti
  rcases readU32_cases data i swap (.fail (some i) invalidBinary) _ with h | ⟨x, hx, hl, h⟩
  · rw [h]; exact ⟨Nat.le_refl _, hi⟩
  · rw [h]
    clear h
    have h := (childLoop_safe hc want z m x.toNat (i := i + 4) hl).mono (i' := i) (by omega) id
    safe_bind h
    rename_i j r hr
    rw [hr] at h
    exact h

theorem decodeType_code_inv {n t z m} (h : decodeType n = some (t, z, m)) : n = typeCode t z m := by
  unfold decodeType at h
  dsimp only at h
  have hn := Nat.div_add_mod n 1000
  split at h
  · rename_i t' z' m' ht hz
    cases h
    have e1 : n % 1000 = typeCode t false false := by
      split at ht <;> first | (cases ht; assumption) | cases ht
    have e2 : n / 1000 = z.toNat + 2 * m.toNat := by
      split at hz <;> first | (cases hz; assumption) | cases hz
    rw [← hn, e1, e2]
    cases t <;> cases z <;> cases m <;> rfl
  · cases h

theorem wkbDispatch_safe {child : Nat → R Geom} {bad : Prop} (data : List Byte) (hlen : data.length < 2^32)
    (hc : ∀ i, i ≤ data.length → Safe data.length i bad (child i)) {i : Nat} (hi : i ≤ data.length)
    (type swap) (hb : (type = 2 ∨ type = 3) → swap = false → BigAt data i → bad) :
    Safe data.length i bad (wkbDispatch child type data i swap) := by
  unfold wkbDispatch
  split
  · trivial
  · exact (parsePoint_safe ..).mono (Nat.le_refl _) False.elim
  · rename_i z m h
    have := decodeType_code_inv h
    refine (parseLine_safe _ _ data hlen hi _).mono (Nat.le_refl _) ?_
    rintro ⟨rfl, rfl, c, d⟩
    exact hb (.inl this) c d
  · rename_i z m h
    have := decodeType_code_inv h
    refine (parsePoly_safe _ _ data hlen _).mono (Nat.le_refl _) ?_
    rintro ⟨rfl, rfl, c, d⟩
    exact hb (.inr this) c d
  · exact parseMulti_safe data hc _ _ _ _ hi _
  · exact parseMulti_safe data hc _ _ _ _ hi _
  · exact parseMulti_safe data hc _ _ _ _ hi _
  · exact parseMulti_safe data hc _ _ _ _ hi _

theorem parseWkb_safe (data : List Byte) (hlen : data.length < 2^32) (r : Nat) {i : Nat} (hi : i ≤ data.length) :
    Safe data.length i (HugeCount data) (parseWkb r data i) := by
  induction r generalizing i with
  | zero =>
    rw [parseWkb]
    split
    · trivial
    · have : (data.drop i).length = data.length - i := by simp
      cases hd : data.drop i with
      | nil => rw [hd] at this; simp at this; omega
      | cons b rest => trivial
  | succ r ih =>
    rw [parseWkb]
    split
    · trivial
    · have : (data.drop i).length = data.length - i := by simp
      cases hd : data.drop i with
      | nil => rw [hd] at this; simp at this; omega
      | cons b rest =>
        dsimp only
        split
        · trivial
        · rename_i hb
          unfold parseBody
          rcases readU32_cases data (i+1) (b == 0#8) (.fail none invalidBinary) _ with h | ⟨w, hw, hl, h⟩
          · rw [h]; trivial
          · rw [h]
            clear h
            dsimp only
            have hbad : ∀ k, i + 5 ≤ k → (((w &&& 65535#32).toNat = 2 ∨ (w &&& 65535#32).toNat = 3) → (b == 0#8) = false → BigAt data k → HugeCount data) := by
              intro k hk ht hs ⟨k', n, a, hn, c⟩
              rw [hs] at hw
              have hb1 : b = 1#8 := by
                revert hb hs
                clear * -
                revert b
                decide
              subst hb1
              obtain ⟨rest', hr⟩ := rdU32_bytes hw
              refine ⟨i, w, k', n, ⟨rest', ?_⟩, ?_, by omega, rdU32_bytes hn, c⟩
              · have h1 := drop_adv (a := [1#8]) (by simpa using hd)
                rw [List.length_singleton] at h1
                rw [hr] at h1
                rw [hd, ← h1]; rfl
              · rcases ht with h | h
                · left; exact BitVec.eq_of_toNat_eq h
                · right; exact BitVec.eq_of_toNat_eq h
            split
            · rcases readU32_cases data (i+1+4) (b == 0#8) (.fail none invalidBinary) _ with h | ⟨w', hw', hl', h⟩
              · rw [h]; trivial
              · rw [h]
                exact (wkbDispatch_safe data hlen (fun i hi => ih hi) hl' _ _ (hbad _ (by omega))).mono (by omega) id
            · exact (wkbDispatch_safe data hlen (fun i hi => ih hi) hl _ _ (hbad _ (by omega))).mono (by omega) id

end Tg
