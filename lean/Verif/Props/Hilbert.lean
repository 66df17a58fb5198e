import Mathlib.Data.Fintype.EquivFin
import Mathlib.Data.Fintype.Prod
import Verif.Lemmas.Hilbert
/-! Property C44: the Hilbert key. -/
namespace Tg
open Hilbert

/-- The key of a cell of the grid of 65536 by 65536. -/
def Hilbert.keyOf (p : Fin (2 ^ 16) × Fin (2 ^ 16)) : BitVec 32 :=
  hilbertXyToIndex (BitVec.ofNat 32 p.1) (BitVec.ofNat 32 p.2)

theorem Hilbert.ofNat_top (x : Fin (2 ^ 16)) (k : Nat) (hk : 16 ≤ k) :
    (BitVec.ofNat 32 x).getLsbD k = false := by
  rw [BitVec.getLsbD_ofNat, Nat.testBit_lt_two_pow]
  · simp
  · exact lt_of_lt_of_le x.2 (Nat.pow_le_pow_right (by omega) hk)

/-- The cell of a key is its position on the curve. -/
theorem Hilbert.curve_keyOf (p : Fin (2 ^ 16) × Fin (2 ^ 16)) :
    curve 16 (false, false) (keyOf p).toNat = (p.1.1, p.2.1) := by
  have h := curve_key (BitVec.ofNat 32 p.1) (BitVec.ofNat 32 p.2) 16 (le_refl _)
  rw [state_top (le_refl _), ← key_toNat (ofNat_top p.1) (ofNat_top p.2) (le_refl _)] at h
  have h1 := p.1.2
  have h2 := p.2.2
  rw [Nat.mod_eq_of_lt (a := BitVec.toNat (hilbertXyToIndex _ _)) (BitVec.isLt _)] at h
  rw [keyOf, h]
  simp only [BitVec.toNat_ofNat]
  rw [Nat.mod_eq_of_lt (b := 2 ^ 32) (by omega), Nat.mod_eq_of_lt (b := 2 ^ 32) (by omega),
    Nat.mod_eq_of_lt h1, Nat.mod_eq_of_lt h2]

/-- Different cells have different keys, and every 32-bit number is the key of a cell. -/
theorem C44_bijective : Function.Bijective Hilbert.keyOf := by
  have inj : Function.Injective Hilbert.keyOf := by
    intro p q h
    have hp := curve_keyOf p
    rw [h, curve_keyOf q] at hp
    have h1 := congrArg Prod.fst hp
    have h2 := congrArg Prod.snd hp
    exact Prod.ext (Fin.ext h1.symm) (Fin.ext h2.symm)
  have key : Function.Bijective (fun p => (keyOf p).toFin) := by
    rw [Fintype.bijective_iff_injective_and_card]
    refine ⟨fun p q h => inj (BitVec.eq_of_toFin_eq h), ?_⟩
    rw [Fintype.card_prod, Fintype.card_fin, Fintype.card_fin]
    norm_num
  refine ⟨inj, fun b => ?_⟩
  obtain ⟨p, hp⟩ := key.2 b.toFin
  exact ⟨p, BitVec.eq_of_toFin_eq hp⟩

/-- Cells with consecutive keys are neighbours: equal in one coordinate and one apart in the
other. -/
theorem C44_neighbours (p q : Fin (2 ^ 16) × Fin (2 ^ 16))
    (h : (keyOf p).toNat + 1 = (keyOf q).toNat) :
    (p.1 = q.1 ∧ (p.2.1 + 1 = q.2.1 ∨ q.2.1 + 1 = p.2.1)) ∨
    (p.2 = q.2 ∧ (p.1.1 + 1 = q.1.1 ∨ q.1.1 + 1 = p.1.1)) := by
  have hlt : (keyOf p).toNat + 1 < 4 ^ 16 := by
    rw [h]
    exact lt_of_lt_of_le (keyOf q).isLt (by norm_num)
  have := curve_near 16 (false, false) _ hlt
  rw [h, curve_keyOf, curve_keyOf] at this
  rcases this with ⟨h1, h2⟩ | ⟨h1, h2⟩
  · exact Or.inl ⟨Fin.ext h1, h2⟩
  · exact Or.inr ⟨Fin.ext h1, h2⟩

/-- The curve goes from one corner to another. -/
theorem C44_ends : keyOf (0, 0) = 0 ∧ keyOf (65535, 0) = 0xFFFFFFFF#32 := by
  constructor <;> decide

/-- Two cells with consecutive keys. -/
example : (keyOf (31, 5)).toNat + 1 = (keyOf (30, 5)).toNat ∨ (keyOf (30, 5)).toNat + 1 = (keyOf (31, 5)).toNat := by
  decide

end Tg
