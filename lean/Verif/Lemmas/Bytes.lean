import Verif.Model.Bytes
import Mathlib.Tactic.IntervalCases
namespace Tg

theorem rd32_le32 (x : BitVec 32) :
    rd32 false ((x >>> 0).setWidth 8) ((x >>> 8).setWidth 8) ((x >>> 16).setWidth 8)
      ((x >>> 24).setWidth 8) = x := by
  unfold rd32
  apply BitVec.eq_of_getLsbD_eq
  intro i hi
  simp only [Bool.false_eq_true, if_false, BitVec.getLsbD_or, BitVec.getLsbD_shiftLeft,
    BitVec.getLsbD_setWidth, BitVec.getLsbD_ushiftRight]
  interval_cases i <;> simp

theorem rd64_le64 (x : BitVec 64) :
    rd64 false ((x >>> 0).setWidth 8) ((x >>> 8).setWidth 8) ((x >>> 16).setWidth 8)
      ((x >>> 24).setWidth 8) ((x >>> 32).setWidth 8) ((x >>> 40).setWidth 8)
      ((x >>> 48).setWidth 8) ((x >>> 56).setWidth 8) = x := by
  unfold rd64
  apply BitVec.eq_of_getLsbD_eq
  intro i hi
  simp only [Bool.false_eq_true, if_false, BitVec.getLsbD_or, BitVec.getLsbD_shiftLeft,
    BitVec.getLsbD_setWidth, BitVec.getLsbD_ushiftRight]
  interval_cases i <;> simp

theorem byteAt_rd32 (b0 b1 b2 b3 : Byte) : ∀ k b, (k = 0 ∧ b = b0) ∨ (k = 1 ∧ b = b1) ∨ (k = 2 ∧ b = b2) ∨
    (k = 3 ∧ b = b3) → byteAt (rd32 false b0 b1 b2 b3) k = b := by
  intro k b h
  apply BitVec.eq_of_getLsbD_eq
  intro i hi
  rcases h with ⟨rfl, rfl⟩ | ⟨rfl, rfl⟩ | ⟨rfl, rfl⟩ | ⟨rfl, rfl⟩ <;>
  simp only [rd32, Bool.false_eq_true, if_false, BitVec.getLsbD_extractLsb', BitVec.getLsbD_or,
    BitVec.getLsbD_shiftLeft, BitVec.getLsbD_setWidth] <;>
  interval_cases i <;> simp [BitVec.getLsbD_of_ge]

theorem rd32_swap (b0 b1 b2 b3 : Byte) : rd32 true b0 b1 b2 b3 = rd32 false b3 b2 b1 b0 := by
  have key := byteAt_rd32 b0 b1 b2 b3
  have h : rd32 true b0 b1 b2 b3 = bswap32 (rd32 false b0 b1 b2 b3) := by simp [rd32]
  rw [h]
  simp only [bswap32]
  rw [key 0 b0 (by simp), key 1 b1 (by simp), key 2 b2 (by simp), key 3 b3 (by simp)]
  simp [rd32]

theorem rd64_swap (b0 b1 b2 b3 b4 b5 b6 b7 : Byte) :
    rd64 true b0 b1 b2 b3 b4 b5 b6 b7 = rd64 false b7 b6 b5 b4 b3 b2 b1 b0 := by
  have key : ∀ k b, (k = 0 ∧ b = b0) ∨ (k = 1 ∧ b = b1) ∨ (k = 2 ∧ b = b2) ∨ (k = 3 ∧ b = b3) ∨
      (k = 4 ∧ b = b4) ∨ (k = 5 ∧ b = b5) ∨ (k = 6 ∧ b = b6) ∨ (k = 7 ∧ b = b7) →
      byteAt (rd64 false b0 b1 b2 b3 b4 b5 b6 b7) k = b := by
    intro k b h
    apply BitVec.eq_of_getLsbD_eq
    intro i hi
    rcases h with ⟨rfl, rfl⟩ | ⟨rfl, rfl⟩ | ⟨rfl, rfl⟩ | ⟨rfl, rfl⟩ | ⟨rfl, rfl⟩ | ⟨rfl, rfl⟩ |
      ⟨rfl, rfl⟩ | ⟨rfl, rfl⟩ <;>
    simp only [rd64, Bool.false_eq_true, if_false, BitVec.getLsbD_extractLsb', BitVec.getLsbD_or,
      BitVec.getLsbD_shiftLeft, BitVec.getLsbD_setWidth] <;>
    interval_cases i <;> simp [BitVec.getLsbD_of_ge]
  have h : rd64 true b0 b1 b2 b3 b4 b5 b6 b7 = bswap64 (rd64 false b0 b1 b2 b3 b4 b5 b6 b7) := by
    simp [rd64]
  rw [h]
  simp only [bswap64]
  rw [key 0 b0 (by simp), key 1 b1 (by simp), key 2 b2 (by simp), key 3 b3 (by simp),
    key 4 b4 (by simp), key 5 b5 (by simp), key 6 b6 (by simp), key 7 b7 (by simp)]
  simp [rd64]

end Tg
