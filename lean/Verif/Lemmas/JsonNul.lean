import Verif.Spec.Json
import Mathlib.Tactic.SplitIfs
/-!
A JSON text (as tg accepts it) contains no zero byte and is not empty.
-/
namespace Tg
open Spec Spec.Json

/-- No zero byte. -/
def NoNul (l : List Byte) : Prop := ∀ b ∈ l, b ≠ 0#8

theorem NoNul.app {a b} (ha : NoNul a) (hb : NoNul b) : NoNul (a ++ b) := by
  intro x hx
  rcases List.mem_append.1 hx with h | h
  · exact ha x h
  · exact hb x h

theorem NoNul.cons {a b} (ha : a ≠ 0#8) (hb : NoNul b) : NoNul (a :: b) := by
  intro x hx
  rcases List.mem_cons.1 hx with h | h
  · exact h ▸ ha
  · exact hb x h

theorem NoNul.nil : NoNul [] := fun _ h => by simp at h

theorem byte_ne_zero {b : Byte} (h : 0 < b.toNat) : b ≠ 0#8 := by
  rintro rfl; simp at h

theorem ws_noNul {l} (h : Ws l) : NoNul l := by
  intro b hb
  rcases h b hb with rfl | rfl | rfl | rfl <;> decide

theorem digit_ne {b} (h : Digit b) : b ≠ 0#8 := byte_ne_zero (by have := h.1; omega)
theorem hex_ne {b} (h : HexDigit b) : b ≠ 0#8 := byte_ne_zero (by unfold HexDigit at h; omega)

theorem number_noNul {l} (h : IsNumber l) : NoNul l := by
  obtain ⟨s, i, f, e, rfl, hs, hi, hf, he⟩ := h
  refine .app ?_ (.app ?_ (.app ?_ ?_))
  · rcases hs with rfl | rfl
    · exact .nil
    · exact .cons (by decide) .nil
  · rcases hi with rfl | ⟨d, ds, rfl, hd, _, hds⟩
    · exact .cons (by decide) .nil
    · exact .cons (digit_ne hd) fun b hb => digit_ne (hds b hb)
  · rcases hf with rfl | ⟨d, ds, rfl, hd, hds⟩
    · exact .nil
    · exact .cons (by decide) (.cons (digit_ne hd) fun b hb => digit_ne (hds b hb))
  · rcases he with rfl | ⟨c, s, d, ds, rfl, hc, hs, hd, hds⟩
    · exact .nil
    · refine .cons ?_ (.app ?_ (.cons (digit_ne hd) fun b hb => digit_ne (hds b hb)))
      · rcases hc with rfl | rfl <;> decide
      · rcases hs with rfl | rfl | rfl
        · exact .nil
        · exact .cons (by decide) .nil
        · exact .cons (by decide) .nil

theorem ofNat_ne {n : Nat} (h0 : 0 < n) (h : n < 256) : BitVec.ofNat 8 n ≠ 0#8 :=
  byte_ne_zero (by rw [BitVec.toNat_ofNat, Nat.mod_eq_of_lt h]; exact h0)

theorem tgUtf8_noNul {l} (h : TgUtf8 l) : NoNul l := by
  obtain ⟨cp, h1, h2, _, h | h | h⟩ := h
  · obtain ⟨h, rfl⟩ := h
    exact .cons (ofNat_ne (by omega) (by omega)) (.cons (ofNat_ne (by omega) (by omega)) .nil)
  · obtain ⟨h, rfl⟩ := h
    exact .cons (ofNat_ne (by omega) (by omega)) (.cons (ofNat_ne (by omega) (by omega))
      (.cons (ofNat_ne (by omega) (by omega)) .nil))
  · subst h
    exact .cons (ofNat_ne (by omega) (by omega)) (.cons (ofNat_ne (by omega) (by omega))
      (.cons (ofNat_ne (by omega) (by omega)) (.cons (ofNat_ne (by omega) (by omega)) .nil)))

theorem chr_noNul {U : List Byte → Prop} (hU : ∀ l, U l → NoNul l) {l} (h : Chr U l) : NoNul l := by
  cases h with
  | ascii b h => exact .cons (byte_ne_zero (by omega)) .nil
  | multi l h => exact hU _ h
  | esc b h =>
    refine .cons (by decide) (.cons ?_ .nil)
    rintro rfl
    revert h; decide
  | uesc a b c d ha hb hc hd =>
    exact .cons (by decide) (.cons (by decide) (.cons (hex_ne ha) (.cons (hex_ne hb) (.cons (hex_ne hc)
      (.cons (hex_ne hd) .nil)))))

theorem chrs_noNul {U : List Byte → Prop} (hU : ∀ l, U l → NoNul l) {l} (h : Chrs U l) : NoNul l := by
  induction h with
  | nil => exact .nil
  | cons c l hc _ ih => exact (chr_noNul hU hc).app ih

theorem tgStr_noNul {l} (h : TgStr l) : NoNul l := by
  obtain ⟨cs, e, hc, he, rfl⟩ := h
  refine .cons (by decide) ((chrs_noNul (fun _ h => tgUtf8_noNul h) hc).app ?_)
  rcases he with rfl | rfl | ⟨hs, rfl, _, hh⟩
  · exact .cons (by decide) .nil
  · exact .cons (by decide) .nil
  · exact .cons (by decide) (.cons (by decide) fun b hb => hex_ne (hh b hb))

variable {S : List Byte → Prop} (hS : ∀ l, S l → NoNul l)
include hS

mutual
theorem val_noNul_of : ∀ {r v}, Val S r v → NoNul v
  | _, _, .null r => by unfold NoNul; decide
  | _, _, .true_ r => by unfold NoNul; decide
  | _, _, .false_ r => by unfold NoNul; decide
  | _, _, .num r l h => number_noNul h
  | _, _, .str r l h => hS _ h
  | _, _, .arr0 r w h => .cons (by decide) ((ws_noNul h).app (.cons (by decide) .nil))
  | _, _, .arr r l h => .cons (by decide) ((elems_noNul_of h).app (.cons (by decide) .nil))
  | _, _, .obj0 r w h => .cons (by decide) ((ws_noNul h).app (.cons (by decide) .nil))
  | _, _, .obj r l h => .cons (by decide) ((mems_noNul_of h).app (.cons (by decide) .nil))
theorem elems_noNul_of : ∀ {r v}, Elems S r v → NoNul v
  | _, _, .one r w v w' h1 h2 h3 => (ws_noNul h1).app ((val_noNul_of h2).app (ws_noNul h3))
  | _, _, .cons r w v w' l h1 h2 h3 h4 =>
    (ws_noNul h1).app ((val_noNul_of h2).app ((ws_noNul h3).app (.cons (by decide) (elems_noNul_of h4))))
theorem mems_noNul_of : ∀ {r v}, Mems S r v → NoNul v
  | _, _, .one r w k w' w'' v w3 h1 h2 h3 h4 h5 h6 =>
    (ws_noNul h1).app ((hS _ h2).app ((ws_noNul h3).app (.cons (by decide)
      ((ws_noNul h4).app ((val_noNul_of h5).app (ws_noNul h6))))))
  | _, _, .cons r w k w' w'' v w3 l h1 h2 h3 h4 h5 h6 h7 =>
    (ws_noNul h1).app ((hS _ h2).app ((ws_noNul h3).app (.cons (by decide)
      ((ws_noNul h4).app ((val_noNul_of h5).app ((ws_noNul h6).app (.cons (by decide) (mems_noNul_of h7))))))))
end

omit hS

theorem val_noNul {r v} (h : Val TgStr r v) : NoNul v := val_noNul_of (fun _ h => tgStr_noNul h) h

theorem utf8_noNul {l} (h : Utf8 l) : NoNul l := by
  obtain ⟨cp, ⟨h1, h2, -⟩, rfl⟩ := h
  unfold utf8
  split_ifs
  · exact .cons (ofNat_ne (by omega) (by omega)) (.cons (ofNat_ne (by omega) (by omega)) .nil)
  · exact .cons (ofNat_ne (by omega) (by omega)) (.cons (ofNat_ne (by omega) (by omega)) (.cons (ofNat_ne (by omega) (by omega)) .nil))
  · exact .cons (ofNat_ne (by omega) (by omega)) (.cons (ofNat_ne (by omega) (by omega))
      (.cons (ofNat_ne (by omega) (by omega)) (.cons (ofNat_ne (by omega) (by omega)) .nil)))

theorem str_noNul {l} (h : Str l) : NoNul l := by
  obtain ⟨cs, hc, rfl⟩ := h
  exact .cons (by decide) ((chrs_noNul (fun _ h => utf8_noNul h) hc).app (.cons (by decide) .nil))

theorem text_noNul {d} (h : Text TgStr d) : NoNul d := by
  obtain ⟨w, v, w', h1, h2, h3, rfl⟩ := h
  exact (ws_noNul h1).app ((val_noNul h2).app (ws_noNul h3))

end Tg
