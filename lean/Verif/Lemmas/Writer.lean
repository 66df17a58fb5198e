import Verif.Model.Writer
/-!
Every writer primitive acts as a sequence of `write_byte` calls.
-/
namespace Tg

/-- The caller's promise: the object is at least `n` bytes long. -/
def Wr.Ok (w : Wr) : Prop := w.n ≤ w.dst.length

namespace Wr

theorem byte_n (w : Wr) (b) : (w.byte b).n = w.n := by
  unfold byte store; dsimp only; split <;> (try split) <;> rfl

theorem byte_len (w : Wr) (b) : (w.byte b).dst.length = w.dst.length := by
  unfold byte store; dsimp only; split <;> (try split) <;> simp

theorem byte_count (w : Wr) (b) : (w.byte b).count = w.count + 1 := by
  unfold byte store; dsimp only; split <;> (try split) <;> rfl

theorem byte_ok {w : Wr} (h : w.Ok) (b) : (w.byte b).Ok := by
  unfold Ok at *; rw [byte_n, byte_len]; exact h

@[simp] theorem bytes_nil (w : Wr) : w.bytes [] = w := rfl
theorem bytes_cons (w : Wr) (b bs) : w.bytes (b :: bs) = (w.byte b).bytes bs := rfl
theorem bytes_append (w : Wr) (a b) : w.bytes (a ++ b) = (w.bytes a).bytes b := by
  simp [bytes]

theorem bytes_n (w : Wr) (bs) : (w.bytes bs).n = w.n := by
  induction bs generalizing w with
  | nil => rfl
  | cons b bs ih => rw [bytes_cons, ih, byte_n]

theorem bytes_count (w : Wr) (bs) : (w.bytes bs).count = w.count + bs.length := by
  induction bs generalizing w with
  | nil => rfl
  | cons b bs ih => rw [bytes_cons, ih, byte_count]; simp; omega

theorem bytes_len (w : Wr) (bs) : (w.bytes bs).dst.length = w.dst.length := by
  induction bs generalizing w with
  | nil => rfl
  | cons b bs ih => rw [bytes_cons, ih, byte_len]

theorem bytes_ok {w : Wr} (h : w.Ok) (bs) : (w.bytes bs).Ok := by
  unfold Ok at *; rw [bytes_n, bytes_len]; exact h

/-- An unguarded copy that stays within `n` is the guarded byte loop. -/
theorem memcpy_eq {w : Wr} (hw : w.Ok) (bs) (h : w.count + bs.length ≤ w.n) :
    w.memcpy bs = w.bytes bs := by
  have key : ∀ (bs : List Byte) (w : Wr) (c : Nat), w.Ok → c = w.count → c + bs.length ≤ w.n →
      ∀ c', { (bs.foldl (fun (s : Wr × Nat) b => (s.1.store s.2 b, s.2 + 1)) ({ w with count := c' }, c)).1
        with count := c + bs.length } = w.bytes bs := by
    intro bs
    induction bs with
    | nil => intro w c _ hc _ c'; subst hc; rfl
    | cons b bs ih =>
      intro w c hw hc h c'
      subst hc
      simp only [List.length_cons] at h
      have h1 : w.count < w.n := by omega
      have h2 : w.count < w.dst.length := by unfold Ok at hw; omega
      rw [bytes_cons]
      have hb : w.byte b = { w with dst := w.dst.set w.count b, count := w.count + 1 } := by
        unfold byte store; simp [h1, h2]
      rw [← ih (w.byte b) (w.count + 1) (byte_ok hw b) (byte_count w b).symm
        (by rw [byte_n]; omega) c']
      rw [hb]
      simp only [List.foldl_cons, store, h2, if_true, List.length_cons]
      congr 1
      omega
  have := key bs w w.count hw rfl h w.count
  unfold memcpy
  exact this

/-- Once the buffer is full, skipping is the same as writing. -/
theorem skip_eq {w : Wr} (bs) (h : w.n ≤ w.count) : w.skip bs.length = w.bytes bs := by
  induction bs generalizing w with
  | nil => rfl
  | cons b bs ih =>
    rw [bytes_cons, ← ih (by rw [byte_n, byte_count]; omega)]
    have hb : w.byte b = { w with count := w.count + 1 } := by
      unfold byte; simp [show ¬ w.count < w.n by omega]
    rw [hb]; unfold skip; simp; omega

theorem byte_ub {w : Wr} (h : w.Ok) (b) : (w.byte b).ub = w.ub := by
  unfold byte store Ok at *
  split
  · rw [if_pos (by omega)]
  · rfl

theorem bytes_ub {w : Wr} (h : w.Ok) (bs) : (w.bytes bs).ub = w.ub := by
  induction bs generalizing w with
  | nil => rfl
  | cons b bs ih => rw [bytes_cons, ih (byte_ok h b), byte_ub h]

/-- The contents of the object after writing `bs` from the start: a prefix of `bs`, then the old
contents. -/
theorem bytes_dst {w : Wr} (h : w.Ok) (bs) :
    (w.bytes bs).dst = w.dst.take w.count ++ (bs.take (w.n - w.count) ++
      w.dst.drop (w.count + (bs.take (w.n - w.count)).length)) := by
  induction bs generalizing w with
  | nil => simp
  | cons b bs ih =>
    rw [bytes_cons, ih (byte_ok h b), byte_n, byte_count]
    unfold Ok at h
    by_cases hc : w.count < w.n
    · have hb : (w.byte b).dst = w.dst.set w.count b := by
        unfold byte store; simp [hc, show w.count < w.dst.length by omega]
      rw [hb]
      obtain ⟨k, hk⟩ : ∃ k, w.n - w.count = k + 1 := ⟨w.n - w.count - 1, by omega⟩
      rw [hk, show w.n - (w.count + 1) = k by omega, List.take_succ_cons]
      rw [List.drop_set_of_lt (by omega)]
      have : (w.dst.set w.count b).take (w.count + 1) = w.dst.take w.count ++ [b] := by
        apply List.ext_getElem?
        intro i
        rcases Nat.lt_trichotomy i w.count with h1 | h1 | h1
        · rw [List.getElem?_take_of_lt (by omega), List.getElem?_set_ne (by omega),
            List.getElem?_append_left (by simp; omega), List.getElem?_take_of_lt h1]
        · subst h1
          rw [List.getElem?_take_of_lt (by omega), List.getElem?_set_self (by omega),
            List.getElem?_append_right (by simp; omega)]
          simp [show min w.count w.dst.length = w.count by omega]
        · rw [List.getElem?_eq_none (by simp; omega), List.getElem?_eq_none (by simp; omega)]
      rw [this]
      simp only [List.length_cons, List.append_assoc, List.cons_append, List.nil_append]
      rw [show w.count + 1 + (List.take k bs).length = w.count + ((List.take k bs).length + 1) by omega]
    · have hb : (w.byte b).dst = w.dst := by
        unfold byte; simp [hc]
      rw [hb, show w.n - (w.count + 1) = 0 by omega, show w.n - w.count = 0 by omega]
      simp

end Wr
end Tg
