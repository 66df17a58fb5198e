import Mathlib.Order.Basic
import Mathlib.Data.Nat.Basic
import Mathlib.Algebra.Order.Ring.Nat
import Verif.Model.Buffer
/-! Property C43: growable vectors and buffers, for every history of calls and every pattern of allocation failures. -/
namespace Tg
open Buffer

/-- What `realloc` guarantees of a block of elements of `size` bytes: if it succeeds the block has the size asked for and keeps what the old one
held. Blocks of 2^50 bytes or more do not exist. -/
def Buffer.ReallocOk {β : Type} (size : Nat) (re : Realloc β) : Prop :=
  ∀ d bytes d', re d bytes = some d' → bytes < 2 ^ 50 ∧ d'.length = bytes / size ∧ ∀ i, i < d.length → i < d'.length → d'[i]? = d[i]?

/-- The elements whose append succeeded. -/
def Buffer.kept {β : Type} : List β → List Bool → List β
  | x :: xs, ok :: oks => if ok then x :: kept xs oks else kept xs oks
  | _, _ => []

section
variable {β : Type} {start size : Nat}

/-- Invariant of a vector that holds `l`. -/
structure Buffer.VecOk (start size : Nat) (v : Vec β) (l : List β) : Prop where
  len : v.len = l.length
  content : v.data.take v.len = l
  cap : v.data.length = v.cap
  le : v.len ≤ v.cap
  small : v.cap * size < 2 ^ 50

theorem Buffer.growCap_lt {cap init : Nat} (hi : 0 < init) (h : cap < 2 ^ 50) : cap < growCap cap init := by
  unfold growCap sizeT
  split_ifs with h1 h2
  · omega
  · rw [Nat.mod_eq_of_lt (by omega)]; omega
  · omega

theorem Buffer.growCap_le {cap init : Nat} : growCap cap init ≤ cap * 2 + init := by
  unfold growCap sizeT
  split_ifs with h1 h2
  · omega
  · exact (Nat.mod_le _ _).trans (by omega)
  · omega

theorem Buffer.take_set_self {l : List β} {n : Nat} {x : β} (h : n < l.length) : (l.set n x).take (n + 1) = l.take n ++ [x] := by
  rw [List.take_add_one, List.take_set_of_le le_rfl, List.getElem?_set_self h]
  rfl

theorem Buffer.put_ok {v : Vec β} {l : List β} (h : VecOk start size v l) (f : β) (hlt : v.len < v.cap) :
    ∃ v', v.put f = some (v', true) ∧ VecOk start size v' (l ++ [f]) := by
  have hd : v.len < v.data.length := by rw [h.cap]; exact hlt
  refine ⟨{ v with data := v.data.set v.len f, len := v.len + 1 }, by rw [Vec.put, if_pos hd], ⟨by simp [h.len], ?_, by simp [h.cap], by show v.len + 1 ≤ v.cap; omega, h.small⟩⟩
  show (v.data.set v.len f).take (v.len + 1) = _
  rw [take_set_self hd, h.content]

theorem Buffer.append_ok (hstart : 0 < start) (hss : start ≤ 2 ^ 20) (hsize : 0 < size) (hsz : size ≤ 2 ^ 10) {v : Vec β} {l : List β}
    (h : VecOk start size v l) {re : Realloc β} (hre : ReallocOk size re) (f : β) :
    ∃ v' ok, v.append start size re f = some (v', ok) ∧ VecOk start size v' (if ok then l ++ [f] else l) ∧ (ok = false → v' = v) := by
  unfold Vec.append
  split_ifs with hc
  · dsimp only
    have hcap : v.cap < 2 ^ 50 := lt_of_le_of_lt (Nat.le_mul_of_pos_right _ hsize) h.small
    have hg := growCap_lt hstart hcap
    have hg2 : growCap v.cap start * size < 2 ^ 64 := by
      calc growCap v.cap start * size ≤ (v.cap * 2 + start) * size := Nat.mul_le_mul_right _ growCap_le
        _ = v.cap * size * 2 + start * size := by rw [Nat.add_mul, Nat.mul_right_comm]
        _ ≤ v.cap * size * 2 + 2 ^ 20 * 2 ^ 10 := Nat.add_le_add_left (Nat.mul_le_mul hss hsz) _
        _ < 2 ^ 64 := by have := h.small; omega
    have hmod : sizeT (growCap v.cap start * size) = growCap v.cap start * size := Nat.mod_eq_of_lt hg2
    rw [hmod]
    cases hr : re v.data (growCap v.cap start * size) with
    | none => exact ⟨v, false, rfl, h, fun _ => rfl⟩
    | some data =>
      obtain ⟨r1, r2, r3⟩ := hre _ _ _ hr
      rw [Nat.mul_div_cancel _ hsize] at r2
      have hok : VecOk start size { v with data := data, cap := growCap v.cap start } l := by
        refine ⟨h.len, ?_, r2, ?_, r1⟩
        · show data.take v.len = l
          rw [← h.content]
          apply List.ext_getElem?
          intro i
          rw [List.getElem?_take, List.getElem?_take]
          split_ifs with hi
          · exact r3 i (by rw [h.cap, ← hc]; exact hi) (by rw [r2]; omega)
          · rfl
        · show v.len ≤ growCap v.cap start
          omega
      obtain ⟨v', e1, e2⟩ := put_ok hok f (by show v.len < growCap v.cap start; omega)
      exact ⟨v', true, e1, e2, by simp⟩
  · obtain ⟨v', e1, e2⟩ := put_ok h f (by have := h.le; omega)
    exact ⟨v', true, e1, e2, by simp⟩

theorem Buffer.appends_ok (hstart : 0 < start) (hss : start ≤ 2 ^ 20) (hsize : 0 < size) (hsz : size ≤ 2 ^ 10) :
    ∀ (ops : List (Realloc β × β)) (v : Vec β) (l : List β), VecOk start size v l → (∀ op ∈ ops, ReallocOk size op.1) →
    ∃ v' oks, Vec.appends start size ops v = some (v', oks) ∧ oks.length = ops.length ∧
      VecOk start size v' (l ++ kept (ops.map (·.2)) oks)
  | [], v, l, h, _ => ⟨v, [], rfl, rfl, by simpa [kept] using h⟩
  | (re, f) :: ops, v, l, h, hre => by
    obtain ⟨v1, ok, e1, e2, _⟩ := append_ok hstart hss hsize hsz h (hre (re, f) (by simp)) f
    obtain ⟨v2, oks, g1, g2, g3⟩ := appends_ok hstart hss hsize hsz ops v1 _ e2 fun op hop => hre op (by simp [hop])
    refine ⟨v2, ok :: oks, ?_, by simp [g2], ?_⟩
    · rw [Vec.appends, e1]
      dsimp only
      rw [g1]
    · cases ok
      · simpa [kept] using g3
      · simpa [kept] using g3

/-- C43. The vectors of the parsers (`def_vec`): any history of appends to an empty vector writes inside its block, and afterwards the vector holds
exactly the elements whose append returned true, in order. -/
theorem C43_vectors (hstart : 0 < start) (hss : start ≤ 2 ^ 20) (hsize : 0 < size) (hsz : size ≤ 2 ^ 10) (ops : List (Realloc β × β))
    (hre : ∀ op ∈ ops, ReallocOk size op.1) :
    ∃ v oks, Vec.appends start size ops {} = some (v, oks) ∧ oks.length = ops.length ∧ v.data.take v.len = kept (ops.map (·.2)) oks ∧
      v.len ≤ v.data.length := by
  obtain ⟨v, oks, h1, h2, h3⟩ := appends_ok hstart hss hsize hsz ops {} [] ⟨rfl, rfl, rfl, le_rfl, by simp⟩ hre
  exact ⟨v, oks, h1, h2, by simpa using h3.content, by rw [h3.cap]; exact h3.le⟩

/-- C43. An append that fails leaves the vector as it was, block included; so it can be freed or used again. -/
theorem C43_failure {v : Vec β} {re : Realloc β} {f : β} {v' : Vec β} (h : v.append start size re f = some (v', false)) : v' = v := by
  unfold Vec.append at h
  have hput : ∀ w : Vec β, w.put f ≠ some (v', false) := by
    intro w
    unfold Vec.put
    split_ifs <;> simp
  split_ifs at h with hc
  · dsimp only at h
    cases hr : re v.data (sizeT (growCap v.cap start * size)) with
    | none => rw [hr] at h; cases h; rfl
    | some d => rw [hr] at h; exact absurd h (hput _)
  · exact absurd h (hput _)

/-- An append fails only if the allocation does. -/
theorem C43_success {v : Vec β} {re : Realloc β} {f : β} {v' : Vec β} (h : v.append start size re f = some (v', false)) :
    ∃ bytes, re v.data bytes = none := by
  unfold Vec.append at h
  have hput : ∀ w : Vec β, w.put f ≠ some (v', false) := by
    intro w
    unfold Vec.put
    split_ifs <;> simp
  split_ifs at h with hc
  · dsimp only at h
    cases hr : re v.data (sizeT (growCap v.cap start * size)) with
    | none => exact ⟨_, hr⟩
    | some d => rw [hr] at h; exact absurd h (hput _)
  · exact absurd h (hput _)

end

/-! ### Byte buffers -/

/-- Invariant of a buffer that holds `l`. -/
structure Buffer.BufOk (b : Buf) (l : List Byte) : Prop where
  len : b.len = l.length
  content : b.data.take b.len = l
  cap : b.cap ≤ b.data.length
  le : b.len ≤ b.cap
  small : b.cap < 2 ^ 50

theorem Buffer.ensureLoop_ok {blen len : Nat} (hb : blen ≤ 2 ^ 50) (hl : len ≤ 2 ^ 50) : ∀ (fuel cap : Nat), cap < blen + len + 1 → blen ≤ cap →
    blen + len ≤ cap + fuel → ∃ cap', ensureLoop blen len (fuel + 1) cap = some cap' ∧ blen + len ≤ cap' ∧ cap' ≤ 2 ^ 53 := by
  intro fuel
  induction fuel with
  | zero =>
    intro cap h1 h2 h3
    have hg : cap < growCap cap 16 := by
      unfold growCap sizeT
      split_ifs with c1 c2
      · omega
      · rw [Nat.mod_eq_of_lt (by omega)]; omega
      · omega
    have hg2 : growCap cap 16 ≤ cap * 2 + 16 := growCap_le
    rw [ensureLoop]
    rw [if_neg (by omega)]
    exact ⟨_, rfl, by omega, by omega⟩
  | succ fuel ih =>
    intro cap h1 h2 h3
    have hg : cap < growCap cap 16 := by
      unfold growCap sizeT
      split_ifs with c1 c2
      · omega
      · rw [Nat.mod_eq_of_lt (by omega)]; omega
      · omega
    have hg2 : growCap cap 16 ≤ cap * 2 + 16 := growCap_le
    rw [ensureLoop]
    split_ifs with hc
    · exact ih _ (by omega) (by omega) (by omega)
    · exact ⟨_, rfl, by omega, by omega⟩

theorem Buffer.ensure_ok {b : Buf} {l : List Byte} (h : BufOk b l) {re : Realloc Byte} (hre : ReallocOk 1 re) {n : Nat} (hn : n ≤ 2 ^ 50) :
    ∃ b' ok, b.ensure re n = some (b', ok) ∧ BufOk b' l ∧ (ok = true → b'.len + n ≤ b'.cap ∧ (n = 0 → b' = b)) ∧ (ok = false → b' = b) := by
  unfold Buf.ensure
  have hle := h.le
  have hs := h.small
  split_ifs with hc
  · exact ⟨b, true, rfl, h, fun _ => ⟨by omega, fun _ => rfl⟩, by simp⟩
  · obtain ⟨cap, e1, e2, e3⟩ := ensureLoop_ok (blen := b.len) (len := n) (by omega) hn (n + b.len + 19) b.cap (by omega) hle (by omega)
    rw [e1]
    dsimp only
    have hmod : sizeT (cap + 1) = cap + 1 := Nat.mod_eq_of_lt (by omega)
    rw [hmod]
    cases hr : re b.data (cap + 1) with
    | none => exact ⟨b, false, rfl, h, by simp, fun _ => rfl⟩
    | some data =>
      obtain ⟨r1, r2, r3⟩ := hre _ _ _ hr
      rw [Nat.div_one] at r2
      dsimp only
      rw [if_pos (by omega)]
      refine ⟨_, true, rfl, ⟨h.len, ?_, by simp [r2], by show b.len ≤ cap; omega, by show cap < _; omega⟩, fun _ => ⟨e2, by omega⟩, by simp⟩
      show (data.set cap 0).take b.len = l
      rw [← h.content]
      apply List.ext_getElem?
      intro i
      rw [List.getElem?_take, List.getElem?_take]
      split_ifs with hi
      · rw [List.getElem?_set_ne (by omega)]
        have := h.cap
        exact r3 i (by omega) (by omega)
      · rfl

/-- What a history of calls leaves in the buffer. -/
def Buffer.keptBytes : List BufOp → List Bool → List Byte
  | .append _ bytes :: ops, ok :: oks => (if ok then bytes else []) ++ keptBytes ops oks
  | .trunc _ :: ops, _ :: oks => keptBytes ops oks
  | _, _ => []

/-- The calls are used as in the library: `realloc` works, and the pieces are not larger than memory. -/
def Buffer.UseOk : BufOp → Prop
  | .append re bytes => ReallocOk 1 re ∧ bytes.length ≤ 2 ^ 50
  | .trunc re => ReallocOk 1 re

theorem Buffer.steps_ok : ∀ (ops : List BufOp) (b : Buf) (l : List Byte), BufOk b l → (b.len = 0 → b.cap = 0) → (∀ op ∈ ops, UseOk op) →
    ∃ b' oks, Buf.steps ops b = some (b', oks) ∧ oks.length = ops.length ∧ BufOk b' (l ++ keptBytes ops oks)
  | [], b, l, h, _, _ => ⟨b, [], rfl, rfl, by simpa [keptBytes] using h⟩
  | .append re bytes :: ops, b, l, h, hz, hu => by
    obtain ⟨u1, u2⟩ := hu (.append re bytes) (by simp)
    have u3 : ∀ op ∈ ops, UseOk op := fun op hop => hu op (by simp [hop])
    obtain ⟨b1, ok, e1, e2, e3, e4⟩ := ensure_ok h u1 u2
    cases ok with
    | false =>
      obtain ⟨b', oks, g1, g2, g3⟩ := steps_ok ops b1 l e2 (by rw [e4 rfl]; exact hz) u3
      refine ⟨b', false :: oks, ?_, by simp [g2], by simpa [keptBytes] using g3⟩
      rw [Buf.steps, Buf.step, Buf.append, e1]
      dsimp only
      rw [g1]
    | true =>
      obtain ⟨hfit, hnil⟩ := e3 rfl
      have hcap := e2.cap
      have hput : b1.put bytes = some { b1 with data := b1.data.take b1.len ++ bytes ++ b1.data.drop (b1.len + bytes.length), len := b1.len + bytes.length } := by
        rw [Buf.put, if_pos (by omega)]
      have hl1 : (b1.data.take b1.len).length = b1.len := by rw [List.length_take]; omega
      have hok : BufOk { b1 with data := b1.data.take b1.len ++ bytes ++ b1.data.drop (b1.len + bytes.length), len := b1.len + bytes.length } (l ++ bytes) := by
        refine ⟨by simp [e2.len], ?_, ?_, hfit, e2.small⟩
        · show (b1.data.take b1.len ++ bytes ++ b1.data.drop (b1.len + bytes.length)).take (b1.len + bytes.length) = _
          rw [List.take_append_of_le_length (by simp [hl1]), List.take_of_length_le (by simp [hl1]), e2.content]
        · show b1.cap ≤ (b1.data.take b1.len ++ bytes ++ b1.data.drop (b1.len + bytes.length)).length
          simp only [List.length_append, hl1, List.length_drop]
          omega
      obtain ⟨b', oks, g1, g2, g3⟩ := steps_ok ops _ _ hok (by
        intro h0
        have h0' : b1.len + bytes.length = 0 := h0
        show b1.cap = 0
        rw [hnil (by omega)]
        exact hz (by rw [← hnil (by omega)]; omega)) u3
      refine ⟨b', true :: oks, ?_, by simp [g2], by simpa [keptBytes] using g3⟩
      rw [Buf.steps, Buf.step, Buf.append, e1]
      dsimp only
      rw [hput]
      dsimp only
      rw [g1]
  | .trunc re :: ops, b, l, h, hz, hu => by
    have u1 : ReallocOk 1 re := hu (.trunc re) (by simp)
    have u3 : ∀ op ∈ ops, UseOk op := fun op hop => hu op (by simp [hop])
    have : ∃ b1 ok, b.trunc re = some (b1, ok) ∧ BufOk b1 l ∧ (b1.len = 0 → b1.cap = 0) := by
      unfold Buf.trunc
      have h1 := h.len
      have h2 := h.le
      have h3 := h.small
      have h4 := h.cap
      split_ifs with c1 c2
      · have := hz c2; omega
      · have hmod : sizeT b.len = b.len := Nat.mod_eq_of_lt (by omega)
        rw [hmod]
        cases hr : re b.data b.len with
        | none => exact ⟨b, false, rfl, h, hz⟩
        | some data =>
          obtain ⟨r1, r2, r3⟩ := u1 _ _ _ hr
          rw [Nat.div_one] at r2
          refine ⟨_, true, rfl, ⟨h1, ?_, by show b.len ≤ data.length; omega, le_rfl, by show b.len < _; omega⟩, fun h0 => h0⟩
          show data.take b.len = l
          rw [← h.content]
          apply List.ext_getElem?
          intro i
          rw [List.getElem?_take, List.getElem?_take]
          split_ifs with hi
          · exact r3 i (by omega) (by omega)
          · rfl
      · exact ⟨b, true, rfl, h, hz⟩
    obtain ⟨b1, ok, e1, e2, e3⟩ := this
    obtain ⟨b', oks, g1, g2, g3⟩ := steps_ok ops b1 l e2 e3 u3
    refine ⟨b', ok :: oks, ?_, by simp [g2], by simpa [keptBytes] using g3⟩
    rw [Buf.steps, Buf.step, e1]
    dsimp only
    rw [g1]

/-- C43. Buffers (`struct tg_buf`): any history of appends and truncations of an empty buffer stays inside its block, its loops end,
`realloc` is never asked for size zero, and afterwards
the buffer holds exactly the pieces whose append returned true, in order. -/
theorem C43_buffers (ops : List BufOp) (h : ∀ op ∈ ops, UseOk op) :
    ∃ b oks, Buf.steps ops {} = some (b, oks) ∧ oks.length = ops.length ∧ b.data.take b.len = keptBytes ops oks ∧ b.len ≤ b.data.length := by
  obtain ⟨b, oks, h1, h2, h3⟩ := steps_ok ops {} [] ⟨rfl, rfl, le_rfl, le_rfl, by decide⟩ (fun _ => rfl) h
  exact ⟨b, oks, h1, h2, by simpa using h3.content, h3.le.trans h3.cap⟩

/-- An allocator that fails from a given size on, and fills new memory with `x`. -/
def Buffer.upTo {β : Type} (x : β) (limit size : Nat) : Realloc β := fun d bytes =>
  if bytes < limit then some ((List.range (bytes / size)).map fun i => (d[i]?).getD x) else none

theorem Buffer.upTo_ok {β : Type} (x : β) {limit size : Nat} (h : limit ≤ 2 ^ 50) : ReallocOk size (upTo x limit size) := by
  intro d bytes d' hd
  unfold upTo at hd
  split_ifs at hd with hb
  cases hd
  refine ⟨by omega, by simp, ?_⟩
  intro i hi hi'
  rw [List.getElem?_map, List.getElem?_range (by simpa using hi')]
  simp [List.getElem?_eq_getElem hi]

/-- Twelve numbers appended to a vector that can grow to eight only: the last four are refused, the others kept. -/
example : (Vec.appends 8 8 ((List.range 12).map fun i => (upTo 99 100 8, i)) {}).map (fun r => (r.1.data.take r.1.len, r.2)) =
    some ([0, 1, 2, 3, 4, 5, 6, 7], List.replicate 8 true ++ List.replicate 4 false) := by decide +kernel

/-- A buffer that grows twice and is cut at the end. -/
example : (Buf.steps [.append (upTo 7 100 1) [1, 2, 3], .append (upTo 7 100 1) (List.replicate 20 5), .trunc (upTo 7 100 1)] {}).map
    (fun r => (r.1.data, r.1.cap, r.2)) = some ([1, 2, 3] ++ List.replicate 20 5, 23, [true, true, true]) := by decide +kernel

end Tg
