import Mathlib.Tactic.IntervalCases
import Mathlib.Tactic.Ring
import Mathlib.Tactic.Positivity
import Verif.Model.Hilbert
/-! The prefix scan of `hilbert_xy_to_index` computes the state of the curve, bit by bit from the top. -/
namespace Tg.Hilbert

/-- Two bits of state. -/
abbrev V := Bool × Bool

/-- The state after one more bit of `x` and `y`. -/
def step (x y : Bool) (s : V) : V :=
  ((!(x || y)) ^^ (s.1 ^^ (!(x ^^ y) && s.2)), (x && !y) ^^ (s.2 ^^ ((x ^^ y) && s.1)))

/-- A 2 by 2 matrix over bits of the form of the code. -/
structure Mat where
  a : Bool
  b : Bool

def Mat.app (m : Mat) (s : V) : V :=
  ((m.a && s.1) ^^ (m.b && s.2), (m.b && s.1) ^^ ((m.a ^^ m.b) && s.2))

def Mat.mul (m n : Mat) : Mat :=
  ⟨(m.a && n.a) ^^ (m.b && n.b), (m.a && n.b) ^^ (m.b && (n.a ^^ n.b))⟩

def xorV (s t : V) : V := (s.1 ^^ t.1, s.2 ^^ t.2)

theorem mul_app (m n : Mat) (s : V) : (m.mul n).app s = m.app (n.app s) := by
  obtain ⟨a, b⟩ := m; obtain ⟨c, d⟩ := n; obtain ⟨e, f⟩ := s
  revert a b c d e f; decide

theorem app_xor (m : Mat) (s t : V) : m.app (xorV s t) = xorV (m.app s) (m.app t) := by
  obtain ⟨a, b⟩ := m; obtain ⟨c, d⟩ := s; obtain ⟨e, f⟩ := t
  revert a b c d e f; decide

section
variable (x y : BitVec 32)

/-- The state after `w` bits down to bit `k`, from the state zero. -/
def win : Nat → Nat → V
  | _, 0 => (false, false)
  | k, w + 1 => if k < 16 then step (x.getLsbD k) (y.getLsbD k) (win (k + 1) w) else (false, false)

/-- What the two bits `k` and `k + 1` do to the state. -/
def mat2 (k : Nat) : Mat :=
  let a := x.getLsbD k ^^ y.getLsbD k
  let a' := x.getLsbD (k + 1) ^^ y.getLsbD (k + 1)
  ⟨a || !a', a ^^ a'⟩

/-- What `2n` bits from `k` do to the state. -/
def matN : Nat → Nat → Mat
  | _, 0 => ⟨true, false⟩
  | k, n + 1 => (mat2 x y k).mul (matN (k + 2) n)

variable {x y}

theorem win_ge {k : Nat} (h : 16 ≤ k) (w : Nat) : win x y k w = (false, false) := by
  cases w with
  | zero => rfl
  | succ w => rw [win, if_neg (by omega)]

theorem app_zero (m : Mat) : m.app (false, false) = (false, false) := by
  obtain ⟨a, b⟩ := m; revert a b; decide

theorem xor_zero (s : V) : xorV s (false, false) = s := by
  obtain ⟨a, b⟩ := s; revert a b; decide

theorem xor_assoc' (s t u : V) : xorV (xorV s t) u = xorV s (xorV t u) := by
  obtain ⟨a, b⟩ := s; obtain ⟨c, d⟩ := t; obtain ⟨e, f⟩ := u
  revert a b c d e f; decide

theorem mul_assoc' (l m n : Mat) : (l.mul m).mul n = l.mul (m.mul n) := by
  obtain ⟨a, b⟩ := l; obtain ⟨c, d⟩ := m; obtain ⟨e, f⟩ := n
  simp only [Mat.mul, Mat.mk.injEq]
  revert a b c d e f; decide

theorem one_mul' (m : Mat) : (Mat.mk true false).mul m = m := by
  obtain ⟨a, b⟩ := m; simp [Mat.mul]

theorem one_app (s : V) : (Mat.mk true false).app s = s := by
  obtain ⟨a, b⟩ := s; revert a b; decide

theorem step_step (a b c d : Bool) (s : V) :
    step a b (step c d s) =
      xorV (step a b (step c d (false, false)))
        (Mat.app ⟨(a ^^ b) || !(c ^^ d), (a ^^ b) ^^ (c ^^ d)⟩ s) := by
  obtain ⟨e, f⟩ := s
  revert a b c d e f; decide

theorem step_step' (k : Nat) (s : V) :
    step (x.getLsbD k) (y.getLsbD k) (step (x.getLsbD (k + 1)) (y.getLsbD (k + 1)) s) =
      xorV (step (x.getLsbD k) (y.getLsbD k)
        (step (x.getLsbD (k + 1)) (y.getLsbD (k + 1)) (false, false))) ((mat2 x y k).app s) :=
  step_step _ _ _ _ s

theorem win_add (k n m : Nat) : win x y k (2 * n + m) =
    xorV (win x y k (2 * n)) ((matN x y k n).app (win x y (k + 2 * n) m)) := by
  induction n generalizing k with
  | zero =>
    simp only [matN, Nat.mul_zero, Nat.zero_add, Nat.add_zero, one_app, win]
    obtain ⟨a, b⟩ := win x y k m; simp [xorV]
  | succ n ih =>
    by_cases h : 16 ≤ k
    · rw [win_ge h, win_ge h, win_ge (by omega), app_zero]; rfl
    by_cases h2 : 16 ≤ k + 1
    · have e1 : 2 * (n + 1) + m = (2 * n + m + 1) + 1 := by omega
      have e2 : 2 * (n + 1) = (2 * n + 1) + 1 := by omega
      have ew : ∀ w, win x y k (w + 1) = step (x.getLsbD k) (y.getLsbD k) (false, false) := by
        intro w
        rw [win, if_pos (by omega), win_ge h2]
      rw [win_ge (k := k + 2 * (n + 1)) (by omega), app_zero, xor_zero, e1, e2, ew, ew]
    · have e1 : 2 * (n + 1) + m = (2 * n + m + 1) + 1 := by omega
      have e2 : 2 * (n + 1) = (2 * n + 1) + 1 := by omega
      have e3 : k + 2 * (n + 1) = k + 2 + 2 * n := by omega
      rw [e3, e1, e2, win, win, if_pos (by omega), if_pos (by omega), win, win, if_pos (by omega),
        if_pos (by omega), ih (k + 1 + 1), step_step' (s := xorV _ _),
        step_step' (s := win x y (k + 1 + 1) (2 * n)), app_xor, matN, mul_app, xor_assoc']

theorem mat_add (k n m : Nat) :
    matN x y k (n + m) = (matN x y k n).mul (matN x y (k + 2 * n) m) := by
  induction n generalizing k with
  | zero => simp [matN, one_mul']
  | succ n ih =>
    rw [show n + 1 + m = n + m + 1 by omega, matN, matN, ih, mul_assoc',
      show k + 2 * (n + 1) = k + 2 + 2 * n by omega]

/-- The quadruple holds the states and matrices of windows of `2n` bits. -/
structure Good (x y : BitVec 32) (n : Nat) (q : Quad) : Prop where
  vec : ∀ k < 16, (q.c.getLsbD k, q.d.getLsbD k) = win x y k (2 * n)
  mat : ∀ k, k + 2 * n ≤ 16 → Mat.mk (q.a.getLsbD k) (q.b.getLsbD k) = matN x y k n
  top : ∀ k, 16 ≤ k → q.c.getLsbD k = false ∧ q.d.getLsbD k = false

theorem mask_bit (k : Nat) : (0xFFFF#32).getLsbD k = decide (k < 16) := by
  have h : 0xFFFF#32 = BitVec.ofNat 32 (2 ^ 16 - 1) := rfl
  rw [h, BitVec.getLsbD_ofNat, Nat.testBit_two_pow_sub_one]
  by_cases h : k < 16
  · simp [h]; omega
  · simp [h]

theorem round1_good (hx : ∀ k, 16 ≤ k → x.getLsbD k = false) (hy : ∀ k, 16 ≤ k → y.getLsbD k = false) :
    Good x y 1 (round1 (prime x y)) := by
  refine ⟨fun k hk => ?_, fun k hk => ?_, fun k hk => ?_⟩
  · simp only [round1, prime, BitVec.getLsbD_xor, BitVec.getLsbD_and, BitVec.getLsbD_or,
      BitVec.getLsbD_ushiftRight, mask_bit, Nat.mul_one]
    rw [win, if_pos hk, win, Nat.add_comm 1 k]
    by_cases h : k + 1 < 16
    · rw [if_pos h, win]
      generalize x.getLsbD k = a
      generalize y.getLsbD k = b
      generalize x.getLsbD (k + 1) = c
      generalize y.getLsbD (k + 1) = d
      simp only [hk, h, decide_true]
      revert a b c d; decide
    · rw [if_neg h, hx (k + 1) (by omega), hy (k + 1) (by omega)]
      generalize x.getLsbD k = a
      generalize y.getLsbD k = b
      simp only [hk, h, decide_true, decide_false]
      revert a b; decide
  · simp only [round1, prime, BitVec.getLsbD_xor, BitVec.getLsbD_and, BitVec.getLsbD_or,
      BitVec.getLsbD_ushiftRight, mask_bit, matN, mat2, Nat.add_comm 1 k]
    generalize x.getLsbD k = a
    generalize y.getLsbD k = b
    generalize x.getLsbD (k + 1) = c
    generalize y.getLsbD (k + 1) = d
    simp only [show k + 1 < 16 by omega, decide_true, Mat.mul, Mat.mk.injEq]
    revert a b c d; decide
  · simp only [round1, prime, BitVec.getLsbD_xor, BitVec.getLsbD_and, BitVec.getLsbD_or,
      BitVec.getLsbD_ushiftRight, mask_bit]
    rw [hx k hk, hy k hk, hx (1 + k) (by omega), hy (1 + k) (by omega)]
    simp [show ¬ k < 16 by omega, show ¬ 1 + k < 16 by omega]

theorem roundN_good {n : Nat} {q : Quad} (h : Good x y n q) : Good x y (n + n) (roundN (2 * n) q) := by
  refine ⟨fun k hk => ?_, fun k hk => ?_, fun k hk => ?_⟩
  · rw [show 2 * (n + n) = 2 * n + 2 * n by omega, win_add, ← h.vec k hk]
    simp only [roundN, BitVec.getLsbD_xor, BitVec.getLsbD_and, BitVec.getLsbD_ushiftRight,
      Nat.add_comm (2 * n) k]
    by_cases hk2 : k + 2 * n < 16
    · rw [← h.vec _ hk2, ← h.mat k (by omega)]
      rfl
    · obtain ⟨h1, h2⟩ := h.top (k + 2 * n) (by omega)
      rw [win_ge (by omega), app_zero, h1, h2]
      simp [xorV]
  · rw [mat_add, ← h.mat k (by omega), ← h.mat (k + 2 * n) (by omega)]
    simp only [roundN, BitVec.getLsbD_xor, BitVec.getLsbD_and, BitVec.getLsbD_ushiftRight,
      Nat.add_comm (2 * n) k, Mat.mul]
  · obtain ⟨h1, h2⟩ := h.top k hk
    obtain ⟨h3, h4⟩ := h.top (2 * n + k) (by omega)
    simp [roundN, h1, h2, h3, h4]

theorem win_zero_tail {k w v : Nat} (h : 16 ≤ k + 2 * w) : win x y k (2 * w + v) = win x y k (2 * w) := by
  rw [win_add, win_ge h, app_zero, xor_zero]

/-- The state before bit `k`: after the bits above it. -/
def state (x y : BitVec 32) (k : Nat) : V := win x y k 16

theorem state_top {k : Nat} (h : 16 ≤ k) : state x y k = (false, false) := win_ge h _

theorem state_step {k : Nat} (h : k < 16) :
    state x y k = step (x.getLsbD k) (y.getLsbD k) (state x y (k + 1)) := by
  have e : win x y k (2 * 8 + 1) = win x y k (2 * 8) := win_zero_tail (by omega)
  rw [state, state, ← e, win, if_pos h]

theorem scan_bits (hx : ∀ k, 16 ≤ k → x.getLsbD k = false) (hy : ∀ k, 16 ≤ k → y.getLsbD k = false)
    (k : Nat) : ((scan x y).c.getLsbD k, (scan x y).d.getLsbD k) = state x y k := by
  have g := roundN_good (roundN_good (roundN_good (round1_good hx hy)))
  by_cases h : k < 16
  · exact g.vec k h
  · rw [state_top (by omega)]
    obtain ⟨h1, h2⟩ := g.top k (by omega)
    exact Prod.ext h1 h2

/-- The upper bit of the key at each position. -/
theorem high_bit (hx : ∀ k, 16 ≤ k → x.getLsbD k = false) (hy : ∀ k, 16 ≤ k → y.getLsbD k = false)
    {k : Nat} (h : k < 16) : (high x y).getLsbD k =
      (x.getLsbD k ^^ if x.getLsbD k ^^ y.getLsbD k then (state x y (k + 1)).1 else (state x y (k + 1)).2) := by
  have e0 := scan_bits hx hy k
  have e1 := scan_bits hx hy (k + 1)
  rw [state_step h] at e0
  rw [Prod.ext_iff] at e0 e1
  dsimp only at e0 e1
  simp only [high, BitVec.getLsbD_xor, BitVec.getLsbD_or, BitVec.getLsbD_ushiftRight, mask_bit,
    Nat.add_comm 1 k, h, decide_true]
  rw [e0.1, e0.2, e1.1, e1.2]
  generalize x.getLsbD k = a
  generalize y.getLsbD k = b
  obtain ⟨s, t⟩ := state x y (k + 1)
  revert a b s t; decide

theorem high_top (hx : ∀ k, 16 ≤ k → x.getLsbD k = false) (hy : ∀ k, 16 ≤ k → y.getLsbD k = false)
    {k : Nat} (h : 16 ≤ k) : (high x y).getLsbD k = false := by
  have e0 := scan_bits hx hy k
  have e1 := scan_bits hx hy (k + 1)
  rw [state_top h] at e0
  rw [state_top (by omega)] at e1
  rw [Prod.ext_iff] at e0 e1
  dsimp only at e0 e1
  simp only [high, BitVec.getLsbD_xor, BitVec.getLsbD_or, BitVec.getLsbD_ushiftRight, mask_bit,
    Nat.add_comm 1 k]
  rw [e0.1, e0.2, e1.1, e1.2, hx k h, hy k h]
  simp [show ¬ k < 16 by omega]

end

/-- `spread` puts bit `k` at `2k`. -/
theorem spread_bit (i : BitVec 32) (hi : ∀ k, 16 ≤ k → i.getLsbD k = false) {j : Nat} (hj : j < 32) :
    (spread i).getLsbD j = (decide (j % 2 = 0) && i.getLsbD (j / 2)) := by
  have hi' : ∀ k (h : k < 32), 16 ≤ k → i[k] = false := fun k h h2 => by
    rw [← BitVec.getLsbD_eq_getElem]; exact hi k h2
  interval_cases j <;> simp [spread, hi']

/-- The bits of the key. -/
theorem key_bit {x y : BitVec 32} (hx : ∀ k, 16 ≤ k → x.getLsbD k = false)
    (hy : ∀ k, 16 ≤ k → y.getLsbD k = false) {j : Nat} (hj : j < 32) :
    (hilbertXyToIndex x y).getLsbD j =
      if j % 2 = 0 then (x.getLsbD (j / 2) ^^ y.getLsbD (j / 2)) else (high x y).getLsbD (j / 2) := by
  have hxy : ∀ k, 16 ≤ k → (x ^^^ y).getLsbD k = false := fun k hk => by
    rw [BitVec.getLsbD_xor, hx k hk, hy k hk]; rfl
  rw [hilbertXyToIndex, BitVec.getLsbD_or, BitVec.getLsbD_shiftLeft, spread_bit _ hxy hj]
  by_cases h0 : j % 2 = 0
  · rw [if_pos h0, BitVec.getLsbD_xor]
    by_cases h1 : j < 1
    · simp [h0, h1, hj]
    · rw [spread_bit _ (fun k hk => high_top hx hy hk) (by omega)]
      have : ¬ (j - 1) % 2 = 0 := by omega
      simp [h0, this]
  · rw [if_neg h0]
    have h1 : ¬ j < 1 := by omega
    rw [spread_bit _ (fun k hk => high_top hx hy hk) (by omega)]
    have h2 : (j - 1) % 2 = 0 := by omega
    have h3 : (j - 1) / 2 = j / 2 := by omega
    simp [h0, h1, hj, h2, h3]

/-! ### The curve -/

/-- The quadrant of the digit `d` of a key in state `s`, and the state in it. -/
def quad (s : V) (d : Nat) : V × V :=
  match d with
  | 0 => ((s.2, s.2), (!s.1, s.2))
  | 1 => ((s.1, !s.1), s)
  | 2 => ((!s.2, !s.2), s)
  | _ => ((!s.1, s.1), (s.1, !s.2))

/-- The cell at position `n` of the curve of `4^k` cells that starts in state `s`. -/
def curve : Nat → V → Nat → Nat × Nat
  | 0, _, _ => (0, 0)
  | k + 1, s, n =>
    let q := quad s (n / 4 ^ k)
    let c := curve k q.2 (n % 4 ^ k)
    (q.1.1.toNat * 2 ^ k + c.1, q.1.2.toNat * 2 ^ k + c.2)

/-- The digit of the key for the bits `a` of `x` and `b` of `y` in state `s`. -/
def digit (a b : Bool) (s : V) : Nat :=
  2 * (a ^^ if a ^^ b then s.1 else s.2).toNat + (a ^^ b).toNat

theorem quad_digit (a b : Bool) (s : V) : quad s (digit a b s) = ((a, b), step a b s) := by
  obtain ⟨c, d⟩ := s
  revert a b c d; decide

theorem digit_lt (a b : Bool) (s : V) : digit a b s < 4 := by
  obtain ⟨c, d⟩ := s
  revert a b c d; decide

/-- The key of the lower `k` bits. -/
def keyN (x y : BitVec 32) : Nat → Nat
  | 0 => 0
  | k + 1 => digit (x.getLsbD k) (y.getLsbD k) (state x y (k + 1)) * 4 ^ k + keyN x y k

theorem keyN_lt (x y : BitVec 32) (k : Nat) : keyN x y k < 4 ^ k := by
  induction k with
  | zero => simp [keyN]
  | succ k ih =>
    have h := digit_lt (x.getLsbD k) (y.getLsbD k) (state x y (k + 1))
    have h2 : digit (x.getLsbD k) (y.getLsbD k) (state x y (k + 1)) * 4 ^ k ≤ 3 * 4 ^ k :=
      Nat.mul_le_mul_right _ (by omega)
    rw [keyN, Nat.pow_succ]
    omega

/-- The low bits of a number. -/
theorem mod_succ (x : BitVec 32) (k : Nat) :
    x.toNat % 2 ^ (k + 1) = (x.getLsbD k).toNat * 2 ^ k + x.toNat % 2 ^ k := by
  rw [BitVec.getLsbD, Nat.mod_pow_succ, Nat.testBit_eq_decide_div_mod_eq]
  have := Nat.mod_lt (x.toNat / 2 ^ k) (y := 2) (by omega)
  by_cases h : x.toNat / 2 ^ k % 2 = 1
  · simp [h]; omega
  · have h0 : x.toNat / 2 ^ k % 2 = 0 := by omega
    simp [h0]

theorem curve_key (x y : BitVec 32) (k : Nat) (hk : k ≤ 16) :
    curve k (state x y k) (keyN x y k) = (x.toNat % 2 ^ k, y.toNat % 2 ^ k) := by
  induction k with
  | zero => simp [curve, Nat.mod_one]
  | succ k ih =>
    have hlt := keyN_lt x y k
    have hd : keyN x y (k + 1) / 4 ^ k = digit (x.getLsbD k) (y.getLsbD k) (state x y (k + 1)) := by
      rw [keyN, Nat.mul_comm, Nat.mul_add_div (by positivity), Nat.div_eq_of_lt hlt, Nat.add_zero]
    have hm : keyN x y (k + 1) % 4 ^ k = keyN x y k := by
      rw [keyN, Nat.mul_comm, Nat.mul_add_mod, Nat.mod_eq_of_lt hlt]
    rw [curve, hd, hm, quad_digit, ← state_step (by omega), ih (by omega), mod_succ, mod_succ]

theorem curve_start (k : Nat) (s : V) :
    curve k s 0 = (s.2.toNat * (2 ^ k - 1), s.2.toNat * (2 ^ k - 1)) := by
  induction k generalizing s with
  | zero => simp [curve]
  | succ k ih =>
    rw [curve, Nat.zero_div, Nat.zero_mod, ih]
    have := Nat.one_le_two_pow (n := k)
    simp only [quad, Nat.pow_succ]
    obtain ⟨c, d⟩ := s
    cases d <;> simp <;> omega

theorem curve_end (k : Nat) (s : V) :
    curve k s (4 ^ k - 1) = ((!s.1).toNat * (2 ^ k - 1), s.1.toNat * (2 ^ k - 1)) := by
  induction k generalizing s with
  | zero => simp [curve]
  | succ k ih =>
    have h4 : 0 < 4 ^ k := by positivity
    have e : 4 ^ (k + 1) - 1 = 4 ^ k * 3 + (4 ^ k - 1) := by rw [Nat.pow_succ]; omega
    have hd : (4 ^ (k + 1) - 1) / 4 ^ k = 3 := by
      rw [e, Nat.mul_add_div h4, Nat.div_eq_of_lt (by omega)]
    have hm : (4 ^ (k + 1) - 1) % 4 ^ k = 4 ^ k - 1 := by
      rw [e, Nat.mul_add_mod, Nat.mod_eq_of_lt (by omega)]
    rw [curve, hd, hm, ih]
    have := Nat.one_le_two_pow (n := k)
    simp only [quad, Nat.pow_succ]
    obtain ⟨c, d⟩ := s
    cases c <;> simp <;> omega

/-- Neighbours: the same in one coordinate, one apart in the other. -/
def Near (p q : Nat × Nat) : Prop :=
  (p.1 = q.1 ∧ (p.2 + 1 = q.2 ∨ q.2 + 1 = p.2)) ∨ (p.2 = q.2 ∧ (p.1 + 1 = q.1 ∨ q.1 + 1 = p.1))

theorem curve_near (k : Nat) (s : V) (n : Nat) (hn : n + 1 < 4 ^ k) :
    Near (curve k s n) (curve k s (n + 1)) := by
  induction k generalizing s n with
  | zero => simp at hn
  | succ k ih =>
    have h4 : 0 < 4 ^ k := by positivity
    have hdm := Nat.div_add_mod n (4 ^ k)
    have hr := Nat.mod_lt n h4
    by_cases h : n % 4 ^ k + 1 < 4 ^ k
    · have e : n + 1 = 4 ^ k * (n / 4 ^ k) + (n % 4 ^ k + 1) := by omega
      have hd : (n + 1) / 4 ^ k = n / 4 ^ k := by
        conv_lhs => rw [e]
        rw [Nat.mul_add_div h4, Nat.div_eq_of_lt h, Nat.add_zero]
      have hm : (n + 1) % 4 ^ k = n % 4 ^ k + 1 := by
        conv_lhs => rw [e]
        rw [Nat.mul_add_mod, Nat.mod_eq_of_lt h]
      rw [curve, curve, hd, hm]
      have := ih (quad s (n / 4 ^ k)).2 (n % 4 ^ k) h
      simp only [Near] at this ⊢
      omega
    · have hm0 : n % 4 ^ k = 4 ^ k - 1 := by omega
      have e : n + 1 = 4 ^ k * (n / 4 ^ k + 1) + 0 := by rw [Nat.mul_add]; omega
      have hd : (n + 1) / 4 ^ k = n / 4 ^ k + 1 := by
        rw [e, Nat.mul_add_div h4]; simp
      have hm : (n + 1) % 4 ^ k = 0 := by
        rw [e, Nat.mul_add_mod]; simp
      rw [curve, curve, hd, hm, hm0, curve_start, curve_end]
      have hlt : n / 4 ^ k < 3 := by
        have : 4 ^ k * (n / 4 ^ k + 1) < 4 ^ k * 4 := by rw [Nat.pow_succ] at hn; omega
        have := Nat.lt_of_mul_lt_mul_left this
        omega
      have h2 := Nat.one_le_two_pow (n := k)
      generalize n / 4 ^ k = d at hlt
      obtain ⟨a, b⟩ := s
      have : d = 0 ∨ d = 1 ∨ d = 2 := by omega
      rcases this with rfl | rfl | rfl <;> cases a <;> cases b <;> simp [quad, Near] <;> omega

/-- The key as a number. -/
theorem key_toNat {x y : BitVec 32} (hx : ∀ k, 16 ≤ k → x.getLsbD k = false)
    (hy : ∀ k, 16 ≤ k → y.getLsbD k = false) {k : Nat} (hk : k ≤ 16) :
    (hilbertXyToIndex x y).toNat % 2 ^ (2 * k) = keyN x y k := by
  induction k with
  | zero => simp [keyN, Nat.mod_one]
  | succ k ih =>
    have b0 := key_bit hx hy (j := 2 * k) (by omega)
    have b1 := key_bit hx hy (j := 2 * k + 1) (by omega)
    rw [if_pos (by omega), show 2 * k / 2 = k by omega] at b0
    rw [if_neg (by omega), show (2 * k + 1) / 2 = k by omega, high_bit hx hy (by omega)] at b1
    rw [show 2 * (k + 1) = 2 * k + 1 + 1 by omega, mod_succ, mod_succ, ih (by omega), b0, b1, keyN,
      digit, Nat.pow_succ, Nat.pow_mul]
    ring

end Tg.Hilbert
