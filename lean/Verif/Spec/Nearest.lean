import Mathlib.Data.Multiset.AddSub
/-! What a priority queue is, and distance callbacks that refine their answer in steps. -/
namespace Tg.Spec

/-- An operation on a queue. -/
inductive QOp (ε : Type*)
  | push (e : ε)
  | pop

/-- Running operations on a bag of entries: a pop yields an entry that no other entry is less than, and removes it. -/
inductive PQ {ε δ : Type*} [LE δ] (key : ε → δ) : List (QOp ε) → Multiset ε → List (Option ε) → Multiset ε → Prop
  | nil (b) : PQ key [] b [] b
  | push {e ops b outs b'} : PQ key ops (e ::ₘ b) outs b' → PQ key (.push e :: ops) b outs b'
  | empty {ops outs b'} : PQ key ops 0 outs b' → PQ key (.pop :: ops) 0 (none :: outs) b'
  | pop {e ops b outs b'} : (∀ x ∈ b, key e ≤ key x) → PQ key ops b outs b' → PQ key (.pop :: ops) (e ::ₘ b) (some e :: outs) b'

/-- A callback `g` maps the value of `*more` to a distance and the next value of `*more`. It starts with 0 and is called again while it
leaves something else there: the values with which it is called. -/
inductive Called {δ : Type*} (g : Int → δ × Int) : Int → Prop
  | first : Called g 0
  | again {m} : Called g m → (g m).2 ≠ 0 → Called g (g m).2

/-- The callback, called with `m` and then as long as it asks for it, comes to an end after `n` more calls with the distance `d`. -/
inductive Settles {δ : Type*} (g : Int → δ × Int) : Int → Nat → δ → Prop
  | now {m} : (g m).2 = 0 → Settles g m 0 (g m).1
  | later {m n d} : (g m).2 ≠ 0 → Settles g (g m).2 n d → Settles g m (n + 1) d

/-- Hand the elements to a callback until it returns false; the result tells whether it never did. -/
def deliver {γ σ : Type*} (f : γ → σ → σ × Bool) : List γ → σ → σ × Bool
  | [], st => (st, true)
  | x :: xs, st => if (f x st).2 then deliver f xs (f x st).1 else ((f x st).1, false)

end Tg.Spec
