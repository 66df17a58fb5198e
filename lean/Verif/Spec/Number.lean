import Verif.Spec.Json
import Mathlib.Data.Rat.Defs
import Mathlib.Algebra.Order.Field.Rat
/-! Decimal number texts and their values. -/
namespace Tg.Spec

open Json

/-- The value of a sequence of digits. -/
def digitsVal (ds : List Byte) : Nat := ds.foldl (fun a b => a * 10 + (b.toNat - 48)) 0

/-- An optional exponent and its value. -/
def IsExpo (l : List Byte) (k : ℤ) : Prop :=
  (l = [] ∧ k = 0) ∨ ∃ c s ds, l = c :: (s ++ ds) ∧ (c = 0x65#8 ∨ c = 0x45#8) ∧ ds ≠ [] ∧ (∀ b ∈ ds, Digit b) ∧
    (((s = [] ∨ s = [0x2B#8]) ∧ k = digitsVal ds) ∨ (s = [0x2D#8] ∧ k = - (digitsVal ds : ℤ)))

/-- `l` is a number text (of JSON) with the value `q`. -/
def IsDecimal (l : List Byte) (q : ℚ) : Prop :=
  ∃ (neg : Bool) (i f e : List Byte) (k : ℤ),
    l = (if neg then [0x2D#8] else []) ++ (i ++ ((if f = [] then [] else 0x2E#8 :: f) ++ e)) ∧ IsInt i ∧ (∀ b ∈ f, Digit b) ∧ IsExpo e k ∧
    q = (if neg then -1 else 1) * ((digitsVal i : ℚ) + (digitsVal f : ℚ) / 10 ^ f.length) * 10 ^ k

/-- Scientific notation as Ryu prints it: a sign, a digit that is not zero, more digits after a point, `E`, an exponent. -/
def IsSci (l : List Byte) : Prop :=
  ∃ (neg neg' : Bool) (d : Byte) (ds xs : List Byte),
    l = (if neg then [0x2D#8] else []) ++ (d :: (if ds = [] then [] else 0x2E#8 :: ds) ++ 0x45#8 :: ((if neg' then [0x2D#8] else []) ++ xs)) ∧
    Digit d ∧ d ≠ 0x30#8 ∧ (∀ b ∈ ds, Digit b) ∧ xs ≠ [] ∧ ∀ b ∈ xs, Digit b

/-- The same with at most 17 digits and an exponent from -324 to 324, which is all that a double needs. -/
def SciShort (l : List Byte) : Prop :=
  ∃ (neg neg' : Bool) (d : Byte) (ds xs : List Byte),
    l = (if neg then [0x2D#8] else []) ++ (d :: (if ds = [] then [] else 0x2E#8 :: ds) ++ 0x45#8 :: ((if neg' then [0x2D#8] else []) ++ xs)) ∧
    Digit d ∧ d ≠ 0x30#8 ∧ (∀ b ∈ ds, Digit b) ∧ xs ≠ [] ∧ (∀ b ∈ xs, Digit b) ∧ ds.length ≤ 16 ∧ digitsVal xs ≤ 324

end Tg.Spec
