import Verif.Model.Bytes
/-!
Specification of hexadecimal text.
-/
namespace Tg.Spec

/-- The upper-case digit of a number below 16. -/
def upDigit (v : Nat) : Byte := if v < 10 then BitVec.ofNat 8 (48 + v) else BitVec.ofNat 8 (65 + (v - 10))

/-- The upper-case hex text of a byte string. -/
def hexText (bs : List Byte) : List Byte := bs.flatMap fun b => [upDigit (b.toNat / 16), upDigit (b.toNat % 16)]

/-- `c` is a digit of value `v`, in either case. -/
def IsHex (c : Byte) (v : Nat) : Prop :=
  (48 ≤ c.toNat ∧ c.toNat ≤ 57 ∧ v = c.toNat - 48) ∨ (65 ≤ c.toNat ∧ c.toNat ≤ 70 ∧ v = c.toNat - 55) ∨
  (97 ≤ c.toNat ∧ c.toNat ≤ 102 ∧ v = c.toNat - 87)

/-- `s` is a hex text of `bs`: two digits per byte, each in either case. -/
inductive HexOf : List Byte → List Byte → Prop
  | nil : HexOf [] []
  | cons (c d : Byte) (u v : Nat) (s bs : List Byte) (hc : IsHex c u) (hd : IsHex d v) (hs : HexOf s bs) :
    HexOf (c :: d :: s) (BitVec.ofNat 8 (16 * u + v) :: bs)

end Tg.Spec
