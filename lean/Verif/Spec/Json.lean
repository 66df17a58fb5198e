import Verif.Model.Bytes
/-!
The JSON grammar (RFC 8259) on byte strings, with strings in UTF-8 (RFC 3629), written as
inductive predicates. `S` is the set of string tokens, so that the same grammar can
be read with the standard's strings and with the strings tg accepts. The number is the nesting still
allowed: `Val S r v` says that `v` is a value of at most `r` levels (a scalar is one level).
-/
namespace Tg.Spec.Json

/-- White space: space, tab, line feed, carriage return. -/
def Ws (l : List Byte) : Prop := ∀ b ∈ l, b = 0x20 ∨ b = 0x09 ∨ b = 0x0A ∨ b = 0x0D

def Digit (b : Byte) : Prop := 0x30 ≤ b.toNat ∧ b.toNat ≤ 0x39
def HexDigit (b : Byte) : Prop :=
  (0x30 ≤ b.toNat ∧ b.toNat ≤ 0x39) ∨ (0x61 ≤ b.toNat ∧ b.toNat ≤ 0x66) ∨
  (0x41 ≤ b.toNat ∧ b.toNat ≤ 0x46)

/-- `0` or a digit sequence that does not start with `0`. -/
def IsInt (l : List Byte) : Prop :=
  l = [0x30] ∨ ∃ d ds, l = d :: ds ∧ Digit d ∧ d ≠ 0x30 ∧ ∀ b ∈ ds, Digit b

def IsFrac (l : List Byte) : Prop :=
  l = [] ∨ ∃ d ds, l = 0x2E :: d :: ds ∧ Digit d ∧ ∀ b ∈ ds, Digit b

def IsExp (l : List Byte) : Prop :=
  l = [] ∨ ∃ e s d ds, l = e :: (s ++ d :: ds) ∧ (e = 0x65 ∨ e = 0x45) ∧
    (s = [] ∨ s = [0x2B] ∨ s = [0x2D]) ∧ Digit d ∧ ∀ b ∈ ds, Digit b

/-- `[-] int [frac] [exp]`. -/
def IsNumber (l : List Byte) : Prop :=
  ∃ s i f e, l = s ++ (i ++ (f ++ e)) ∧ (s = [] ∨ s = [0x2D]) ∧ IsInt i ∧ IsFrac f ∧ IsExp e

/-- The UTF-8 encoding of a code point of two or more bytes. -/
def utf8 (cp : Nat) : List Byte :=
  if cp < 0x800 then [BitVec.ofNat 8 (0xC0 + cp / 64), BitVec.ofNat 8 (0x80 + cp % 64)]
  else if cp < 0x10000 then
    [BitVec.ofNat 8 (0xE0 + cp / 4096), BitVec.ofNat 8 (0x80 + cp / 64 % 64),
     BitVec.ofNat 8 (0x80 + cp % 64)]
  else [BitVec.ofNat 8 (0xF0 + cp / 262144), BitVec.ofNat 8 (0x80 + cp / 4096 % 64),
        BitVec.ofNat 8 (0x80 + cp / 64 % 64), BitVec.ofNat 8 (0x80 + cp % 64)]

/-- Unicode scalar values outside ASCII. -/
def Scalar (cp : Nat) : Prop := 0x80 ≤ cp ∧ cp ≤ 0x10FFFF ∧ ¬ (0xD800 ≤ cp ∧ cp ≤ 0xDFFF)

/-- A multi-byte character of the standard. -/
def Utf8 (l : List Byte) : Prop := ∃ cp, Scalar cp ∧ l = utf8 cp

/-- One character of a string; `U` are the multi-byte sequences. -/
inductive Chr (U : List Byte → Prop) : List Byte → Prop
  | ascii (b : Byte) : 0x20 ≤ b.toNat → b.toNat < 0x80 → b ≠ 0x22 → b ≠ 0x5C → Chr U [b]
  | multi (l) : U l → Chr U l
  | esc (b : Byte) : b ∈ ([0x22, 0x5C, 0x2F, 0x62, 0x66, 0x6E, 0x72, 0x74] : List Byte) → Chr U [0x5C, b]
  | uesc (a b c d : Byte) : HexDigit a → HexDigit b → HexDigit c → HexDigit d →
      Chr U [0x5C, 0x75, a, b, c, d]

/-- A sequence of characters. -/
inductive Chrs (U : List Byte → Prop) : List Byte → Prop
  | nil : Chrs U []
  | cons (c l) : Chr U c → Chrs U l → Chrs U (c ++ l)

/-- A string token of the standard. -/
def Str (s : List Byte) : Prop := ∃ cs, Chrs Utf8 cs ∧ s = 0x22 :: (cs ++ [0x22])

mutual
/-- Values of at most the given number of levels. -/
inductive Val (S : List Byte → Prop) : Nat → List Byte → Prop
  | null (r) : Val S (r + 1) [0x6E, 0x75, 0x6C, 0x6C]
  | true_ (r) : Val S (r + 1) [0x74, 0x72, 0x75, 0x65]
  | false_ (r) : Val S (r + 1) [0x66, 0x61, 0x6C, 0x73, 0x65]
  | num (r l) : IsNumber l → Val S (r + 1) l
  | str (r l) : S l → Val S (r + 1) l
  | arr0 (r w) : Ws w → Val S (r + 1) (0x5B :: (w ++ [0x5D]))
  | arr (r l) : Elems S r l → Val S (r + 1) (0x5B :: (l ++ [0x5D]))
  | obj0 (r w) : Ws w → Val S (r + 1) (0x7B :: (w ++ [0x7D]))
  | obj (r l) : Mems S r l → Val S (r + 1) (0x7B :: (l ++ [0x7D]))
/-- One or more comma separated values, with white space around each. -/
inductive Elems (S : List Byte → Prop) : Nat → List Byte → Prop
  | one (r w v w') : Ws w → Val S r v → Ws w' → Elems S r (w ++ (v ++ w'))
  | cons (r w v w' l) : Ws w → Val S r v → Ws w' → Elems S r l →
      Elems S r (w ++ (v ++ (w' ++ 0x2C :: l)))
/-- One or more comma separated `string : value` pairs. -/
inductive Mems (S : List Byte → Prop) : Nat → List Byte → Prop
  | one (r w k w' w'' v w3) : Ws w → S k → Ws w' → Ws w'' → Val S r v → Ws w3 →
      Mems S r (w ++ (k ++ (w' ++ 0x3A :: (w'' ++ (v ++ w3)))))
  | cons (r w k w' w'' v w3 l) : Ws w → S k → Ws w' → Ws w'' → Val S r v → Ws w3 → Mems S r l →
      Mems S r (w ++ (k ++ (w' ++ 0x3A :: (w'' ++ (v ++ (w3 ++ 0x2C :: l))))))
end

/-- A JSON text: one value with white space around it, at most 1024 levels deep. -/
def Text (S : List Byte → Prop) (d : List Byte) : Prop :=
  ∃ w v w', Ws w ∧ Val S 1024 v ∧ Ws w' ∧ d = w ++ (v ++ w')

/-! The strings tg's validator accepts, where they differ from the standard. -/

/-- Multi-byte sequences: any sequence of the shape of a 2, 3 or 4 byte sequence whose value is not ASCII,
not a surrogate and *below* 0x10FFFF; over-long forms are not excluded. -/
def TgUtf8 (l : List Byte) : Prop :=
  ∃ cp, 0x80 ≤ cp ∧ cp < 0x10FFFF ∧ ¬ (0xD800 ≤ cp ∧ cp ≤ 0xDFFF) ∧
    ((cp < 0x800 ∧ l = [BitVec.ofNat 8 (0xC0 + cp / 64), BitVec.ofNat 8 (0x80 + cp % 64)]) ∨
     (cp < 0x10000 ∧ l = [BitVec.ofNat 8 (0xE0 + cp / 4096), BitVec.ofNat 8 (0x80 + cp / 64 % 64),
       BitVec.ofNat 8 (0x80 + cp % 64)]) ∨
     (l = [BitVec.ofNat 8 (0xF0 + cp / 262144), BitVec.ofNat 8 (0x80 + cp / 4096 % 64),
        BitVec.ofNat 8 (0x80 + cp / 64 % 64), BitVec.ofNat 8 (0x80 + cp % 64)]))

/-- How a string ends: with a quote, or (an error of the validator) with a backslash alone, or with
`\u` and fewer than four hex digits. -/
def TgClose (l : List Byte) : Prop :=
  l = [0x22] ∨ l = [0x5C] ∨ ∃ hs, l = 0x5C :: 0x75 :: hs ∧ hs.length < 4 ∧ ∀ b ∈ hs, HexDigit b

/-- A string token for tg's validator. -/
def TgStr (s : List Byte) : Prop := ∃ cs e, Chrs TgUtf8 cs ∧ TgClose e ∧ s = 0x22 :: (cs ++ e)

end Tg.Spec.Json
