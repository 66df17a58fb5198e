import Verif.Model.RyuTables
import Verif.Model.Number
/-!
`d2s_buffered`, the conversion of a double to the shortest decimal (Ryu, embedded in fp.c): tg.c:8816-8863, 8887-9034, 9787-10200.

The functions work on natural numbers; where an operation of C can wrap, the remainder is written. `none` is: an `assert` that fails, a shift by a distance out of range, an
index out of range of a table or of the buffer, a loop that has not ended after 64 turns. The theorems say that none of it happens.
Modelled is the variant for compilers with `__uint128_t` (tg.c:9025-9043), not the other one (tg.c:9045-9096). Not modelled: the same functions for `float` (tg.c:10202-10565) and
the parsers `s2d_n` and `s2f_n` (tg.c:10567-10999), which tg does not call.
-/
namespace Tg.Ryu

/-- `uint64_t` -/
def W64 : Nat := 18446744073709551616
/-- `uint32_t` -/
def W32 : Nat := 4294967296

/-- `pow5bits`, tg.c:8817-8827. -/
def pow5bits (e : Nat) : Option Nat := if e ≤ 3528 then some (((e * 1217359) % W32) >>> 19 + 1) else none

/-- `log10Pow2`, tg.c:8829-8836. -/
def log10Pow2 (e : Nat) : Option Nat := if e ≤ 1650 then some (((e * 78913) % W32) >>> 18) else none

/-- `log10Pow5`, tg.c:8838-8845. -/
def log10Pow5 (e : Nat) : Option Nat := if e ≤ 2620 then some (((e * 732923) % W32) >>> 20) else none

/-- `((uint32_t) v) - n * ((uint32_t) (v / n))`: how the remainder is computed, tg.c:9864, 9921-9925, 9937-9938, 9944-9945, 9970-9971, 9989-9990, 10036, 10180. -/
def mod32 (n v : Nat) : Nat := (v % W32 + W32 - (n * (v / n % W32)) % W32) % W32

/-- The loop of `pow5Factor`, tg.c:8960-8972. -/
def pow5FactorLoop : Nat → Nat → Nat → Option Nat
  | 0, _, _ => none
  | f + 1, value, count =>
    if value = 0 then none
    else
      let value := (value * 14757395258967641293) % W64
      if value > 3689348814741910323 then some count else pow5FactorLoop f value (count + 1)

/-- `multipleOfPowerOf5`, tg.c:8974-8978. -/
def multipleOfPowerOf5 (value p : Nat) : Option Bool := (pow5FactorLoop 64 value 0).map fun c => decide (p ≤ c)

/-- `multipleOfPowerOf2`, tg.c:8980-8986. -/
def multipleOfPowerOf2 (value p : Nat) : Option Bool :=
  if value = 0 ∨ 64 ≤ p then none else some (value &&& ((1 <<< p) % W64 - 1) == 0)

/-- `mulShift64`, tg.c:9028-9034. -/
def mulShift64 (m : Nat) (mul : Nat × Nat) (j : Nat) : Option Nat :=
  if j < 64 ∨ 192 ≤ j then none
  else
    let b0 := (m * mul.1) % (W64 * W64)
    let b2 := (m * mul.2) % (W64 * W64)
    some ((((b0 >>> 64 + b2) % (W64 * W64)) >>> (j - 64)) % W64)

/-- The values of step 3 of `d2d`. -/
structure Vals where
  vr : Nat
  vp : Nat
  vm : Nat
  e10 : Int
  vmTz : Bool
  vrTz : Bool

/-- `mulShiftAll64`, tg.c:9036-9043: `vr`, `vp`, `vm`. -/
def mulShiftAll64 (m : Nat) (mul : Nat × Nat) (j mmShift : Nat) : Option (Nat × Nat × Nat) := do
  let vp ← mulShift64 ((4 * m + 2) % W64) mul j
  let vm ← mulShift64 ((4 * m + W64 - 1 - mmShift) % W64) mul j
  let vr ← mulShift64 ((4 * m) % W64) mul j
  pure (vr, vp, vm)

/-- Step 3 of `d2d` for `e2 >= 0`, tg.c:9848-9878. -/
def step3pos (m2 e2 mmShift : Nat) (acceptBounds : Bool) : Option Vals := do
  let mv := (4 * m2) % W64
  let l ← log10Pow2 e2
  let q := (l + W32 - (if e2 > 3 then 1 else 0)) % W32
  let pb ← pow5bits q
  let k := 125 + pb - 1
  let i : Int := -(e2 : Int) + q + k
  let mul ← POW5_INV_SPLIT[q]?
  let v ← mulShiftAll64 m2 mul i.toNat mmShift
  if q ≤ 21 then
    if mod32 5 mv = 0 then do
      let t ← multipleOfPowerOf5 mv q
      pure ⟨v.1, v.2.1, v.2.2, q, false, t⟩
    else if acceptBounds then do
      let t ← multipleOfPowerOf5 ((mv + W64 - 1 - mmShift) % W64) q
      pure ⟨v.1, v.2.1, v.2.2, q, t, false⟩
    else do
      let t ← multipleOfPowerOf5 ((mv + 2) % W64) q
      pure ⟨v.1, (v.2.1 + W64 - (if t then 1 else 0)) % W64, v.2.2, q, false, false⟩
  else pure ⟨v.1, v.2.1, v.2.2, q, false, false⟩

/-- Step 3 of `d2d` for `e2 < 0`, tg.c:9879-9909; the second argument is `-e2`. -/
def step3neg (m2 ne2 mmShift : Nat) (acceptBounds : Bool) : Option Vals := do
  let mv := (4 * m2) % W64
  let l ← log10Pow5 ne2
  let q := (l + W32 - (if ne2 > 1 then 1 else 0)) % W32
  let e10 : Int := (q : Int) - ne2
  let i := ne2 - q
  let pb ← pow5bits i
  let k : Int := (pb : Int) - 125
  let j : Int := (q : Int) - k
  let mul ← POW5_SPLIT[i]?
  let v ← mulShiftAll64 m2 mul j.toNat mmShift
  if q ≤ 1 then
    if acceptBounds then pure ⟨v.1, v.2.1, v.2.2, e10, mmShift == 1, true⟩
    else pure ⟨v.1, (v.2.1 + W64 - 1) % W64, v.2.2, e10, false, true⟩
  else if q < 63 then do
    let t ← multipleOfPowerOf2 mv q
    pure ⟨v.1, v.2.1, v.2.2, e10, false, t⟩
  else pure ⟨v.1, v.2.1, v.2.2, e10, false, false⟩

/-- What the loops of step 4 change, tg.c:9843-9846, 9909-9910. -/
structure St where
  vr : Nat
  vp : Nat
  vm : Nat
  removed : Nat
  last : Nat
  vmTz : Bool
  vrTz : Bool

/-- The first loop of the general case, tg.c:9915-9933. -/
def loopGen : Nat → St → Option St
  | 0, _ => none
  | f + 1, s =>
    if s.vp / 10 ≤ s.vm / 10 then some s
    else loopGen f ⟨s.vr / 10, s.vp / 10, s.vm / 10, s.removed + 1, mod32 10 s.vr, s.vmTz && mod32 10 s.vm == 0, s.vrTz && s.last == 0⟩

/-- The second loop of the general case, tg.c:9935-9952. -/
def loopZero : Nat → St → Option St
  | 0, _ => none
  | f + 1, s =>
    if mod32 10 s.vm ≠ 0 then some s
    else loopZero f ⟨s.vr / 10, s.vp / 10, s.vm / 10, s.removed + 1, mod32 10 s.vr, s.vmTz, s.vrTz && s.last == 0⟩

/-- The general case of step 4, tg.c:9917-9967: `output` and `removed`. -/
def step4gen (v : Vals) (acceptBounds : Bool) : Option (Nat × Nat) := do
  let s ← loopGen 64 ⟨v.vr, v.vp, v.vm, 0, 0, v.vmTz, v.vrTz⟩
  let s ← if s.vmTz then loopZero 64 s else some s
  let last := if s.vrTz && s.last == 5 && s.vr % 2 == 0 then 4 else s.last
  pure ((s.vr + (if (s.vr == s.vm && (!acceptBounds || !s.vmTz)) || decide (5 ≤ last) then 1 else 0)) % W64, s.removed)

/-- The loop of the common case, tg.c:9982-9996; the state is `vr`, `vp`, `vm`, `removed`, `roundUp`. -/
def loopCom : Nat → Nat × Nat × Nat × Nat × Bool → Option (Nat × Nat × Nat × Nat × Bool)
  | 0, _ => none
  | f + 1, (vr, vp, vm, removed, up) =>
    if vp / 10 ≤ vm / 10 then some (vr, vp, vm, removed, up)
    else loopCom f (vr / 10, vp / 10, vm / 10, removed + 1, decide (5 ≤ mod32 10 vr))

/-- The common case of step 4, tg.c:9962-10000. -/
def step4com (v : Vals) : Option (Nat × Nat) := do
  let s := if v.vp / 100 > v.vm / 100 then (v.vr / 100, v.vp / 100, v.vm / 100, 2, decide (50 ≤ mod32 100 v.vr)) else (v.vr, v.vp, v.vm, 0, false)
  let (vr, _, vm, removed, up) ← loopCom 64 s
  pure ((vr + (if vr == vm || up then 1 else 0)) % W64, removed)

/-- `d2d`, tg.c:9820-10007: the mantissa and the exponent of the decimal. -/
def d2d (ieeeMantissa ieeeExponent : Nat) : Option (Nat × Int) :=
  let e2 : Int := if ieeeExponent = 0 then 1 - 1023 - 52 - 2 else (ieeeExponent : Int) - 1023 - 52 - 2
  let m2 := if ieeeExponent = 0 then ieeeMantissa else (1 <<< 52) ||| ieeeMantissa
  let acceptBounds := m2 &&& 1 == 0
  let mmShift := if ieeeMantissa ≠ 0 ∨ ieeeExponent ≤ 1 then 1 else 0
  (if e2 ≥ 0 then step3pos m2 e2.toNat mmShift acceptBounds else step3neg m2 (-e2).toNat mmShift acceptBounds).bind fun v =>
    (if v.vmTz || v.vrTz then step4gen v acceptBounds else step4com v).map fun o => (o.1, v.e10 + o.2)

/-- `d2d_small_int`, tg.c:10114-10147. -/
def d2dSmallInt (ieeeMantissa ieeeExponent : Nat) : Option Nat :=
  let m2 := (1 <<< 52) ||| ieeeMantissa
  let e2 : Int := (ieeeExponent : Int) - 1023 - 52
  if e2 > 0 then none
  else if e2 < -52 then none
  else
    let n := (-e2).toNat
    if m2 &&& (1 <<< n - 1) ≠ 0 then none else some (m2 >>> n)

/-- The loop that moves zeros into the exponent, tg.c:10178-10186. -/
def trimZeros : Nat → Nat × Int → Option (Nat × Int)
  | 0, _ => none
  | f + 1, (m, e) => if mod32 10 m ≠ 0 then some (m, e) else trimZeros f (m / 10, e + 1)

/-! ### The text -/

/-- `result[i] = b` -/
def put (i : Nat) (b : Byte) (buf : List Byte) : Option (List Byte) := if i < buf.length then some (buf.set i b) else none

/-- The character of a digit, `'0' + c`. -/
def digit (c : Nat) : Byte := BitVec.ofNat 8 (48 + c)

/-- `memcpy(result + i, DIGIT_TABLE + 2 * c, 2)`: the two digits of `c < 100`, tg.c:8871-8885. -/
def put2 (i c : Nat) (buf : List Byte) : Option (List Byte) :=
  if 100 ≤ c then none else (put i (digit (c / 10)) buf).bind (put (i + 1) (digit (c % 10)))

/-- `decimalLength17`, tg.c:9787-9810. -/
def decimalLength17 (v : Nat) : Option Nat :=
  if 100000000000000000 ≤ v then none
  else some <|
    if 10000000000000000 ≤ v then 17 else if 1000000000000000 ≤ v then 16 else if 100000000000000 ≤ v then 15 else if 10000000000000 ≤ v then 14
    else if 1000000000000 ≤ v then 13 else if 100000000000 ≤ v then 12 else if 10000000000 ≤ v then 11 else if 1000000000 ≤ v then 10
    else if 100000000 ≤ v then 9 else if 10000000 ≤ v then 8 else if 1000000 ≤ v then 7 else if 100000 ≤ v then 6 else if 10000 ≤ v then 5
    else if 1000 ≤ v then 4 else if 100 ≤ v then 3 else if 10 ≤ v then 2 else 1

/-- The eight digits that are cut off from a large number, tg.c:10033-10053; `p` is `index + olength`. The results are the buffer, `output2` and `i`. -/
def chars8 (output p : Nat) (buf : List Byte) : Option (List Byte × Nat × Nat) :=
  if output >>> 32 ≠ 0 then do
    let q := output / 100000000
    let output2 := mod32 100000000 output
    let c := output2 % 10000
    let d := output2 / 10000 % 10000
    let buf ← put2 (p - 1) (c % 100) buf
    let buf ← put2 (p - 3) (c / 100) buf
    let buf ← put2 (p - 5) (d % 100) buf
    let buf ← put2 (p - 7) (d / 100) buf
    pure (buf, q % W32, 8)
  else some (buf, output % W32, 0)

/-- The loop that prints four digits, tg.c:10054-10066. -/
def charsLoop (p : Nat) : Nat → List Byte × Nat × Nat → Option (List Byte × Nat × Nat)
  | 0, _ => none
  | f + 1, (buf, output2, i) =>
    if output2 ≥ 10000 then do
      let c := output2 % 10000
      let buf ← put2 (p - i - 1) (c % 100) buf
      let buf ← put2 (p - i - 3) (c / 100) buf
      charsLoop p f (buf, output2 / 10000, i + 4)
    else some (buf, output2, i)

/-- Two more digits, tg.c:10067-10072. -/
def chars2 (p : Nat) (s : List Byte × Nat × Nat) : Option (List Byte × Nat × Nat) :=
  if s.2.1 ≥ 100 then (put2 (p - s.2.2 - 1) (s.2.1 % 100) s.1).map fun buf => (buf, s.2.1 / 100, s.2.2 + 2) else some s

/-- The first digit, and the one before it if there are two, tg.c:10073-10081. -/
def chars1 (index p : Nat) (s : List Byte × Nat × Nat) : Option (List Byte) :=
  if s.2.1 ≥ 10 then (put (p - s.2.2) (digit (s.2.1 % 10)) s.1).bind fun buf => put index (digit (s.2.1 / 10 % 10)) buf
  else put index (digit s.2.1) s.1

/-- The digits, tg.c:10028-10081. -/
def charsDigits (output index olength : Nat) (buf : List Byte) : Option (List Byte) :=
  (chars8 output (index + olength) buf).bind fun s => (charsLoop (index + olength) 64 s).bind fun s => (chars2 (index + olength) s).bind fun s => chars1 index (index + olength) s

/-- The sign of the exponent, tg.c:10094-10097. -/
def expSign (exp : Int) (index : Nat) (buf : List Byte) : Option (List Byte × Nat) :=
  if exp < 0 then (put index 0x2D#8 buf).map fun buf => (buf, index + 1) else some (buf, index)

/-- The digits of the exponent, tg.c:10099-10109. -/
def expDigits (exp index : Nat) (buf : List Byte) : Option (List Byte × Nat) :=
  if exp ≥ 100 then (put2 index (exp / 10) buf).bind fun buf => (put (index + 2) (digit (exp % 10)) buf).map fun buf => (buf, index + 3)
  else if exp ≥ 10 then (put2 index exp buf).map fun buf => (buf, index + 2)
  else (put index (digit exp) buf).map fun buf => (buf, index + 1)

/-- The exponent, tg.c:10091-10109. -/
def charsExp (exp : Int) (index : Nat) (buf : List Byte) : Option (List Byte × Nat) :=
  (put index 0x45#8 buf).bind fun buf => (expSign exp (index + 1) buf).bind fun s => expDigits exp.natAbs s.2 s.1

/-- The point, tg.c:10083-10089. -/
def charsPoint (index olength : Nat) (buf : List Byte) : Option (List Byte × Nat) :=
  if olength > 1 then (put (index + 1) 0x2E#8 buf).map fun buf => (buf, index + olength + 1) else some (buf, index + 1)

/-- `to_chars64`, tg.c:10009-10112: the buffer and the number of bytes. -/
def toChars64 (mantissa : Nat) (exponent : Int) (sign : Bool) (buf : List Byte) : Option (List Byte × Nat) :=
  (if sign then put 0 0x2D#8 buf else some buf).bind fun buf => (decimalLength17 mantissa).bind fun olength =>
    (charsDigits mantissa (if sign then 1 else 0) olength buf).bind fun buf => (charsPoint (if sign then 1 else 0) olength buf).bind fun s =>
      charsExp (exponent + olength - 1) s.2 s.1

/-- `memcpy(result + i, s, strlen(s))` -/
def putAll : Nat → List Byte → List Byte → Option (List Byte)
  | _, [], buf => some buf
  | i, b :: bs, buf => (put i b buf).bind (putAll (i + 1) bs)

/-- `copy_special_str`, tg.c:8847-8863. -/
def copySpecial (sign exponent mantissa : Bool) (buf : List Byte) : Option (List Byte × Nat) :=
  if mantissa then (putAll 0 (txt "NaN") buf).map fun b => (b, 3)
  else
    (if sign then put 0 0x2D#8 buf else some buf).bind fun buf =>
      if exponent then (putAll (if sign then 1 else 0) (txt "Infinity") buf).map fun b => (b, (if sign then 1 else 0) + 8)
      else (putAll (if sign then 1 else 0) (txt "0E0") buf).map fun b => (b, (if sign then 1 else 0) + 3)

/-- `d2s_buffered_n`, tg.c:10149-10192. -/
def d2sBufferedN (x : F64) (buf : List Byte) : Option (List Byte × Nat) :=
  let bits := x.toNat
  let sign := (bits >>> 63) &&& 1 != 0
  let mantissa := bits &&& (1 <<< 52 - 1)
  let exponent := (bits >>> 52) &&& (1 <<< 11 - 1)
  if exponent = 1 <<< 11 - 1 ∨ (exponent = 0 ∧ mantissa = 0) then copySpecial sign (exponent != 0) (mantissa != 0) buf
  else
    (match d2dSmallInt mantissa exponent with
      | some m => trimZeros 64 (m, 0)
      | none => d2d mantissa exponent).bind fun v => toChars64 v.1 v.2 sign buf

/-- `d2s_buffered`, tg.c:10194-10200: the buffer. -/
def d2sBuffered (x : F64) (buf : List Byte) : Option (List Byte) := (d2sBufferedN x buf).bind fun r => put r.2 0#8 r.1

/-- The C string that `d2s_buffered` leaves in the 25 bytes of `fp_utoa` (tg.c:11126), which are not initialised: `junk` is what they contain before. -/
def d2s (junk : List Byte) (x : F64) : List Byte := ((d2sBuffered x junk).getD []).takeWhile (· != 0#8)

end Tg.Ryu
