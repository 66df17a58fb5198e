/-! The Hilbert key that orders the children of an indexed collection (tg.c:4462-4507). `uint32_t` is `BitVec 32`. -/
namespace Tg.Hilbert

/-- `a`, `b`, `c`, `d` of one bit position each. -/
structure Quad where
  a : BitVec 32
  b : BitVec 32
  c : BitVec 32
  d : BitVec 32

/-- Round 1 before the assignments, tg.c:4466-4469. -/
def prime (x y : BitVec 32) : Quad :=
  let a := x ^^^ y
  ⟨a, 0xFFFF#32 ^^^ a, 0xFFFF#32 ^^^ (x ||| y), x &&& (y ^^^ 0xFFFF#32)⟩

/-- Round 1, tg.c:4470-4473. -/
def round1 (q : Quad) : Quad :=
  ⟨q.a ||| (q.b >>> 1),
   (q.a >>> 1) ^^^ q.a,
   ((q.c >>> 1) ^^^ (q.b &&& (q.d >>> 1))) ^^^ q.c,
   ((q.a &&& (q.c >>> 1)) ^^^ (q.d >>> 1)) ^^^ q.d⟩

/-- Rounds 2 and 3, tg.c:4475-4485, for a shift by `n`; the assignments to `C` and `D` are those of
round 4 too (tg.c:4487-4489), where `A` and `B` are not used any more. -/
def roundN (n : Nat) (q : Quad) : Quad :=
  ⟨(q.a &&& (q.a >>> n)) ^^^ (q.b &&& (q.b >>> n)),
   (q.a &&& (q.b >>> n)) ^^^ (q.b &&& ((q.a ^^^ q.b) >>> n)),
   q.c ^^^ ((q.a &&& (q.c >>> n)) ^^^ (q.b &&& (q.d >>> n))),
   q.d ^^^ ((q.b &&& (q.c >>> n)) ^^^ ((q.a ^^^ q.b) &&& (q.d >>> n)))⟩

/-- `C` and `D` after round 4. -/
def scan (x y : BitVec 32) : Quad := roundN 8 (roundN 4 (roundN 2 (round1 (prime x y))))

/-- `i1` of tg.c:4491-4495. -/
def high (x y : BitVec 32) : BitVec 32 :=
  let q := scan x y
  let a := q.c ^^^ (q.c >>> 1)
  let b := q.d ^^^ (q.d >>> 1)
  b ||| (0xFFFF#32 ^^^ ((x ^^^ y) ||| a))

/-- Interleave with zeros, tg.c:4497-4500 and 4502-4505. -/
def spread (i : BitVec 32) : BitVec 32 :=
  let i := (i ||| (i <<< 8)) &&& 0x00FF00FF#32
  let i := (i ||| (i <<< 4)) &&& 0x0F0F0F0F#32
  let i := (i ||| (i <<< 2)) &&& 0x33333333#32
  (i ||| (i <<< 1)) &&& 0x55555555#32

/-- `hilbert_xy_to_index`, tg.c:4462-4507. -/
def hilbertXyToIndex (x y : BitVec 32) : BitVec 32 :=
  (spread (high x y) <<< 1) ||| spread (x ^^^ y)

end Tg.Hilbert
