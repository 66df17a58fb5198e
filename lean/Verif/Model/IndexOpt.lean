import Verif.Model.Series
/-! Index options: tg.c:972-1045. `enum tg_index` is an `unsigned int`, a `BitVec 32`; `int` is `Int`. -/
namespace Tg.S

/-- The global defaults, tg.c:925-926. -/
structure Env where
  index : BitVec 32
  spread : Int
deriving DecidableEq, Repr

/-- tg.c:925-926 -/
def Env.initial : Env := ⟨2#32, 16⟩

/-- `tg_env_set_index`, tg.c:976-988. -/
def Env.setIndex (e : Env) (ix : BitVec 32) : Env :=
  if ix = 1#32 ∨ ix = 2#32 ∨ ix = 3#32 then { e with index := ix } else e

/-- `tg_env_set_index_spread`, tg.c:1013-1018. -/
def Env.setSpread (e : Env) (spread : Int) : Env :=
  if spread ≥ 2 ∧ spread ≤ 4096 then { e with spread := spread } else e

/-- `tg_index_with_spread`, tg.c:1023-1031. -/
def indexWithSpread (ix : BitVec 32) (spread : Int) : BitVec 32 :=
  let spread := if spread ≠ 0 then (if spread < 2 then 2 else if spread > 4096 then 4096 else spread) - 1 else spread
  (ix &&& 0xF#32) ||| (BitVec.ofInt 32 spread <<< 4)

/-- `tg_index_extract_spread`, tg.c:1033-1045: the kind and the spread. -/
def extractSpread (e : Env) (ix : BitVec 32) : BitVec 32 × Int :=
  let s : Int := ((ix >>> 4) &&& 4095#32).toNat
  let s := if s > 0 then s + 1 else s
  let s := if s = 0 then e.spread else s
  (ix &&& 0xF#32, s)

/-- `tg_ring_new_ix` (`closed`) and `tg_line_new_ix`, tg.c:2271-2275, 3312-3316. -/
def newIx {α β : Type*} [LinearOrder α] [LinearOrder β] [Zero α] (f : Ix α β) (A : Arith α) (e : Env) (pts : List (Pt α))
    (closed : Bool) (ix : BitVec 32) : Option (Ring α β) :=
  let (kind, spread) := extractSpread e ix
  seriesNew f A pts closed kind.toNat e.index.toNat spread.toNat

end Tg.S
