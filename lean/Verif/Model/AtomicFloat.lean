import Verif.Model.Atomic
/-!
# Atomic operations on floating-point numbers

`include/catomic.h:2306-2550`: each is the operation of that name on the bits.
-/
namespace Verif.Af
open Verif.At

/-- `float` and `double`. -/
inductive Fmt
  | f32 | f64
  deriving DecidableEq, Repr

/-- Bits of the fraction, and of the exponent. -/
def Fmt.frac : Fmt → Nat
  | .f32 => 23
  | .f64 => 52

def Fmt.exp : Fmt → Nat
  | .f32 => 8
  | .f64 => 11

def Fmt.width (f : Fmt) : Nat := 1 + f.exp + f.frac

/-- The operations; a number is its bits (the unions, `include/catomic.h:2306-2316`). -/
inductive FOp (f : Fmt)
  | clear
  | store (x : BitVec f.width)
  | load
  | exchange (x : BitVec f.width)
  | compareExchange (e d : BitVec f.width)
  | fetchAdd (x : BitVec f.width)
  | fetchSub (x : BitVec f.width)
  | fetchOr (x : BitVec f.width)
  | fetchXor (x : BitVec f.width)
  | fetchAnd (x : BitVec f.width)

/-- `include/catomic.h:2318-2319`, `2321-2333`, `2336-2348`, `2351-2367`, `2370-2397`, `2400-2416`, `2419-2435`,
`2438-2454`, `2457-2473`, `2476-2492`: the operation on the bits. -/
def FOp.bits {f : Fmt} : FOp f → Op f.width
  | .clear => .clear
  | .store x => .store x
  | .load => .load
  | .exchange x => .exchange x
  | .compareExchange e d => .compareExchange e d
  | .fetchAdd x => .fetchAdd x
  | .fetchSub x => .fetchSub x
  | .fetchOr x => .fetchOr x
  | .fetchXor x => .fetchXor x
  | .fetchAnd x => .fetchAnd x

end Verif.Af
