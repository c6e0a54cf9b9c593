import Verif.Model.AtomicFloat
import Verif.Spec.Atomic
/-!
# What the bits of a floating-point number stand for

IEEE 754: sign, exponent, fraction.  Every finite number is an integer multiple of the smallest positive one;
`value` is that integer.
-/
namespace Verif.Af
open Verif.At

/-- The number the bits `x` stand for, in units of the smallest positive number; infinities and what is not
a number have none. -/
def value (f : Fmt) (x : Nat) : Option Int :=
  let neg := x / 2 ^ (f.exp + f.frac) % 2 = 1
  let e := x / 2 ^ f.frac % 2 ^ f.exp
  let m := x % 2 ^ f.frac
  if e = 2 ^ f.exp - 1 then none
  else
    let a : Int := if e = 0 then m else ((2 ^ f.frac + m) * 2 ^ (e - 1) : Nat)
    some (if neg then -a else a)

/-- What an operation leaves in the cell, and what it returns: on the bits, in one step (C58). -/
def FOp.run {f : Fmt} (op : FOp f) (old : BitVec f.width) : BitVec f.width × Ret f.width := op.bits.meaning old

end Verif.Af
