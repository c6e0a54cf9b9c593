import Verif.Model.Atomic
/-!
# Atomic operations on signed objects

`include/catomic.h:2177-2235` (with `2239-2302` for the forms without an order): each casts the object's address and the operands to unsigned, calls the unsigned operation and casts what it returns back.  Conversions to a signed type wrap around, as
with every compiler the header knows.  The width `w` is 8, 16, 32 or 64; the theorems hold for all `w > 1`.

Each operation here as one step; that the unsigned ones are, is C58.
-/
namespace Verif.Sg
open Verif.At (Ret)

inductive SOp
  | fetchAdd (y : Int)
  | fetchSub (y : Int)
  | fetchAnd (y : Int)
  | fetchOr (y : Int)
  | fetchXor (y : Int)
  | exchange (y : Int)
  | store (y : Int)
  | testAndSet
  | clear
  | load
  | compareExchange (expected desired : Int)
  deriving DecidableEq, Repr

/-- `std`: compilers for which `fetch_add` returns the whole old value; `tcc`: the fourth kind of branch, tcc for other processors than x86. -/
inductive Build
  | std
  | tcc
  deriving DecidableEq, Repr

/-- What the unsigned `fetch_add` returns: `include/catomic.h:1594-1595` has `(c89atomic_uint16)` in the 32-bit function; the others (`1552-1553`, `1573-1574`, `1629-1630`) have their own width. -/
def addResult (b : Build) {w : Nat} (old : BitVec w) : BitVec w :=
  match b with
  | .std => old
  | .tcc => if w = 32 then (old.setWidth 16).setWidth w else old

/-- The object afterwards, what is returned (of `compare_exchange`: what `*expected` holds then), and the flag of `compare_exchange`. -/
def SOp.run (b : Build) (w : Nat) : SOp → BitVec w → BitVec w × Int × Bool
  -- 2212-2215
  | .fetchAdd y, v => (v + BitVec.ofInt w y, (addResult b v).toInt, true)
  -- 2217-2220
  | .fetchSub y, v => (v - BitVec.ofInt w y, v.toInt, true)
  -- 2232-2235
  | .fetchAnd y, v => (v &&& BitVec.ofInt w y, v.toInt, true)
  -- 2222-2225
  | .fetchOr y, v => (v ||| BitVec.ofInt w y, v.toInt, true)
  -- 2227-2230
  | .fetchXor y, v => (v ^^^ BitVec.ofInt w y, v.toInt, true)
  -- 2197-2200
  | .exchange y, v => (BitVec.ofInt w y, v.toInt, true)
  -- 2187-2190
  | .store y, _ => (BitVec.ofInt w y, 0, true)
  -- 2177-2180
  | .testAndSet, v => (1#w, v.toInt, true)
  -- 2182-2185
  | .clear, _ => (0#w, 0, true)
  -- 2192-2195
  | .load, v => (v, v.toInt, true)
  -- 2202-2210; `*expected` is an object of the same width
  | .compareExchange e d, v => if v = BitVec.ofInt w e then (BitVec.ofInt w d, (BitVec.ofInt w e).toInt, true) else (v, v.toInt, false)

end Verif.Sg
