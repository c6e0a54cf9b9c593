/-!
# Values passed to a thread's function and returned by it

`thrd_async(fn, &x)`, `get_arg(arg).member` in the function, `return thrd_value(y)`, `thrd_get(f).member`, as in `examples/thrd_async.c:34-55`.
`Model/Future.lean` has the order of the steps; here are the bytes.
-/
namespace Verif.Wv

/-- Byte order, and the bytes of a pointer. -/
structure Mach where
  big : Bool
  ptr : Nat

/-- A type of integers: its bytes, and whether it has a sign. -/
structure Ty where
  width : Nat
  signed : Bool

/-- The `k` lowest bytes of `n`, lowest first. -/
def encL : Nat → Nat → List UInt8
  | 0, _ => []
  | k + 1, n => UInt8.ofNat (n % 256) :: encL k (n / 256)

def decL : List UInt8 → Nat
  | [] => 0
  | b :: l => b.toNat + 256 * decL l

/-- How the machine keeps the number `n` in `k` bytes. -/
def enc (m : Mach) (k n : Nat) : List UInt8 := if m.big then (encL k n).reverse else encL k n

/-- The number that bytes mean. -/
def dec (m : Mach) (l : List UInt8) : Nat := if m.big then decL l.reverse else decL l

/-- Bytes read as a value of type `t`: two's complement. -/
def Ty.read (t : Ty) (m : Mach) (l : List UInt8) : Int :=
  let n := dec m (l.take t.width)
  if t.signed ∧ 256 ^ t.width ≤ 2 * n then (n : Int) - 256 ^ t.width else n

/-- `sizeof(values_type)`, `include/raii.h:98-125`: it has a `char[256]`. -/
def unionSize : Nat := 256

/-- `RAII_ARGS`, `include/raii.h:30-90`. -/
def tagArgs : Nat := 43

/-- `include/raii.h:299` `thrd_value(x)`: an integer made a pointer. -/
def thrdValue (m : Mach) (x : Int) : Nat := (x % 256 ^ m.ptr).toNat

inductive Out
  | value (x : Int)
  /-- A null pointer is followed. -/
  | null
  /-- An integer is followed as a pointer. -/
  | wild
  /-- Bytes are read beyond the memory that is there. -/
  | over
  deriving DecidableEq

/-- `include/raii.h:298` `thrd_data(x)` passes `&x`; `src/raii.c:579-581` `get_arg` is `src/raii.c:549-554` `raii_value`, which returns
the whole union.  `mem`: the memory from `x` on, as far as it can be read; `t`: the type of the member. -/
def getArg (m : Mach) (t : Ty) (mem : List UInt8) : Out := if mem.length < unionSize then .over else .value (t.read m mem)

/-- `src/future.c:81`: is the argument one made by `args_for`, and is it marked as returning?  `type` is at 0, `is_returning` at 8
(`include/raii.h:177-180`); both have four bytes. `none`: read beyond the memory. -/
def isArgs (m : Mach) (mem : List UInt8) : Option Bool :=
  if mem.length < 4 then none
  else if dec m (mem.take 4) = tagArgs then
    if mem.length < 12 then none else some (decide (dec m ((mem.drop 8).take 4) ≠ 0))
  else some false

/-- The function of a thread given the argument at `mem` returns `thrd_value(x)`; `src/future.c:23-36` `promise_set` keeps it, and
`src/future.c:111-123` `thrd_get` gives it back; its member of type `t` is taken. -/
def getResult (m : Mach) (t : Ty) (mem : List UInt8) (x : Int) : Out :=
  match isArgs m mem with
  | none => .over
  | some a =>
    -- `src/future.c:25`, `:116`
    if thrdValue m x = 0 then .null
    -- `src/future.c:27`
    else if a then .wild
    -- `src/future.c:29-30`: the block is zeroed first
    else .value (t.read m (enc m m.ptr (thrdValue m x) ++ List.replicate (unionSize - m.ptr) 0))

end Verif.Wv
