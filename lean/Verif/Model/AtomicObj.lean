/-!
# The generic atomic operations

`atomic_store(obj, v)` and the others (`include/catomic.h:2649-2798`) take objects of any of the published
atomic types, and work on `32` bits (`2671-2732`, 32-bit builds) or `64` bits (`2733-2796`, the others)
whatever the type is.  Memory is bytes, lowest first.  Each operation is one step here (C58).
Not modelled: that a misaligned access may trap.
-/
namespace Verif.Ao

abbrev Mem := Nat → BitVec 8

/-- The published types.  `include/catomic.h:68-94`. -/
inductive Ty
  | bool | char | schar | uchar | short | ushort | int | uint | long | ulong | llong | ullong
  | intptr | uintptr | intmax | uintmax | sizeT | ptrdiff | ptr
  deriving DecidableEq, Repr

/-- The builds; `win64` has a 32-bit `long`. -/
inductive Build
  | x86 | lp64 | win64
  deriving DecidableEq, Repr

/-- Bytes of an object.  `include/catomic.h:44-60`, `68-94`. -/
def Ty.size : Ty → Build → Nat
  | .bool, _ | .char, _ | .schar, _ | .uchar, _ => 1
  | .short, _ | .ushort, _ => 2
  | .int, _ | .uint, _ => 4
  | .llong, _ | .ullong, _ | .intmax, _ | .uintmax, _ => 8
  | .long, .lp64 | .ulong, .lp64 => 8
  | .long, _ | .ulong, _ => 4
  | .intptr, .x86 | .uintptr, .x86 | .sizeT, .x86 | .ptrdiff, .x86 | .ptr, .x86 => 4
  | .intptr, _ | .uintptr, _ | .sizeT, _ | .ptrdiff, _ | .ptr, _ => 8

/-- Bytes the operations work on.  `include/catomic.h:2671`, `2733`. -/
def Build.width : Build → Nat
  | .x86 => 4
  | _ => 8

/-- The `n` bytes at `a`. -/
def read (m : Mem) (a : Nat) : Nat → Nat
  | 0 => 0
  | n + 1 => (m a).toNat + 256 * read m (a + 1) n

/-- Those of `x` put there. -/
def write (m : Mem) (a n x : Nat) : Mem := fun b =>
  if a ≤ b ∧ b < a + n then BitVec.ofNat 8 (x / 256 ^ (b - a)) else m b

/-- A C integer converted to `n` bytes. -/
def conv (n : Nat) (v : Int) : Nat := (v % (256 ^ n : Nat)).toNat

/-- The operations, with their C integer arguments. -/
inductive Op
  | load
  | store (v : Int)
  | exchange (v : Int)
  | fetchAdd (v : Int)
  | fetchSub (v : Int)
  | fetchOr (v : Int)
  | fetchXor (v : Int)
  | fetchAnd (v : Int)
  deriving DecidableEq, Repr

/-- What an `n`-byte cell that held `x` holds afterwards. -/
def Op.new (op : Op) (n x : Nat) : Nat :=
  match op with
  | .load => x
  | .store v => conv n v
  | .exchange v => conv n v
  | .fetchAdd v => (x + conv n v) % 256 ^ n
  | .fetchSub v => (x + (256 ^ n - conv n v)) % 256 ^ n
  | .fetchOr v => x ||| conv n v
  | .fetchXor v => x ^^^ conv n v
  | .fetchAnd v => x &&& conv n v

/-- `include/catomic.h:2675-2721` (32 bits), `2737-2785` (64 bits): the memory afterwards, and what is
returned. -/
def generic (b : Build) (op : Op) (m : Mem) (a : Nat) : Mem × Nat :=
  let x := read m a b.width
  (write m a b.width (op.new b.width x), x)

/-- `atomic_compare_exchange_strong`/`_weak`: `include/catomic.h:2722-2732`, `2786-2796`, `2581-2635`: the
memory afterwards and the result; `e` is the address of the expected value. -/
def compareExchange (b : Build) (m : Mem) (a e : Nat) (v : Int) : Mem × Bool :=
  if read m a b.width = read m e b.width then (write m a b.width (conv b.width v), true)
  else (write m e b.width (read m a b.width), false)

end Verif.Ao
