import Verif.Model.Mem
/-!
# The growable array (`raii_array_t`)

A block returned by `realloc` is modelled by its address, its size in bytes and its contents seen
as cells of the element size (`cells`), the number of cells being what fits in the bytes.  The
allocator is an oracle: a function from the requested size to the address it returns, or `none` for
failure; each call gets its own oracle.
Simplification: the contents are kept per element rather than per byte; addresses and sizes are
bytes, so a slot outside the block, or not at an element boundary, is still visible.
-/
namespace Verif

/-- `include/exception.h:63-65` `INCREMENT`. -/
def INCREMENT : W := 16

/-- `SIZE_MAX`. -/
def SIZE_MAX : W := BitVec.allOnes 64

/-- `src/raii.c:34` `MUL_NO_OVERFLOW`: `(size_t)1 << (sizeof(size_t) * 4)`. -/
def MUL_NO_OVERFLOW : W := 1#64 <<< 32

/-- `src/raii.c:35-40` `umull_overflow`: `none` is `return true`, `some x` is `*out = x`. -/
def umullOverflow (a b : W) : Option W :=
  if (a ≥ MUL_NO_OVERFLOW ∨ b ≥ MUL_NO_OVERFLOW) ∧ a > 0 ∧ SIZE_MAX / a < b then none
  else some (a * b)

/-- `src/raii.c:56-62` `add_overflow`: `none` is `return true`. The code adds `INCREMENT`, not `b`. -/
def addOverflow (a b : W) : Option W :=
  if a > 0 ∧ b > SIZE_MAX - a then none else some (a + INCREMENT)

/-- A heap block holding elements of one size. -/
structure Block (α : Type) where
  addr : Nat
  size : Nat
  cells : List α

/-- `include/raii.h:144-148` `raii_array_t`. -/
structure Arr (α : Type) where
  type : Nat
  base : Option (Block α)
  elements : W

/-- `RAII_DEF_ARR`, `include/raii.h:30-90`. -/
def RAII_DEF_ARR : Nat := 26

/-- `src/raii.c:5-14` `raii_array_init` (non-NULL argument). -/
def arrInit {α} : Arr α := { type := RAII_DEF_ARR, base := none, elements := 0 }

/-- `src/raii.c:16-26` `raii_array_reset` (non-NULL argument): frees the block, zeroes the struct. -/
def arrReset {α} (_ : Arr α) : Arr α := { type := 0, base := none, elements := 0 }

/-- The C library's `realloc(optr, size)` answering as `ans`: the cells that fit in both
the old and the new block are kept, the rest of the new block holds unspecified contents `junk`. -/
def realloc {α} (junk : α) (es : W) (old : Option (Block α)) (size : W) (ans : W → Option Nat) :
    Option (Block α) :=
  (ans size).map fun addr =>
    let n := size.toNat / es.toNat
    let kept := ((old.map Block.cells).getD []).take n
    { addr, size := size.toNat, cells := kept ++ List.replicate (n - kept.length) junk }

/-- `src/raii.c:44-52` `realloc_array`. -/
def reallocArray {α} (junk : α) (old : Option (Block α)) (nmemb size : W) (ans : W → Option Nat) :
    Option (Block α) :=
  match umullOverflow nmemb size with
  | none => none
  | some total => realloc junk size old total ans

/-- `src/raii.c:67-85` `raii_array_append`: the address of the new slot (`none` is NULL) and the
updated array.  A NULL `base` is address 0. -/
def arrAppend {α} (junk : α) (a : Arr α) (es : W) (ans : W → Option Nat) : Option W × Arr α :=
  let finish (a : Arr α) : Option W × Arr α :=
    (some (BitVec.ofNat 64 ((a.base.map Block.addr).getD 0) + a.elements * es),
      { a with elements := a.elements + 1 })
  if a.elements % INCREMENT = 0 then
    match addOverflow a.elements INCREMENT with
    | none => (none, a)
    | some newCap =>
      match reallocArray junk a.base newCap es ans with
      | none => (none, a)
      | some nb => finish { a with base := some nb }
  else finish a

/-- The cell of the block at byte address `addr`, if the address is the start of one. -/
def Block.slot {α} (b : Block α) (es : W) (addr : Nat) : Option Nat :=
  if b.addr ≤ addr ∧ (addr - b.addr) % es.toNat = 0 ∧ (addr - b.addr) / es.toNat < b.cells.length
  then some ((addr - b.addr) / es.toNat) else none

/-- Store an element through a pointer; `none` is a store outside the array's cells. -/
def arrStore {α} (a : Arr α) (es : W) (addr : Nat) (v : α) : Option (Arr α) :=
  match a.base with
  | none => none
  | some b => (b.slot es addr).map fun k => { a with base := some { b with cells := b.cells.set k v } }

/-- Load an element through a pointer; `none` is a load outside the array's cells. -/
def arrLoad {α} (a : Arr α) (es : W) (addr : Nat) : Option α :=
  match a.base with
  | none => none
  | some b => (b.slot es addr).bind fun k => b.cells[k]?

end Verif
