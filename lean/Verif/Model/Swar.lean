import Verif.Model.Mem
/-!
# Model of the word-level search functions of `src/swar.c`
-/
namespace Verif

/-- The constant `a` of `haszero`, `_memchr8` (`src/swar.c:74`, `:96`). -/
def cA : W := 0x7f7f7f7f7f7f7f7f#64
/-- The constant `l` of `haszero` (`src/swar.c:75`). -/
def cL : W := 0x0101010101010101#64

/-- `src/swar.c:73-77` `haszero`. -/
def haszero (x : W) : Bool := ((x - cL) &&& ~~~x &&& ~~~cA) != 0

/-- `src/swar.c:80-82` `hasbyte`. -/
def hasbyte (x : W) (c : UInt8) : Bool := haszero (x ^^^ extend c)

/-- `src/swar.c:44-52` `countr_zero` (`__builtin_ctzll`); undefined (`none`) on 0. -/
def countrZero (x : W) : Option Nat := (List.range 64).find? (fun i => x.getLsbD i)

/-- `src/swar.c:56-64` `countl_zero` (`__builtin_clzll`); undefined (`none`) on 0. -/
def countlZero (x : W) : Option Nat := (List.range 64).find? (fun i => x.getMsbD i)

/-- `src/swar.c:68-70` `countr_index`: 0 on 0, else ctz + 1. -/
def countrIndex (x : W) : Nat := match countrZero x with | none => 0 | some k => k + 1

/-- The word with the high bit of each matching lane set: `src/swar.c:87-109`, given the block
`x` (= `cast(s)`). -/
def memchr8Flags (printable : Bool) (x : W) (c : UInt8) : W :=
  let x := x ^^^ extend c
  let x := if printable then x + cA else ((x &&& cA) + cA) ||| x
  ~~~x &&& ~~~cA

/-- `src/swar.c:85-130` `_memchr8` on the block `x`; the result is the `uint32_t` the C code
returns (so `-1` is `2^32-1`).  `none` = undefined behaviour (`ctz`/`clz` of 0 in the
"known to exist" variants).  The C arithmetic of lines 115-127 is on `int`s of magnitude at
most 65 (`/` truncates towards zero: `Int.tdiv`). -/
def memchr8X (printable exists' reverse : Bool) (x : W) (c : UInt8) : Option (BitVec 32) :=
  let f := memchr8Flags printable x c
  if exists' then
    if !reverse then (countrZero f).map fun k => BitVec.ofInt 32 (Int.tdiv k 8)
    else (countlZero f).map fun k => BitVec.ofInt 32 (7 - Int.tdiv k 8)
  else
    if !reverse then some (BitVec.ofInt 32 (Int.tdiv ((countrIndex f : Int) - 8) 8))
    else (countlZero (f ||| 1#64)).map fun k => BitVec.ofInt 32 (7 - Int.tdiv (k + 1) 8)

end Verif
