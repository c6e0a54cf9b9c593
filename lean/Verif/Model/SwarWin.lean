import Verif.Model.MemSearch
/-!
# `countl_zero` per platform, and the reverse searches built on it

`Verif.Model.Swar` and `Verif.Model.MemSearch` model the build with `__builtin_clzll`.  Here the
same functions take the platform as an argument: `win = true` is the `#ifdef _WIN32` branch.
-/
namespace Verif

/-- `src/swar.c:44-52` `countr_zero`.  `_BitScanForward64` stores the index of the lowest set bit
(`result` is left uninitialised, so `none`, on 0); `__builtin_ctzll` gives the same number. -/
def countr (win : Bool) (x : W) : Option Nat :=
  if win then (List.range 64).find? (fun i => x.getLsbD i) else countrZero x

/-- `src/swar.c:56-64` `countl_zero`.  `_BitScanReverse64` stores the INDEX of the highest set bit
(scanning from bit 63 down; `none` on 0, where `result` is left uninitialised). -/
def countl (win : Bool) (x : W) : Option Nat :=
  if win then ((List.range 64).find? (fun i => x.getLsbD (63 - i))).map (63 - ·) else countlZero x

/-- `src/swar.c:85-130` `_memchr8` with `Reverse`, per platform. -/
def memchr8R (win printable exists' : Bool) (x : W) (c : UInt8) : Option (BitVec 32) :=
  let f := memchr8Flags printable x c
  if exists' then (countl win f).map fun k => BitVec.ofInt 32 (7 - Int.tdiv k 8)
  else (countl win (f ||| 1#64)).map fun k => BitVec.ofInt 32 (7 - Int.tdiv (k + 1) 8)

/-- `src/swar.c:161-170`: the loop of `_memrchr`, per platform. -/
def memrchrLoopR (win : Bool) (m : Int → UInt8) (pr known : Bool) (s : Int) (c : UInt8) :
    Nat → Int → Option (BitVec 32)
  | 0, _ => none
  | fuel + 1, p =>
    if hasbyte (castI m p) c then
      (memchr8R win pr true (castI m p) c).map (BitVec.ofInt 32 (p - s) + ·)
    else if !known && p - 8 == s then some (-1#32)
    else memrchrLoopR win m pr known s c fuel (p - 8)

/-- `src/swar.c:144-171` `_memrchr`, per platform. -/
def memrchrR (win : Bool) (m : Int → UInt8) (pr known : Bool) (s : Int) (len : Nat) (c : UInt8)
    (fuel : Nat) : Option (BitVec 32) :=
  let p := s + len
  let first := castI m p &&& ~~~(partMask len &&& extend c)
  let p := p - partLen len
  if hasbyte first c then
    (memchr8R win pr true first c).map (BitVec.ofInt 32 (p - s) + ·)
  else memrchrLoopR win m pr known s c fuel p

/-- `src/swar.c:499-501` `simd_memrchr`, per platform. -/
def simdMemrchrR (win : Bool) (m : Int → UInt8) (s : Int) (c : UInt8) (len fuel : Nat) :
    Option Int :=
  (memrchrR win m false false s len c fuel).map (s + ·.toNat - 3)

/-- `src/swar.c:519-532` `memrchrk`, `pmemrchr`, `pmemrchrk`. -/
def memrchrk (win : Bool) (m : Int → UInt8) (s : Int) (len : Nat) (c : UInt8) (fuel : Nat) :=
  memrchrR win m false true s len c fuel
@[inherit_doc memrchrk]
def pmemrchr (win : Bool) (m : Int → UInt8) (s : Int) (len : Nat) (c : UInt8) (fuel : Nat) :=
  memrchrR win m true false s len c fuel
@[inherit_doc memrchrk]
def pmemrchrk (win : Bool) (m : Int → UInt8) (s : Int) (len : Nat) (c : UInt8) (fuel : Nat) :=
  memrchrR win m true true s len c fuel

end Verif
