import Verif.Model.MemSearch
/-!
# Model of the number parsing and formatting functions of `src/swar.c`
-/
namespace Verif

/-- A 64-bit left shift.  A shift by 64 is undefined in C (`src/swar.c:302`, `:357` with
`len = 0`); the result is then the arbitrary word `junk`. -/
def shlC (x : W) (n : Nat) (junk : W) : W := if n < 64 then x <<< n else junk

/-- `src/swar.c:302-303`, `:357-360`: apply `len`, clear everything if it is 0
(`-(uint64_t)(len > 0)`). -/
def applyLen (x : W) (len : Nat) (junk : W) : W :=
  shlC x (64 - len * 8) junk &&& (if len > 0 then BitVec.allOnes 64 else 0#64)

/-- `src/swar.c:295-315` `atou8` (`len ≤ 8`, asserted only in debug builds). -/
def atou8 (m : Mem) (s len : Nat) (junk : W) : BitVec 32 :=
  let x := applyLen (cast64 m s) len junk
  let x := ((x &&& 0x0f0f0f0f0f0f0f0f#64) * ((1#64 <<< 8) * 10#64 + 1#64)) >>> 8
  let x := ((x &&& 0x00ff00ff00ff00ff#64) * ((1#64 <<< 16) * 100#64 + 1#64)) >>> 16
  let x := ((x &&& 0x0000ffff0000ffff#64) * ((1#64 <<< 32) * 10000#64 + 1#64)) >>> 32
  x.setWidth 32

/-- `src/swar.c:319-336` `simd_atou`. -/
def simdAtou (m : Mem) (s len : Nat) (junk : W) : W :=
  if len > 8 then
    let lh := len % 8
    let x : W := (atou8 m s lh junk).setWidth 64 * 100000000#64
    let len := len - lh
    let s := s + lh
    if len > 8 then
      let x := (x + (atou8 m s 8 junk).setWidth 64) * 100000000#64
      x + (atou8 m (s + 8) (len - 8) junk).setWidth 64
    else x + (atou8 m s len junk).setWidth 64
  else (atou8 m s len junk).setWidth 64

/-- `src/swar.c:339-347` `simd_atoi`; `none` = signed overflow of `-x` (undefined). -/
def simdAtoi (m : Mem) (s len : Nat) (junk : W) : Option W :=
  let neg := len ≠ 0 ∧ m s = 45
  let ls := len ≠ 0 ∧ (m s = 45 ∨ m s = 43)
  let s' := if ls then s + 1 else s
  let len' := if ls then len - 1 else len
  let x := simdAtou m s' len' junk
  if neg then (if x = BitVec.intMin 64 then none else some (-x)) else some x

/-- `src/swar.c:350-375` `htou8`. -/
def htou8 (m : Mem) (s len : Nat) (junk : W) : BitVec 32 :=
  let x := applyLen (cast64 m s) len junk
  let x := x + ((x &&& 0x4040404040404040#64) >>> 6) * 9#64
  let x := ((x &&& 0x0f0f0f0f0f0f0f0f#64) * ((1#64 <<< 12) + 1#64)) >>> 8
  let x := ((x &&& 0x00ff00ff00ff00ff#64) * ((1#64 <<< 24) + 1#64)) >>> 16
  let x := ((x &&& 0x0000ffff0000ffff#64) * ((1#64 <<< 48) + 1#64)) >>> 32
  x.setWidth 32

/-- `src/swar.c:378-389` `simd_htou`. -/
def simdHtou (m : Mem) (s len : Nat) (junk : W) : W :=
  if len > 8 then
    let lh := len - 8
    let x : W := (htou8 m s lh junk).setWidth 64 <<< 32
    x + (htou8 m (s + lh) (len - lh) junk).setWidth 64
  else (htou8 m s len junk).setWidth 64

/-! ## Formatting -/

/-- `src/swar.c:205-211`: the table `pairs`. -/
def pairs : List Nat :=
  [0x00, 0x10, 0x20, 0x30, 0x40, 0x50, 0x60, 0x70, 0x80, 0x90,
   0x01, 0x11, 0x21, 0x31, 0x41, 0x51, 0x61, 0x71, 0x81, 0x91,
   0x02, 0x12, 0x22, 0x32, 0x42, 0x52, 0x62, 0x72, 0x82, 0x92,
   0x03, 0x13, 0x23, 0x33, 0x43, 0x53, 0x63, 0x73, 0x83, 0x93,
   0x04, 0x14, 0x24, 0x34, 0x44, 0x54, 0x64, 0x74, 0x84, 0x94]

/-- `src/swar.c:204-219` `utoa2p` for `x < 100` (the only way it is called). -/
def utoa2p (x : Nat) : BitVec 16 :=
  let b50 : BitVec 32 := if x ≥ 50 then BitVec.allOnes 32 else 0#32
  let x2 := BitVec.ofNat 32 x - (50#32 &&& b50)
  let t : BitVec 16 := (BitVec.ofNat 32 (pairs.getD x2.toNat 0) + (b50 &&& 5#32)).setWidth 16
  ((t ||| (t <<< 4)) &&& 0x0f0f#16) ||| 0x3030#16

/-- Store a list of bytes at `p` (`memcpy`). -/
def Mem.write (m : Mem) (p : Nat) (l : List UInt8) : Mem :=
  fun a => if p ≤ a ∧ a < p + l.length then l.getD (a - p) 0 else m a

/-- The 8 (or `n`) bytes of a word in memory order. -/
def wordBytes (x : W) (n : Nat) : List UInt8 := (List.range n).map (wordByte x)

/-- `src/swar.c:239-244`: the pair loop of `itoa8`; returns `(x, n, tmp)`. -/
def itoa8Loop (x n : Nat) (tmp : W) : Nat × Nat × W :=
  if x ≥ 100 then itoa8Loop (x / 100) (n + 2) ((tmp <<< 16) ||| (utoa2p (x % 100)).setWidth 64)
  else (x, n, tmp)
termination_by x

/-- `src/swar.c:228-260` `itoa8`: new memory and length.  `none`: `abs(INT_MIN)` is undefined. -/
def itoa8 (m : Mem) (x : BitVec 32) (buf : Nat) : Option (Mem × Nat) :=
  if x = BitVec.intMin 32 then none else
  let neg := x.toInt < 0
  let m := m.write buf [45]
  let b := if neg then buf + 1 else buf
  let (x, n, tmp) := itoa8Loop x.toInt.natAbs 0 0#64
  let n := n + 2
  let tmp := (tmp <<< 16) ||| (utoa2p x).setWidth 64
  let n := if x < 10 then n - 1 else n
  let tmp := tmp >>> (if x < 10 then 8 else 0)
  let m := m.write b (wordBytes tmp 8)
  let m := m.write (b + n) [0]
  some (m, if neg then n + 1 else n)

/-- The two bytes `utoa2p_ex` (`src/swar.c:222-225`) stores. -/
def pairBytes (x : Nat) : List UInt8 := wordBytes ((utoa2p x).setWidth 64) 2

/-- `src/swar.c:275-282`: the loop of `simd_itoa` filling `tmp` from its end; `acc` is what has
been stored so far (`acc = p[0 .. tmp+20-p)`). -/
def itoaLoop (x : Nat) (acc : List UInt8) : List UInt8 :=
  if x ≥ 100 then itoaLoop (x / 100) (pairBytes (x % 100) ++ acc)
  else
    let acc := pairBytes x ++ acc
    if x < 10 then acc.tail else acc            -- `p += x < 10`
termination_by x

/-- `src/swar.c:265-292` `simd_itoa`: new memory and length.  `abs` is the C library's
`int abs(int)`: the argument is first truncated to 32 bits; `none` for `abs(INT_MIN)`
(undefined).  The `memcpy` of 20 bytes from `p` reads past the end of `tmp`; what it finds there
is the arbitrary `stack`. -/
def simdItoa (m : Mem) (x : W) (buf : Nat) (stack : Nat → UInt8) : Option (Mem × Nat) :=
  let neg := x.toInt < 0
  let m := m.write buf [45]
  let b := if neg then buf + 1 else buf
  let xi : BitVec 32 := x.setWidth 32
  if xi = BitVec.intMin 32 then none else
  let ds := itoaLoop xi.toInt.natAbs []
  let len := ds.length
  let m := m.write b (ds ++ (List.range (20 - len)).map stack)
  let m := m.write (b + len) [0]
  some (m, if neg then len + 1 else len)

/-- `src/swar.c:572-576`: the loop of `_utoap`; `k` iterations left. -/
def utoapLoop : Nat → Nat → W → Nat × W
  | 0, x, tmp => (x, tmp)
  | k + 1, x, tmp =>
    let x := x / 100
    utoapLoop k x ((tmp <<< 16) ||| (utoa2p (x % 100)).setWidth 64)

/-- `src/swar.c:566-582` `_utoap`: new memory and returned `x`.  The loop
`for (i = 0; i < N - 2; i += 2)` runs `(N - 1) / 2` times. -/
def utoap8 (m : Mem) (N x s : Nat) : Mem × Nat :=
  let tmp : W := (utoa2p (x % 100)).setWidth 64
  let (x, tmp) := utoapLoop ((N - 1) / 2) x tmp
  let tmp := tmp >>> ((N % 2) * 8)
  (m.write s (wordBytes tmp 8), x)

/-- `src/swar.c:585-601` `utoap`. -/
def utoap (m : Mem) (N x s : Nat) : Mem :=
  let m :=
    if N ≤ 8 then (utoap8 m N x s).1
    else if N ≤ 16 then
      let (m, x) := utoap8 m (N - 8) x (s + 8)
      let x := x / (if N % 2 = 1 then 10 else 100)
      (utoap8 m 8 x s).1
    else
      let (m, x) := utoap8 m (N - 16) x (s + 16)
      let x := x / (if N % 2 = 1 then 10 else 100)
      let (m, x) := utoap8 m 8 x (s + 8)
      (utoap8 m 8 (x / 100) s).1
  m.write (s + N) [0]

/-! ## `simd_atod` -/

/-- `src/swar.c:11-15` `_copySign`. -/
def copySign (src dst : W) : W :=
  let msk := ~~~(src.sshiftRight 63)
  (dst + msk) ^^^ msk

/-- The number `ip + dp * 10^(-e)` denoted by the result of `simd_atod`. -/
structure Dec where
  ip : Int
  dp : Int
  e : Nat
deriving Repr, DecidableEq

/-- `src/swar.c:537-563` `simd_atod`, computed exactly instead of in binary floating point:
`scales[i]` is `10^-(i+1)`.  `none`: did not return, signed overflow, or index outside the 20
scales.  The length `len - (ilen+1)` is a `uint32_t`. -/
def simdAtod (m : Mem) (s len : Nat) (junk : W) (fuel : Nat) : Option Dec :=
  match pmemchr m s len 46 fuel with
  | none => none
  | some ilen =>
    if ilen = -1#32 then (simdAtoi m s len junk).map fun x => ⟨x.toInt, 0, 0⟩
    else
      match simdAtoi m s ilen.toNat junk with
      | none => none
      | some ipart =>
        let s' := s + ilen.toNat + 1
        let len' := (BitVec.ofNat 32 len - (ilen + 1#32)).toNat
        let dpart := copySign ipart (simdAtou m s' len' junk)
        if len' < 20 then some ⟨ipart.toInt, dpart.toInt, len' + 1⟩ else none

end Verif
