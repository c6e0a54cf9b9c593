import Verif.Model.Swar
/-!
# Model of the memory searches and string scans of `src/swar.c`

Loops whose termination depends on memory contents take `fuel`; `none` = "has not returned
after that many iterations".
-/
namespace Verif

/-! ## `_memchr` -/

/-- `src/swar.c:179`, `:148`: `partLen`. -/
def partLen (len : Nat) : Nat := if len % 8 ≠ 0 then len % 8 else 8

/-- `src/swar.c:180`, `:149`: `partMask` (64-bit shift by `64 - partLen*8 < 64`). -/
def partMask (len : Nat) : W :=
  if len < 8 then (BitVec.allOnes 64) >>> (64 - partLen len * 8) else 0

/-- `src/swar.c:181`, `:150`: the masked first word read at `p`. -/
def firstWord (m : Mem) (p len : Nat) (c : UInt8) : W :=
  cast64 m p &&& ~~~(partMask len &&& extend c)

/-- `src/swar.c:191-200`: the loop of `_memchr`, from `p`. -/
def memchrLoop (m : Mem) (pr known : Bool) (s stop : Nat) (c : UInt8) :
    Nat → Nat → Option (BitVec 32)
  | 0, _ => none
  | fuel + 1, p =>
    if hasbyte (cast64 m p) c then
      (memchr8X pr true false (cast64 m p) c).map (BitVec.ofNat 32 (p - s) + ·)
    else if !known && p + 8 == stop then some (-1#32)
    else memchrLoop m pr known s stop c fuel (p + 8)

/-- `src/swar.c:174-201` `_memchr`. -/
def memchr' (m : Mem) (pr known : Bool) (s len : Nat) (c : UInt8) (fuel : Nat) :
    Option (BitVec 32) :=
  let first := firstWord m s len c
  if hasbyte first c then memchr8X pr true false first c
  else memchrLoop m pr known s (s + len) c fuel (s + partLen len)

/-- `src/swar.c:495-497` `simd_memchr`: the address returned. -/
def simdMemchr (m : Mem) (s : Nat) (c : UInt8) (len : Nat) (fuel : Nat) : Option Nat :=
  (memchr' m false false s len c fuel).map (s + ·.toNat)

/-- `src/swar.c:504-516` `memchrk`, `pmemchr`, `pmemchrk`. -/
def memchrk (m : Mem) (s len : Nat) (c : UInt8) (fuel : Nat) := memchr' m false true s len c fuel
@[inherit_doc memchrk]
def pmemchr (m : Mem) (s len : Nat) (c : UInt8) (fuel : Nat) := memchr' m true false s len c fuel
@[inherit_doc memchrk]
def pmemchrk (m : Mem) (s len : Nat) (c : UInt8) (fuel : Nat) := memchr' m true true s len c fuel

/-! ## `_memrchr`

Addresses are integers here: the loop can walk below the start of the buffer, even below 0
(`src/swar.c:165`). -/

/-- Integer-addressed memory used by `_memrchr` (addresses below 0 model "before the object"). -/
def castI (m : Int → UInt8) (p : Int) : W :=
  BitVec.ofNat 64 (le ((List.range 8).map fun (i : Nat) => (m (p + (i : Int))).toNat))

/-- `src/swar.c:161-170`: the loop of `_memrchr`. -/
def memrchrLoop (m : Int → UInt8) (pr known : Bool) (s : Int) (c : UInt8) :
    Nat → Int → Option (BitVec 32)
  | 0, _ => none
  | fuel + 1, p =>
    if hasbyte (castI m p) c then
      (memchr8X pr true true (castI m p) c).map (BitVec.ofInt 32 (p - s) + ·)
    else if !known && p - 8 == s then some (-1#32)
    else memrchrLoop m pr known s c fuel (p - 8)

/-- `src/swar.c:144-171` `_memrchr`. -/
def memrchr' (m : Int → UInt8) (pr known : Bool) (s : Int) (len : Nat) (c : UInt8) (fuel : Nat) :
    Option (BitVec 32) :=
  let p := s + len
  let first := castI m p &&& ~~~(partMask len &&& extend c)
  let p := p - partLen len
  if hasbyte first c then
    (memchr8X pr true true first c).map (BitVec.ofInt 32 (p - s) + ·)
  else memrchrLoop m pr known s c fuel p

/-- `src/swar.c:499-501` `simd_memrchr`: the address returned, with its `- 3`. -/
def simdMemrchr (m : Int → UInt8) (s : Int) (c : UInt8) (len : Nat) (fuel : Nat) : Option Int :=
  (memrchr' m false false s len c fuel).map (s + ·.toNat - 3)

/-! ## `simd_strlen` -/

/-- Result of a scan together with the addresses of all bytes read. -/
structure Scan where
  result : Option Nat
  reads : List Nat
deriving Repr, DecidableEq

/-- The addresses of the 8 bytes of the word at `p`. -/
def wordAddrs (p : Nat) : List Nat := (List.range 8).map (p + ·)

/-- `src/swar.c:473-490`: which byte of the flagged word is zero?  `none` = misfire. -/
def firstZeroIn (m : Mem) (cp : Nat) : Option Nat := (List.range 8).find? (fun i => m (cp + i) == 0)

/-- `src/swar.c:450-457`: `himagic`, built from its 32-bit half (`long` is 64 bits). -/
def himagic : W := ((0x80808080#64 <<< 16) <<< 16) ||| 0x80808080#64
/-- `src/swar.c:450-457`: `lomagic`. -/
def lomagic : W := ((0x01010101#64 <<< 16) <<< 16) ||| 0x01010101#64
/-- `src/swar.c:467`: the test on a longword. -/
def strlenTest (longword : W) : Bool := ((longword - lomagic) &&& ~~~longword &&& himagic) != 0

/-- `src/swar.c:464-492`: the word loop; the reads of `cp[0..7]` repeat bytes of the word just
read. -/
def strlenWords (m : Mem) (str : Nat) : Nat → Nat → Scan
  | 0, _ => ⟨none, []⟩
  | fuel + 1, p =>
    let longword := cast64 m p
    if strlenTest longword then
      match firstZeroIn m p with
      | some i => ⟨some (p - str + i), wordAddrs p⟩
      | none => let r := strlenWords m str fuel (p + 8); ⟨r.result, wordAddrs p ++ r.reads⟩
    else
      let r := strlenWords m str fuel (p + 8)
      ⟨r.result, wordAddrs p ++ r.reads⟩

/-- `src/swar.c:432-436`: byte by byte until aligned; at most 7 iterations (`k` counts them). -/
def strlenPrologue (m : Mem) (str fuel : Nat) : Nat → Nat → Scan
  | 0, p => strlenWords m str fuel p
  | k + 1, p =>
    if p % 8 ≠ 0 then
      if m p = 0 then ⟨some (p - str), [p]⟩
      else let r := strlenPrologue m str fuel k (p + 1); ⟨r.result, p :: r.reads⟩
    else strlenWords m str fuel p

/-- `src/swar.c:425-493` `simd_strlen`.  (The prologue runs at most 7 times, since one of any 8
consecutive addresses is aligned.) -/
def simdStrlen (m : Mem) (str fuel : Nat) : Scan := strlenPrologue m str fuel 7 str

/-! ## `simd_strcmp` -/

/-- `src/swar.c:405-409`, `:415-420`: first position in `[pos, pos+k)` where the strings differ;
returns the difference of the bytes as `unsigned char`. (The extra tests `str0[pos]==0`,
`str1[pos]==0` of line 406 are included.) -/
def diffFrom (m : Mem) (a b : Nat) (zeroTests : Bool) : Nat → Nat → Option Int
  | 0, _ => none
  | k + 1, pos =>
    let x := m (a + pos); let y := m (b + pos)
    if x ^^^ y ≠ 0 ∨ (zeroTests = true ∧ (x = 0 ∨ y = 0)) then some ((x.toNat : Int) - y.toNat)
    else diffFrom m a b zeroTests k (pos + 1)

/-- `src/swar.c:402-413`: block loop; `k` blocks remain, the current one is `blk`. -/
def strcmpBlocks (m : Mem) (a b len : Nat) : Nat → Nat → Option Int
  | 0, _ => none
  | k + 1, blk =>
    if cast64 m (a + 8 * blk) ^^^ cast64 m (b + 8 * blk) ≠ 0 then
      match diffFrom m a b true (len - blk * 8) (blk * 8) with
      | some d => some d
      | none => strcmpBlocks m a b len k (blk + 1)
    else strcmpBlocks m a b len k (blk + 1)

/-- `src/swar.c:391-423` `simd_strcmp`, given `len = simd_strlen(str0)` (assumed to fit `int`). -/
def strcmpLen (m : Mem) (a b len : Nat) : Int :=
  let fast := len / 8 + 1
  let offset := (fast - 1) * 8
  let fast := if len ≤ 8 then 0 else fast
  match strcmpBlocks m a b len fast 0 with
  | some d => d
  | none => (diffFrom m a b false (len - offset) offset).getD 0

/-- `src/swar.c:391-423` `simd_strcmp`. -/
def simdStrcmp (m : Mem) (a b fuel : Nat) : Option Int :=
  (simdStrlen m a fuel).result.map (strcmpLen m a b)

/-- `src/raii.c:742-744` `is_str_eq`; pointers are `Option` (`none` = NULL). -/
def isStrEq (m : Mem) (a b : Option Nat) (fuel : Nat) : Option Bool :=
  match a, b with
  | some a, some b => (simdStrcmp m a b fuel).map (· == 0)
  | _, _ => some false

/-- `src/raii.c:746-748` `is_str_empty`; `empty` is the address of the literal `""`. -/
def isStrEmpty (m : Mem) (str : Option Nat) (empty fuel : Nat) : Option Bool :=
  isStrEq m str (some empty) fuel

end Verif
