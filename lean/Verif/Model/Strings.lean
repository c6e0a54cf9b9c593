import Verif.Model.Base64
/-!
# `strpos`, `str_split_ex`, `str_concat_ex`, `str_replace_ex`, `str_copy`, `str_memdup_ex`
(`src/swar.c:603-742`)

Source strings are read from byte memory.  Allocated blocks are lists of bytes of the allocated
length; every store is checked (`put`, `putAll`), an out-of-bounds store is `fault`.  Allocation
succeeds (`try_calloc`, `calloc_full` panic otherwise) and zero-fills; registration of the block on
the scope is the subject of C26.  The libc function `strstr` is taken at its specification.
-/
namespace Verif

/-- The `n` bytes at `p`. -/
def Mem.sub (m : Mem) (p n : Nat) : List UInt8 := (List.range n).map fun i => m (p + i)

/-- libc `strstr` on string contents (ISO C 7.24.5.7): offset of the first occurrence. -/
def strstr (hay needle : List UInt8) : Option Nat :=
  (List.range (hay.length + 1)).find? fun i => needle.isPrefixOf (hay.drop i)

/-- The C string that starts at offset `pos` of a block (up to its terminator). -/
def cstrAt (b : List UInt8) (pos : Nat) : List UInt8 := (b.drop pos).takeWhile (· ≠ 0)

/-! ## strpos -/

/-- `src/swar.c:614-619`: the inner loop; `k` pattern bytes to go; is `d == pattern_length`? -/
def strposInner (m : Mem) (text pat : Nat) : (k d e : Nat) → Bool
  | 0, _, _ => true
  | k + 1, d, e => if m (pat + d) = m (text + e) then strposInner m text pat k (d + 1) (e + 1) else false

/-- `src/swar.c:612-622`: the outer loop, `k` positions to go; the result is cast to `int`. -/
def strposLoop (m : Mem) (text pat plen : Nat) : (k c : Nat) → BitVec 32
  | 0, _ => -1#32
  | k + 1, c =>
    if strposInner m text pat plen 0 c then BitVec.ofNat 32 c
    else strposLoop m text pat plen k (c + 1)

/-- `src/swar.c:603-625` `strpos`; `none`: `simd_strlen` did not return within the fuel. -/
def strpos (m : Mem) (text pat fuel : Nat) : Option (BitVec 32) :=
  match (simdStrlen m text fuel).result, (simdStrlen m pat fuel).result with
  | some tlen, some plen =>
    if plen > tlen then some (-1#32)
    else some (strposLoop m text pat plen (tlen - plen + 1) 0)
  | _, _ => none

/-- `src/raii.c:738-740` `is_str_in`. -/
def isStrIn (m : Mem) (text pat fuel : Nat) : Option Bool :=
  (strpos m text pat fuel).map fun r => decide (0 ≤ r.toInt)

/-! ## str_split_ex -/

/-- Outcome of `str_split_ex`: the pointer slots (`some off`: pointer into the string part of the
block, `none`: NULL), the string part of the block, and `*count`. -/
inductive SplitRet where
  | null
  | ok (ptrs : List (Option Nat)) (block : List UInt8) (count : BitVec 32)
  | fault
  | running
  deriving DecidableEq, Repr

/-- `src/swar.c:639-642`: counting words; `nb` so far. `none`: still running. -/
def splitCount (d : List UInt8) : (fuel : Nat) → (s : List UInt8) → (nb : Nat) → Option Nat
  | 0, _, _ => none
  | fuel + 1, s, nb =>
    match strstr s d with
    | none => some nb
    | some i => splitCount d fuel (s.drop (i + d.length)) (nb + 1)

/-- `src/swar.c:653-657`: the cutting loop.  `ptrs` are the slots filled so far, `nslots` the number
of slots allocated. -/
def splitCut (d : List UInt8) (nslots : Nat) : (fuel : Nat) → (pos : Nat) → List (Option Nat) →
    List UInt8 → Option (Option (List (Option Nat) × List UInt8))
  | 0, _, _, _ => none
  | fuel + 1, pos, ptrs, b =>
    match strstr (cstrAt b pos) d with
    | none => some (some (ptrs, b))
    | some i =>
      match put b (pos + i) 0 with
      | none => some none
      | some b =>
        let pos := pos + i + d.length
        if ptrs.length < nslots then splitCut d nslots fuel pos (ptrs ++ [some pos]) b
        else some none

/-- `src/swar.c:638-665`: the part of `str_split_ex` after the argument checks. -/
def splitCore (s d : List UInt8) (fuel : Nat) : SplitRet :=
  match splitCount d fuel s 1 with
  | none => .running
  | some nb =>
    let block := s ++ [0]          -- calloc'ed sLen + 1, then str_copy of sLen bytes
    let r := if nb > 1 then splitCut d (nb + 1) fuel 0 [some 0] block
             else some (some ([some 0], block))
    match r with
    | none => .running
    | some none => .fault
    | some (some (ptrs, block)) =>
      if ptrs.length < nb + 1 then .ok (ptrs ++ [none]) block (BitVec.ofNat 32 nb) else .fault

/-- `src/swar.c:627-666` `str_split_ex`; `empty` is the address of the literal `""`, a NULL
delimiter means `" "`. -/
def strSplit (m : Mem) (s empty : Nat) (delim : Option Nat) (fuel : Nat) : SplitRet :=
  match isStrEq m (some s) (some empty) fuel with
  | none => .running
  | some true => .null
  | some false =>
    match (simdStrlen m s fuel).result,
        (match delim with
         | none => some [32]
         | some d => (simdStrlen m d fuel).result.map (m.sub d)) with
    | some sLen, some dl => splitCore (m.sub s sLen) dl fuel
    | _, _ => .running

/-! ## str_concat_ex -/

/-- `src/swar.c:673-675`: the sum of the lengths, in `size_t`. -/
def concatSize (m : Mem) (fuel : Nat) : List Nat → W → Option W
  | [], acc => some acc
  | p :: ps, acc =>
    match (simdStrlen m p fuel).result with
    | none => none
    | some l => concatSize m fuel ps (acc + BitVec.ofNat 64 l)

/-- `src/swar.c:680-685`: the copying loop. -/
def concatCopy (m : Mem) (fuel : Nat) : List Nat → W → List UInt8 → Ret
  | [], _, res => .ok res
  | p :: ps, off, res =>
    match (simdStrlen m p fuel).result with
    | none => .running
    | some l =>
      match putAll res off.toNat (m.sub p l) with
      | none => .fault
      | some res => concatCopy m fuel ps (off + BitVec.ofNat 64 l) res

/-- `src/swar.c:668-692` `str_concat_ex` on the argument addresses. -/
def strConcat (m : Mem) (args : List Nat) (fuel : Nat) : Ret :=
  match concatSize m fuel args 0 with
  | none => .running
  | some size => concatCopy m fuel args 0 (List.replicate (size + 1#64).toNat 0)

/-! ## str_replace_ex -/

/-- `src/swar.c:703-709`: counting; returns `(i, cnt)` at the end of the loop.
`strstr(&haystack[i], needle) == &haystack[i]` is "the needle is a prefix here";
`i += oldWlen - 1` in `size_t`. -/
def replaceCount (h n : List UInt8) : (fuel : Nat) → (i cnt : W) → Option (W × W)
  | 0, _, _ => none
  | fuel + 1, i, cnt =>
    if i.toNat < h.length then
      if n.isPrefixOf (h.drop i.toNat) then
        replaceCount h n fuel (i + (BitVec.ofNat 64 n.length - 1#64) + 1#64) (cnt + 1#64)
      else replaceCount h n fuel (i + 1#64) cnt
    else some (i, cnt)

/-- `src/swar.c:719-731`: building the result; `h` is what is left of the haystack. -/
def replaceBuild (n r : List UInt8) : (fuel : Nat) → (h : List UInt8) → (i : Nat) → List UInt8 → Ret
  | 0, _, _, _ => .running
  | _ + 1, [], i, res =>
    match putAll res i [0] with
    | none => .fault
    | some res => .ok res
  | fuel + 1, x :: h, i, res =>
    if n.isPrefixOf (x :: h) then
      match putAll res i r with
      | none => .fault
      | some res => replaceBuild n r fuel ((x :: h).drop n.length) (i + r.length) res
    else
      match putAll res i [x] with
      | none => .fault
      | some res => replaceBuild n r fuel h (i + 1) res

/-- `src/swar.c:703-731` on string contents. -/
def replaceCore (h n r : List UInt8) (fuel : Nat) : Ret :=
  match replaceCount h n fuel 0 0 with
  | none => .running
  | some (i, cnt) =>
    if cnt = 0 then .null
    else
      let size := i + cnt * (BitVec.ofNat 64 r.length - BitVec.ofNat 64 n.length) + 1#64
      replaceBuild n r fuel h 0 (List.replicate size.toNat 0)

/-- `src/swar.c:694-732` `str_replace_ex`; `none` arguments are NULL. -/
def strReplace (m : Mem) (h n r : Option Nat) (fuel : Nat) : Ret :=
  match h, n, r with
  | some h, some n, some r =>
    match (simdStrlen m h fuel).result, (simdStrlen m n fuel).result, (simdStrlen m r fuel).result with
    | some hl, some nl, some rl => replaceCore (m.sub h hl) (m.sub n nl) (m.sub r rl) fuel
    | _, _, _ => .running
  | _, _, _ => .null

/-! ## str_memdup_ex -/

/-- `src/swar.c:738-742` `str_memdup_ex`, `src/raii.c:169-171` `raii_memdup`. -/
def strMemdup (m : Mem) (src : Nat) (len : W) : Ret :=
  match putAll (List.replicate (len + 1#64).toNat 0) 0 (m.sub src len.toNat) with
  | none => .fault
  | some b => .ok b

/-- `src/swar.c:734-736` `str_copy` into a destination block. -/
def strCopy (m : Mem) (dst : List UInt8) (src len fuel : Nat) : Ret :=
  match (if len ≠ 0 then some len else (simdStrlen m src fuel).result) with
  | none => .running
  | some n =>
    match putAll dst 0 (m.sub src n) with
    | none => .fault
    | some b => .ok b

end Verif
