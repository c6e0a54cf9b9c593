import Verif.Model.MemSearch
/-!
# Base64 (`src/swar.c:744-875`)

The source text is read from byte memory; the output block is a separate list of bytes whose
length is the allocated size, and every store is checked against it.
-/
namespace Verif

/-- What a function returning a freshly allocated block did. -/
inductive Ret where
  /-- returned `NULL` -/
  | null
  /-- returned a block with this content (the whole allocation) -/
  | ok (block : List UInt8)
  /-- wrote outside the allocation: undefined behaviour -/
  | fault
  /-- did not return within the fuel -/
  | running
  deriving DecidableEq, Repr

/-- A checked store `block[i] = v`. -/
def put (b : List UInt8) (i : Nat) (v : UInt8) : Option (List UInt8) :=
  if i < b.length then some (b.set i v) else none

/-- `*pos++ = v` for each of `vs`. -/
def putAll (b : List UInt8) (pos : Nat) : List UInt8 → Option (List UInt8)
  | [] => some b
  | v :: vs => (put b pos v).bind fun b => putAll b (pos + 1) vs

/-- `src/swar.c:744-745` `base64_table` (ASCII codes of `A-Za-z0-9+/`, then the literal's NUL). -/
def base64Table : List UInt8 :=
  [65, 66, 67, 68, 69, 70, 71, 72, 73, 74, 75, 76, 77, 78, 79, 80, 81, 82, 83, 84, 85, 86, 87, 88,
   89, 90, 97, 98, 99, 100, 101, 102, 103, 104, 105, 106, 107, 108, 109, 110, 111, 112, 113, 114,
   115, 116, 117, 118, 119, 120, 121, 122, 48, 49, 50, 51, 52, 53, 54, 55, 56, 57, 43, 47, 0]

/-- `src/swar.c:747-769` `base64_decode_table`, row by row as in the source. -/
def base64DecodeTable : List UInt8 :=
  [0x80, 0x80, 0x80, 0x80, 0x80, 0x80, 0x80, 0x80, 0x80, 0x80, 0x80, 0x80,
   0x80, 0x80, 0x80, 0x80, 0x80, 0x80, 0x80, 0x80, 0x80, 0x80, 0x80, 0x80,
   0x80, 0x80, 0x80, 0x80, 0x80, 0x80, 0x80, 0x80, 0x80, 0x80, 0x80, 0x80,
   0x80, 0x80, 0x80, 0x80, 0x80, 0x80, 0x80, 0x3e, 0x80, 0x80, 0x80, 0x3f,
   0x34, 0x35, 0x36, 0x37, 0x38, 0x39, 0x3a, 0x3b, 0x3c, 0x3d, 0x80, 0x80,
   0x80, 0x00, 0x80, 0x80, 0x80, 0x00, 0x01, 0x02, 0x03, 0x04, 0x05, 0x06,
   0x07, 0x08, 0x09, 0x0a, 0x0b, 0x0c, 0x0d, 0x0e, 0x0f, 0x10, 0x11, 0x12,
   0x13, 0x14, 0x15, 0x16, 0x17, 0x18, 0x19, 0x80, 0x80, 0x80, 0x80, 0x80,
   0x80, 0x1a, 0x1b, 0x1c, 0x1d, 0x1e, 0x1f, 0x20, 0x21, 0x22, 0x23, 0x24,
   0x25, 0x26, 0x27, 0x28, 0x29, 0x2a, 0x2b, 0x2c, 0x2d, 0x2e, 0x2f, 0x30,
   0x31, 0x32, 0x33, 0x80, 0x80, 0x80, 0x80, 0x80, 0x80, 0x80, 0x80, 0x80,
   0x80, 0x80, 0x80, 0x80, 0x80, 0x80, 0x80, 0x80, 0x80, 0x80, 0x80, 0x80,
   0x80, 0x80, 0x80, 0x80, 0x80, 0x80, 0x80, 0x80, 0x80, 0x80, 0x80, 0x80,
   0x80, 0x80, 0x80, 0x80, 0x80, 0x80, 0x80, 0x80, 0x80, 0x80, 0x80, 0x80,
   0x80, 0x80, 0x80, 0x80, 0x80, 0x80, 0x80, 0x80, 0x80, 0x80, 0x80, 0x80,
   0x80, 0x80, 0x80, 0x80, 0x80, 0x80, 0x80, 0x80, 0x80, 0x80, 0x80, 0x80,
   0x80, 0x80, 0x80, 0x80, 0x80, 0x80, 0x80, 0x80, 0x80, 0x80, 0x80, 0x80,
   0x80, 0x80, 0x80, 0x80, 0x80, 0x80, 0x80, 0x80, 0x80, 0x80, 0x80, 0x80,
   0x80, 0x80, 0x80, 0x80, 0x80, 0x80, 0x80, 0x80, 0x80, 0x80, 0x80, 0x80,
   0x80, 0x80, 0x80, 0x80, 0x80, 0x80, 0x80, 0x80, 0x80, 0x80, 0x80, 0x80,
   0x80, 0x80, 0x80, 0x80, 0x80, 0x80, 0x80, 0x80, 0x80, 0x80, 0x80, 0x80,
   0x80, 0x80, 0x80, 0x80]

/-- `base64_table[i]` (every index used is below 64). -/
def encTab (i : Nat) : UInt8 := base64Table.getD i 0

/-- `base64_decode_table[c]` for a `u_char` index. -/
def decTab (c : UInt8) : UInt8 := base64DecodeTable.getD c.toNat 0

/-- `src/swar.c:771-774` `str_base64_len`: `size_t` arithmetic, `~3u` is a 32-bit constant. -/
def base64Len (n : W) : W := ((4#64 * n / 3#64) + 3#64) &&& 0xfffffffc#64

/-- `src/swar.c:776-784` `is_base64`, loop from `i` with `n` bytes to go. -/
def isBase64Loop (m : Mem) (src : Nat) : Nat → Nat → Bool
  | _, 0 => true
  | i, n + 1 => if decTab (m (src + i)) = 0x80 then false else isBase64Loop m src (i + 1) n

/-- `src/swar.c:776-784` `is_base64` (`none`: `simd_strlen` did not return within the fuel). -/
def isBase64 (m : Mem) (src fuel : Nat) : Option Bool :=
  (simdStrlen m src fuel).result.map fun len => isBase64Loop m src 0 len

/-- `src/swar.c:800-820`: the loop and the tail of `str_encode64_ex`; `n = end - begin`.
`fault` when a store leaves the block. -/
def encLoop (m : Mem) : (n begin pos : Nat) → List UInt8 → Ret
  | n + 3, b, pos, out =>
    let b0 := (m b).toNat; let b1 := (m (b + 1)).toNat; let b2 := (m (b + 2)).toNat
    match putAll out pos
        [encTab (b0 >>> 2), encTab (((b0 &&& 0x03) <<< 4) ||| (b1 >>> 4)),
         encTab (((b1 &&& 0x0f) <<< 2) ||| (b2 >>> 6)), encTab (b2 &&& 0x3f)] with
    | none => .fault
    | some out => encLoop m n (b + 3) (pos + 4) out
  | 2, b, pos, out =>
    let b0 := (m b).toNat; let b1 := (m (b + 1)).toNat
    match putAll out pos
        [encTab (b0 >>> 2), encTab (((b0 &&& 0x03) <<< 4) ||| (b1 >>> 4)),
         encTab ((b1 &&& 0x0f) <<< 2), 61, 0] with
    | none => .fault
    | some out => .ok out
  | 1, b, pos, out =>
    let b0 := (m b).toNat
    match putAll out pos [encTab (b0 >>> 2), encTab ((b0 &&& 0x03) <<< 4), 61, 61, 0] with
    | none => .fault
    | some out => .ok out
  | 0, _, pos, out =>
    match putAll out pos [0] with
    | none => .fault
    | some out => .ok out

/-- `src/swar.c:786-823` `str_encode64_ex`.  Simplified: the allocation succeeds (`calloc_full`
panics otherwise) and is zero filled; its registration on the scope is the subject of C26. -/
def strEncode64 (m : Mem) (src fuel : Nat) : Ret :=
  match (simdStrlen m src fuel).result with
  | none => .running
  | some len =>
    let olen := base64Len (BitVec.ofNat 64 len) + 1#64
    if olen < BitVec.ofNat 64 len then .null
    else encLoop m len src 0 (List.replicate olen.toNat 0)

/-- `src/swar.c:832-836`: the counting loop. -/
def countValid (m : Mem) (src : Nat) : Nat → Nat → Nat
  | _, 0 => 0
  | i, n + 1 => (if decTab (m (src + i)) ≠ 0x80 then 1 else 0) + countValid m src (i + 1) n

/-- `src/swar.c:844-872`: the decoding loop, `n` source bytes to go; `block` is the 4-byte array. -/
def decLoop (m : Mem) (src : Nat) : (n i : Nat) → (block : Nat → UInt8) → (count pad pos : Nat) →
    List UInt8 → Ret
  | 0, _, _, _, _, pos, out =>
    match putAll out pos [0] with
    | none => .fault
    | some out => .ok out
  | n + 1, i, block, count, pad, pos, out =>
    let tmp := decTab (m (src + i))
    if tmp = 0x80 then decLoop m src n (i + 1) block count pad pos out
    else
      let pad := if m (src + i) = 61 then pad + 1 else pad
      let block := fun k => if k = count then tmp else block k
      let count := count + 1
      if count = 4 then
        match putAll out pos
            [UInt8.ofNat (((block 0).toNat <<< 2) ||| ((block 1).toNat >>> 4)),
             UInt8.ofNat (((block 1).toNat <<< 4) ||| ((block 2).toNat >>> 2)),
             UInt8.ofNat (((block 2).toNat <<< 6) ||| (block 3).toNat)] with
        | none => .fault
        | some out =>
          if pad ≠ 0 then
            if pad = 1 ∨ pad = 2 then
              match putAll out (pos + 3 - pad) [0] with
              | none => .fault
              | some out => .ok out
            else .null
          else decLoop m src n (i + 1) block 0 pad (pos + 3) out
      else decLoop m src n (i + 1) block count pad pos out

/-- `src/swar.c:825-875` `str_decode64_ex` (allocation as in `strEncode64`; the local `block` is
initially arbitrary, `junk`). -/
def strDecode64 (m : Mem) (src fuel : Nat) (junk : Nat → UInt8) : Ret :=
  match (simdStrlen m src fuel).result with
  | none => .running
  | some len =>
    let count := countValid m src 0 len
    if count = 0 ∨ count % 4 ≠ 0 then .null
    else decLoop m src len 0 junk 0 0 0 (List.replicate (count / 4 * 3 + 1) 0)

end Verif
