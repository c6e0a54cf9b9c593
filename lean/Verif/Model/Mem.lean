/-!
# Byte memory and 64-bit words

Flat, total byte memory.  What surrounds a buffer is simply the rest of the function, so a
statement quantified over `Mem` quantifies over every possible neighbourhood.
64-bit little-endian machine (see DESIGN.md).
-/
namespace Verif

/-- Byte memory: address to byte. -/
abbrev Mem := Nat → UInt8

/-- Little-endian value of a list of bytes (given as naturals). -/
def le : List Nat → Nat
  | [] => 0
  | b :: bs => b + 256 * le bs

/-- The bytes at `p, p+1, …, p+n-1`. -/
def Mem.bytes (m : Mem) (p : Nat) : Nat → List Nat
  | 0 => []
  | n + 1 => (m p).toNat :: Mem.bytes m (p + 1) n

/-- A machine word. -/
abbrev W := BitVec 64

/-- `src/swar.c:17-21` `cast`: `memcpy` of 8 bytes into a `uintptr_t` (little endian). -/
def cast64 (m : Mem) (p : Nat) : W := BitVec.ofNat 64 (le (m.bytes p 8))

/-- `src/swar.c:36-40` `extend`: `memset` of all 8 bytes to `c`. -/
def extend (c : UInt8) : W := BitVec.ofNat 64 (le (List.replicate 8 c.toNat))

/-- Byte `i` of a word, as stored in memory (little endian).  Used when the C code takes the
address of a local word and reads its bytes, `src/swar.c:157`, `src/swar.c:185`. -/
def wordByte (x : W) (i : Nat) : UInt8 := UInt8.ofNat (x.toNat / 256 ^ i)

end Verif
