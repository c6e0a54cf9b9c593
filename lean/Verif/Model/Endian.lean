/-!
# Byte order and differences of times

The macros of `include/compat/endian.h` for Windows and `timersub` of `include/compat/sys/time.h`, `timespecsub` of `include/compat/time.h`.
-/
namespace Verif.En

/-- Winsock's `ntohs`/`htons` and `ntohl`/`htonl`: both directions swap the bytes on a machine with the low byte first and do nothing on others (`big`). -/
def ntohs (big : Bool) (x : BitVec 16) : BitVec 16 := if big then x else x <<< 8 ||| x >>> 8
def ntohl (big : Bool) (x : BitVec 32) : BitVec 32 :=
  if big then x else x <<< 24 ||| (x &&& (0xFF00 : BitVec 32)) <<< 8 ||| (x >>> 8 &&& (0xFF00 : BitVec 32)) ||| x >>> 24

/-- `include/compat/endian.h:67-70`. -/
def be16toh (big : Bool) (x : BitVec 16) : BitVec 16 := ntohs big x
def htobe16 (big : Bool) (x : BitVec 16) : BitVec 16 := ntohs big x
def be32toh (big : Bool) (x : BitVec 32) : BitVec 32 := ntohl big x
def htobe32 (big : Bool) (x : BitVec 32) : BitVec 32 := ntohl big x

/-- `ntohll`, `include/compat/endian.h:73-75`; `htonll`, 76-78, is the same text. The argument has type `uint64_t`, and the calls of `ntohl` take the low 32 bits. -/
def ntohll (big : Bool) (x : BitVec 64) : BitVec 64 :=
  if 1 = ntohl big 1 then x
  else ((ntohl big ((x &&& (0xFFFFFFFF : BitVec 64)).setWidth 32)).setWidth 64) <<< 32 ||| (ntohl big ((x >>> 32).setWidth 32)).setWidth 64

/-- `include/compat/endian.h:71`, `80`. -/
def be64toh (big : Bool) (x : BitVec 64) : BitVec 64 := ntohll big x
def htobe64 (big : Bool) (x : BitVec 64) : BitVec 64 := ntohll big x

/-- `struct timeval`. -/
structure TV where
  sec : Int
  usec : Int
  deriving DecidableEq

/-- A signed result of type `long` with `n` bits, if there is one: otherwise the behaviour is undefined. -/
def long (n : Nat) (v : Int) : Option Int := if -(2 : Int) ^ (n - 1) ≤ v ∧ v < (2 : Int) ^ (n - 1) then some v else none

/-- A statement that assigns to a field. -/
def setSec (m : Nat → TV) (p : Nat) (v : Int) : Nat → TV := fun q => if q = p then { m p with sec := v } else m q
def setUsec (m : Nat → TV) (p : Nat) (v : Int) : Nat → TV := fun q => if q = p then { m p with usec := v } else m q

/-- `timersub(t, u, v)`, `include/compat/sys/time.h:16-25`, on pointers, which may be equal. -/
def timersub (n : Nat) (m : Nat → TV) (t u v : Nat) : Option (Nat → TV) := do
  let a ← long n ((m t).sec - (m u).sec)
  let m := setSec m v a
  let b ← long n ((m t).usec - (m u).usec)
  let m := setUsec m v b
  if (m v).usec < 0 then do
    let c ← long n ((m v).sec - 1)
    let m := setSec m v c
    let d ← long n ((m v).usec + 1000000)
    return setUsec m v d
  else return m

/-- `timespecsub(t, u, v)`, `include/compat/time.h:47-56`; the field for microseconds holds nanoseconds. -/
def timespecsub (n : Nat) (m : Nat → TV) (t u v : Nat) : Option (Nat → TV) := do
  let a ← long n ((m t).sec - (m u).sec)
  let m := setSec m v a
  let b ← long n ((m t).usec - (m u).usec)
  let m := setUsec m v b
  if (m v).usec < 0 then do
    let c ← long n ((m v).sec - 1)
    let m := setSec m v c
    let d ← long n ((m v).usec + 1000000000)
    return setUsec m v d
  else return m

end Verif.En
