/-!
# Macros for the kinds of files, for sizes and for alignment

`include/compat/sys/stat.h:37-117` (Windows) and `include/rtypes.h:87-123`.
-/
namespace Verif.Mc

/-! ## Kinds of files, Windows.  The values of `_S_IFMT` ... are those of Microsoft's `sys/stat.h`. -/

abbrev Mode := BitVec 32

def S_IFMT : Mode := 0xF000
def S_IFDIR : Mode := 0x4000
def S_IFCHR : Mode := 0x2000
def S_IFIFO : Mode := 0x1000
def S_IFREG : Mode := 0x8000
/-- `include/compat/sys/stat.h:65-73`. -/
def S_IFBLK : Mode := 0
def S_IFLNK : Mode := 0
def S_IFSOCK : Mode := 0

/-- `include/compat/sys/stat.h:92-99`. -/
def DT_UNKNOWN : Mode := 0
def DT_REG : Mode := S_IFREG
def DT_DIR : Mode := S_IFDIR
def DT_FIFO : Mode := S_IFIFO
def DT_SOCK : Mode := S_IFSOCK
def DT_CHR : Mode := S_IFCHR
def DT_BLK : Mode := S_IFBLK
def DT_LNK : Mode := S_IFLNK

/-- `include/compat/sys/stat.h:102-103`. -/
def IFTODT (m : Mode) : Mode := m &&& S_IFMT
def DTTOIF (t : Mode) : Mode := t

/-- `include/compat/sys/stat.h:111-117`. -/
def S_ISFIFO (m : Mode) : Bool := (m &&& S_IFMT) == S_IFIFO
def S_ISDIR (m : Mode) : Bool := (m &&& S_IFMT) == S_IFDIR
def S_ISREG (m : Mode) : Bool := (m &&& S_IFMT) == S_IFREG
def S_ISLNK (m : Mode) : Bool := (m &&& S_IFMT) == S_IFLNK
def S_ISSOCK (m : Mode) : Bool := (m &&& S_IFMT) == S_IFSOCK
def S_ISCHR (m : Mode) : Bool := (m &&& S_IFMT) == S_IFCHR
def S_ISBLK (m : Mode) : Bool := (m &&& S_IFMT) == S_IFBLK

/-! ## Alignment -/

/-- `include/rtypes.h:91`: `align_up(num, align)` for operands of 64 bits. -/
def alignUp (num align : BitVec 64) : BitVec 64 := (num + (align - 1)) &&& ~~~(align - 1)

/-- The same if `align` is an `unsigned int`: `align - 1` and its complement are computed with 32 bits, and extended with zeros. -/
def alignUp32 (num : BitVec 64) (align : BitVec 32) : BitVec 64 := (num + (align - 1).setWidth 64) &&& (~~~(align - 1)).setWidth 64

/-- The same if `align` is an `int`: extended with the sign. -/
def alignUpInt (num : BitVec 64) (align : BitVec 32) : BitVec 64 := (num + (align - 1).signExtend 64) &&& (~~~(align - 1)).signExtend 64

/-! ## Sizes -/

/-- An `int` of 32 bits; otherwise overflow, which is undefined. -/
def int32 (x : Int) : Option Int := if -2 ^ 31 ≤ x ∧ x < 2 ^ 31 then some x else none

/-- The argument is a sum of `int`s as it is written: `a + b + ... + z`.  `times` is `z * 1024 * ... * 1024`, from left to right. -/
def times (z : Int) : Nat → Option Int
  | 0 => int32 z
  | k + 1 => (times z k).bind fun y => int32 (y * 1024)

/-- `a + b + ... + y` before that, from left to right. -/
def plus : Option Int → List Int → Option Int
  | acc, [] => acc
  | acc, x :: xs => plus (acc.bind fun a => (int32 x).bind fun x => int32 (a + x)) xs

/-- `include/rtypes.h:121-123`: `Kb` (`k = 1`), `Mb` (2), `Gb` (3) of `a + ... + z`: the argument has no parentheses, so only `z` is multiplied.  Then the
conversion to `u64`. -/
def size (k : Nat) (front : List Int) (z : Int) : Option (BitVec 64) :=
  match front with
  | [] => (times z k).map (BitVec.ofInt 64)
  | a :: rest => (plus (int32 a) rest).bind fun s => (times z k).bind fun y => (int32 (s + y)).map (BitVec.ofInt 64)

end Verif.Mc
