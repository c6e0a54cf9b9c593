/-!
# Names that the headers for Windows replace by others

`include/compat/stdio.h:45-47` and `include/compat/config.h:287` make `snprintf` the function `_snprintf`; `include/compat/unistd.h:32`
and `:38` make `ftruncate` the function `_chsize` and `lseek` the function `_lseek`.  What those functions do is taken from Microsoft's documentation.
-/
namespace Verif.Ws

/-- Puts `d` at the start of the memory `m`; `none` if `m` is too short. -/
def put (m d : List UInt8) : Option (List UInt8) := if d.length ≤ m.length then some (d ++ m.drop d.length) else none

/-- `snprintf(p, n, …)` with `include/compat/stdio.h:45-47`: `m` is the memory at `p`, `s` the text that the format and its arguments
give.  `_snprintf` stores at most `n` bytes of it, and the terminator only if there is room; a text longer than `n` gives -1. -/
def snprintf (m : List UInt8) (n : Nat) (s : List UInt8) : Option (List UInt8 × Int) :=
  (put m (if s.length < n then s ++ [0] else s.take n)).map fun m => (m, if s.length ≤ n then (s.length : Int) else -1)

/-- Conversion to `long`, which has 32 bits. -/
def toLong (x : Int) : Int := (x + 2 ^ 31) % 2 ^ 32 - 2 ^ 31

/-- A file: its bytes, and the position of the descriptor. -/
structure File where
  data : List UInt8
  pos : Nat
  deriving DecidableEq

/-- The file with `n` bytes: cut off, or filled up with zeros. -/
def resize (d : List UInt8) (n : Nat) : List UInt8 := d.take n ++ List.replicate (n - d.length) 0

/-- `ftruncate(fd, len)` with `include/compat/unistd.h:32`: `_chsize(fd, (long)len)`. -/
def ftruncate (f : File) (len : Int) : File × Int :=
  if toLong len < 0 then (f, -1) else ({ f with data := resize f.data (toLong len).toNat }, 0)

inductive Whence
  | set
  | cur
  | fin

/-- Where an offset counts from. -/
def base (f : File) : Whence → Int
  | .set => 0
  | .cur => f.pos
  | .fin => f.data.length

/-- `lseek(fd, off, w)` with `include/compat/unistd.h:38`: `_lseek(fd, (long)off, w)`.  A position that is no `long` is beyond its documentation:
`big` says what comes of it. -/
def lseek (big : File → Int → File × Int) (f : File) (off : Int) (w : Whence) : File × Int :=
  if base f w + toLong off < 0 then (f, -1)
  else if base f w + toLong off < 2 ^ 31 then ({ f with pos := (base f w + toLong off).toNat }, base f w + toLong off)
  else big f (base f w + toLong off)

/-- What a program does with a file. -/
inductive Op
  | seek (off : Int) (w : Whence)
  | trunc (len : Int)

/-- One call. -/
def op (big : File → Int → File × Int) (f : File) : Op → File × Int
  | .seek off w => lseek big f off w
  | .trunc len => ftruncate f len

/-- Calls one after another: the results, and the file at the end. -/
def ops (big : File → Int → File × Int) : File → List Op → List Int × File
  | f, [] => ([], f)
  | f, o :: r => let x := ops big (op big f o).1 r; ((op big f o).2 :: x.1, x.2)

end Verif.Ws
