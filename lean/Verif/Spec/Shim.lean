import Verif.Model.Shim
/-!
# What POSIX says of `snprintf`, `ftruncate` and `lseek`
-/
namespace Verif.Ws.Spec

/-- `snprintf`: nothing is written for `n` = 0; otherwise what fits of the text, and always the terminator.  The length of the
whole text is returned. -/
def snprintf (m : List UInt8) (n : Nat) (s : List UInt8) : Option (List UInt8 × Int) :=
  (put m (if n = 0 then [] else s.take (n - 1) ++ [0])).map fun m => (m, (s.length : Int))

/-- The string at the start of the memory `m`: the bytes before the first 0; `none` if there is no 0 (it is read beyond the memory). -/
def cstr : List UInt8 → Option (List UInt8)
  | [] => none
  | c :: m => if c = 0 then some [] else (cstr m).map (c :: ·)

/-- The file has `n` bytes after: the first ones are the old ones, zeros follow. -/
def cut (d : List UInt8) (n : Nat) : List UInt8 := (List.range n).map fun i => d.getD i 0

/-- Where `lseek` counts from: the start, the position, the end. -/
def origin (f : File) : Whence → Int
  | .set => 0
  | .cur => f.pos
  | .fin => f.data.length

/-- `ftruncate`. -/
def ftruncate (f : File) (len : Int) : File × Int :=
  if len < 0 then (f, -1) else ({ f with data := cut f.data len.toNat }, 0)

/-- `lseek`. -/
def lseek (f : File) (off : Int) (w : Whence) : File × Int :=
  if origin f w + off < 0 then (f, -1) else ({ f with pos := (origin f w + off).toNat }, origin f w + off)

def op (f : File) : Op → File × Int
  | .seek off w => lseek f off w
  | .trunc len => ftruncate f len

def ops : File → List Op → List Int × File
  | f, [] => ([], f)
  | f, o :: r => let x := ops (op f o).1 r; ((op f o).2 :: x.1, x.2)

/-- All numbers of a program that works on `f` as POSIX says, offsets and positions, are below 2^31. -/
def Small : File → List Op → Prop
  | _, [] => True
  | f, o :: r =>
    (match o with
      | .seek off w => -2 ^ 31 ≤ off ∧ off < 2 ^ 31 ∧ origin f w + off < 2 ^ 31
      | .trunc len => -2 ^ 31 ≤ len ∧ len < 2 ^ 31) ∧ Small (op f o).1 r

end Verif.Ws.Spec
