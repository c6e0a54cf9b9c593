import Verif.Spec.Mman
/-!
# The address space on Windows (`src/mman.c`)

`mmap`, `munmap` and `mprotect` as calls of `MapViewOfFile[Ex]`, `UnmapViewOfFile` and `VirtualProtect`, with an address space of views.  Addresses and
lengths are in pages.  Which protections and rights there are is as in C48; offsets and files are C54, C55.  The system, from its documentation:
`UnmapViewOfFile` takes the address of a view and removes it whole; whether it also takes an address inside a view, as it does in fact, is a
parameter.  `VirtualProtect` works on pages of one view, and gives no more rights than the view was made with.
-/
namespace Verif.Vs
open Verif.Mm

/-- A view: its pages, the rights it was made with, those of each page now. -/
structure View where
  base : Nat
  pages : Nat
  most : Rights
  now : Nat → Rights

/-- Page `p` is in the view. -/
def View.has (v : View) (p : Nat) : Bool := decide (v.base ≤ p) && decide (p < v.base + v.pages)

abbrev Space := List View

/-- `PROT_READ`, `PROT_WRITE`, `PROT_EXEC`, or'ed. -/
abbrev Prot := BitVec 3

def wide (prot : Prot) : D := prot.setWidth 32

inductive Op
  /-- `fixed`: `MAP_FIXED`, at `addr`. -/
  | mmap (addr pages : Nat) (prot : Prot) (fixed : Bool)
  | munmap (addr pages : Nat)
  | mprotect (addr pages : Nat) (prot : Prot)

inductive Res
  /-- `mmap`: the address. -/
  | at (base : Nat)
  /-- 0. -/
  | ok
  /-- `MAP_FAILED` or -1. -/
  | failed
  deriving DecidableEq

/-- The pages from `a`, `n` of them, are in no view. -/
def clear (s : Space) (a n : Nat) : Bool := s.all fun v => decide (v.base + v.pages ≤ a) || decide (a + n ≤ v.base)

/-- `a ≤ b`. -/
def within (a b : Rights) : Bool := (!a.r || b.r) && (!a.w || b.w) && (!a.x || b.x)

/-- `src/mman.c:67-128`.  `pick`: the address the system finds for a view, if it has room; an address that is not clear is no room. -/
def mmap (pick : Option Nat) (addr n : Nat) (prot : Prot) (fixed : Bool) (s : Space) : Res × Space :=
  if n = 0 ∨ wide prot = PROT_EXEC then (.failed, s)
  -- `CreateFileMapping` takes no protection of 0
  else if protPage (wide prot) = 0 then (.failed, s)
  else
    match (if fixed then some addr else pick) with
    | none => (.failed, s)
    | some base =>
      if clear s base n then
        (.at base, ⟨base, n, viewRights (protFile (wide prot)), fun _ => viewRights (protFile (wide prot))⟩ :: s)
      else (.failed, s)

/-- `UnmapViewOfFile` finds the view. -/
def names (inside : Bool) (a : Nat) (v : View) : Bool := v.base == a || inside && v.has a

/-- `src/mman.c:130-137`: the length is not used. -/
def munmap (inside : Bool) (addr _n : Nat) (s : Space) : Res × Space :=
  if s.any (names inside addr) then (.ok, s.eraseP (names inside addr)) else (.failed, s)

/-- The view that has all these pages. -/
def covers (a n : Nat) (v : View) : Bool := decide (v.base ≤ a) && decide (a + n ≤ v.base + v.pages)

/-- The view with other rights for these pages. -/
def View.set (v : View) (a n : Nat) (r : Rights) : View := { v with now := fun p => if a ≤ p ∧ p < a + n then r else v.now p }

/-- `src/mman.c:139-149`. -/
def mprotect (addr n : Nat) (prot : Prot) (s : Space) : Res × Space :=
  match pageRights (protPage (wide prot)) with
  | none => (.failed, s)
  | some r =>
    if n ≠ 0 ∧ s.any (fun v => covers addr n v && within r v.most) then
      (.ok, s.map fun v => if covers addr n v then v.set addr n r else v)
    else (.failed, s)

def step (inside : Bool) (pick : Option Nat) (o : Op) (s : Space) : Res × Space :=
  match o with
  | .mmap a n prot fixed => mmap pick a n prot fixed s
  | .munmap a n => munmap inside a n s
  | .mprotect a n prot => mprotect a n prot s

/-- A history, each call with what the system would pick: the results and the space. -/
def run (inside : Bool) : List (Op × Option Nat) → Space → List Res × Space
  | [], s => ([], s)
  | (o, k) :: os, s => ((step inside k o s).1 :: (run inside os (step inside k o s).2).1, (run inside os (step inside k o s).2).2)

end Verif.Vs
