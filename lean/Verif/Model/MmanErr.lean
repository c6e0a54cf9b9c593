import Verif.Model.Mman
/-!
# What the mapping calls for Windows do with the system's answers (`src/mman.c`)

The calls of the system are parameters: each answers whether it did what it was asked, and leaves some number for `GetLastError` to find; a function
that succeeds may leave any number too.  What is mapped where is C83; here it is return values, `errno`, and the handles of the sections made.
-/
namespace Verif.Me
open Verif.Mm

/-- The errors of `<errno.h>` (UCRT) that occur. -/
def EBADF : Nat := 9
def ENOMEM : Nat := 12
def EACCES : Nat := 13
def EINVAL : Nat := 22

/-- The answer of a function of the system: whether it worked, and what `GetLastError` gives after it. -/
structure Ans where
  ok : Bool
  last : Nat
  deriving DecidableEq

/-- What the calling thread sees, and the handles it has open.  `page`: `g_pagesize`. -/
structure St where
  errno : Nat
  last : Nat
  handles : List Nat
  page : Nat

/-- 0 or an address, or -1 or `MAP_FAILED`. -/
inductive Ret
  | ok
  | failed
  deriving DecidableEq

/-- `src/mman.c:29-34` `__map_mman_error`: `deferr` is not used. -/
def mapError (err _deferr : Nat) : Nat := if err = 0 then 0 else err

/-- `EPERM`. -/
def EPERM : Nat := 1

/-- `src/mman.c:90-128` `mmap` from `errno = 0` on.  `fd`: whether the descriptor has a handle (`_get_osfhandle`).  `new`: the handle
`CreateFileMapping` makes.  The three answers are those of `CreateFileMapping`, `MapViewOfFile[Ex]` and `CloseHandle`. -/
def mmap (len : Q) (prot flags : D) (fd : Bool) (new : Nat) (create map close : Ans) (s : St) : Ret × St :=
  let s := { s with errno := 0 }
  if len = 0 ∨ prot = PROT_EXEC then (.failed, { s with errno := EINVAL })
  else if flags &&& MAP_ANONYMOUS = 0 ∧ fd = false then (.failed, { s with errno := EBADF })
  else
    let s := { s with last := create.last }
    if create.ok then
      let s := { s with handles := new :: s.handles, last := map.last }
      let s := { s with handles := if close.ok then s.handles.erase new else s.handles, last := close.last }
      if map.ok then (.ok, s) else (.failed, { s with errno := mapError s.last EPERM })
    else (.failed, { s with errno := mapError s.last EPERM })

/-- `src/mman.c:130-176` `munmap`, `mprotect`, `msync`, `mlock`, `munlock`: one call of the system each (`UnmapViewOfFile`, `VirtualProtect`,
`FlushViewOfFile`, `VirtualLock`, `VirtualUnlock`). -/
def other (a : Ans) (s : St) : Ret × St :=
  let s := { s with last := a.last }
  if a.ok then (.ok, s) else (.failed, { s with errno := mapError s.last EPERM })

/-- `src/mman.c:178-187` `getpagesize`.  `size`: what `GetSystemInfo` says. -/
def getpagesize (size : Nat) (s : St) : Nat × St :=
  let s := if s.page = 0 then { s with page := size } else s
  (s.page, s)

/-- A call, with the answers it gets. -/
inductive Op
  | mmap (len : Q) (prot flags : D) (fd : Bool) (new : Nat) (create map close : Ans)
  /-- `munmap`, `mprotect`, `msync`, `mlock`, `munlock`. -/
  | other (a : Ans)
  | getpagesize (size : Nat)

def step (op : Op) (s : St) : St :=
  match op with
  | .mmap len prot flags fd new c m k => (mmap len prot flags fd new c m k s).2
  | .other a => (other a s).2
  | .getpagesize n => (getpagesize n s).2

def run (ops : List Op) (s : St) : St := ops.foldl (fun s o => step o s) s

end Verif.Me
