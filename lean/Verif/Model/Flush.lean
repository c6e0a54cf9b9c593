import Verif.Model.MmanErr
/-!
# Flushing and locking a mapping on Windows (`src/mman.c:151-176`)

One shared mapping of a file, in pages.  What a page holds is told by the number of stores made to it: number `k` is what it held after `k` of them.
The system, from its documentation: `FlushViewOfFile` starts writing the pages named to the disk and does not wait until they are there; if the length
is 0, it takes the pages up to the end of the view; pages may also be written at any other time; the writes of one page arrive in the order they were
started.  `VirtualLock` keeps pages in memory; there is no count, one `VirtualUnlock` is enough.  `VirtualUnlock` fails if some page named is not
locked; whether it unlocks the others then is a parameter.
-/
namespace Verif.Fl
open Verif.Me (Ret)

/-- `mem`: how many stores were made to the page.  `fly`: what is on the way to the disk, the oldest first.  `disk`: what is there.  `locked`: kept in
memory. -/
structure St where
  mem : Nat → Nat
  fly : Nat → List Nat
  disk : Nat → Nat
  locked : Nat → Bool

/-- The mapping has the pages `base` to `base + pages - 1`. -/
structure View where
  base : Nat
  pages : Nat

/-- The pages from `a`, `n` of them, are in the mapping. -/
def View.covers (v : View) (a n : Nat) : Bool := decide (v.base ≤ a) && decide (a + n ≤ v.base + v.pages)

/-- `MS_ASYNC`, `MS_SYNC`, `MS_INVALIDATE` (`include/compat/sys/mman.h:69-71`). -/
structure Flags where
  async : Bool
  sync : Bool
  invalidate : Bool

/-- The pages `FlushViewOfFile` takes. -/
def flushed (v : View) (a n p : Nat) : Bool := decide (a ≤ p) && decide (p < if n = 0 then v.base + v.pages else a + n)

/-- `FlushViewOfFile`. -/
def flush (v : View) (a n : Nat) (s : St) : St := { s with fly := fun p => if flushed v a n p then s.fly p ++ [s.mem p] else s.fly p }

/-- `src/mman.c:151-158` `msync`: the flags are not used. -/
def msync (v : View) (a n : Nat) (_flags : Flags) (s : St) : Ret × St :=
  if v.covers a n then (.ok, flush v a n s) else (.failed, s)

/-- `src/mman.c:160-167` `mlock`.  `room`: whether the system will lock as many pages. -/
def mlock (v : View) (a n : Nat) (room : Bool) (s : St) : Ret × St :=
  if v.covers a n && room then (.ok, { s with locked := fun p => decide (a ≤ p) && decide (p < a + n) || s.locked p }) else (.failed, s)

/-- Every page from `a`, `n` of them, is locked. -/
def allLocked (s : St) (a n : Nat) : Bool := (List.range n).all fun i => s.locked (a + i)

/-- `src/mman.c:169-176` `munlock`.  `some`: whether `VirtualUnlock` unlocks what it can when it fails. -/
def munlock (some : Bool) (v : View) (a n : Nat) (s : St) : Ret × St :=
  let off : St := { s with locked := fun p => !(decide (a ≤ p) && decide (p < a + n)) && s.locked p }
  if v.covers a n then
    if allLocked s a n then (.ok, off) else (.failed, if some then off else s)
  else (.failed, s)

/-- What happens: the program's stores and calls, and what the system does by itself. -/
inductive Ev
  | store (p : Nat)
  | msync (a n : Nat) (flags : Flags)
  | mlock (a n : Nat) (room : Bool)
  | munlock (a n : Nat)
  /-- The system begins to write a page. -/
  | writes (p : Nat)
  /-- The oldest write of the page that is on its way arrives. -/
  | lands (p : Nat)

def step (some : Bool) (v : View) (e : Ev) (s : St) : St :=
  match e with
  | .store p => { s with mem := fun q => if q = p then s.mem p + 1 else s.mem q }
  | .msync a n f => (msync v a n f s).2
  | .mlock a n room => (mlock v a n room s).2
  | .munlock a n => (munlock some v a n s).2
  | .writes p => { s with fly := fun q => if q = p then s.fly p ++ [s.mem p] else s.fly q }
  | .lands p =>
    match s.fly p with
    | [] => s
    | k :: r => { s with fly := fun q => if q = p then r else s.fly q, disk := fun q => if q = p then k else s.disk q }

def run (some : Bool) (v : View) (es : List Ev) (s : St) : St := es.foldl (fun s e => step some v e s) s

/-- A mapping just made. -/
def start : St := ⟨fun _ => 0, fun _ => [], fun _ => 0, fun _ => false⟩

end Verif.Fl
