/-!
# `atomic_cas_32`, `atomic_cas`, `atomic_swap` on Windows

`include/catomic.h:2579-2628`.  Memory is a function from addresses to words; addresses are words.
-/
namespace Verif.Cw

variable {w : Nat}

abbrev Mem (w : Nat) := BitVec w → BitVec w

def Mem.set (m : Mem w) (p x : BitVec w) : Mem w := fun q => if q = p then x else m q

/-- `_InterlockedCompareExchange(a, set, cmp)`, and its forms for 64 bits and pointers: memory afterwards, and what it returns. -/
def interlocked (m : Mem w) (a set cmp : BitVec w) : Mem w × BitVec w := (if m a = cmp then m.set a set else m, m a)

/-- `c89atomic_cas_32`, `c89atomic_cas_64`, `c89atomic_swap`: `include/catomic.h:2585-2591`, `2599-2605`, `2613-2619`. -/
def cas (m : Mem w) (a cmp set : BitVec w) : Mem w × Bool :=
  let initial_cmp := m cmp
  let r := interlocked m a set initial_cmp
  let initial_a := r.2
  let ret := decide (initial_a = initial_cmp)
  (if ret then r.1 else r.1.set cmp initial_a, ret)

/-- C11's `atomic_compare_exchange_strong(a, expected, desired)`. -/
def strong (m : Mem w) (a expected desired : BitVec w) : Mem w × Bool :=
  if m a = m expected then (m.set a desired, true) else (m.set expected (m a), false)

/-- `c89atomic_cas_32`, `c89atomic_cas_64` by tcc for Windows, 32-bit: `include/catomic.h:2583`, `2597`: `&cmp` is passed, where `cmp` would be right.
`frame` is the address of the parameter `cmp`. -/
def casTcc (m : Mem w) (frame a cmp set : BitVec w) : Mem w × Bool := strong (m.set frame cmp) a frame set

/-- `c89atomic_swap` by tcc for Windows, 32-bit: `include/catomic.h:2611`; besides, the address of the parameter `set` is passed for `set`. -/
def swapTcc (m : Mem w) (frame frame' a cmp set : BitVec w) : Mem w × Bool := strong ((m.set frame cmp).set frame' set) a frame frame'

/-! ## Threads that change an object in loops -/

/-- Where a thread is in `while (!atomic_cas(p, &e, f(e)));`. -/
inductive Pc (w : Nat)
  | top
  /-- `initial_cmp` is read. -/
  | called (cmp : BitVec w)
  /-- The exchange is made. -/
  | swapped (cmp old : BitVec w)
  deriving DecidableEq

/-- `mem`: the object; `e`: each thread's variable; `done`: what `e` was when its loops ended, the latest first. -/
structure St (w : Nat) where
  mem : BitVec w
  pc : Nat → Pc w
  e : Nat → BitVec w
  done : Nat → List (BitVec w)

def upd {A : Type} (f : Nat → A) (i : Nat) (x : A) : Nat → A := fun j => if j = i then x else f j

/-- A step of thread `i`: `include/catomic.h:2585`, `2586`, `2587-2591`.  After a loop the thread begins the next. -/
def step (f : BitVec w → BitVec w) (s : St w) (i : Nat) : St w :=
  match s.pc i with
  | .top => { s with pc := upd s.pc i (.called (s.e i)) }
  | .called cmp => { s with mem := if s.mem = cmp then f cmp else s.mem, pc := upd s.pc i (.swapped cmp s.mem) }
  | .swapped cmp old =>
    if old = cmp then { s with pc := upd s.pc i .top, done := upd s.done i (s.e i :: s.done i) }
    else { s with pc := upd s.pc i .top, e := upd s.e i old }

/-- A schedule says which thread makes each step. -/
def run (f : BitVec w → BitVec w) (s : St w) : List Nat → St w
  | [] => s
  | i :: is => run f (step f s i) is

/-- The variables hold anything. -/
def start (x : BitVec w) (e : Nat → BitVec w) : St w := ⟨x, fun _ => .top, e, fun _ => []⟩

/-- The same loop by tcc; a call is one step here.  `at_ i`: the address of thread `i`'s variable. -/
def stepTcc (f : BitVec w → BitVec w) (at_ : Nat → BitVec w) (s : St w) (i : Nat) : St w :=
  if s.mem = at_ i then { s with mem := f (s.e i), done := upd s.done i (s.e i :: s.done i) } else s

def runTcc (f : BitVec w → BitVec w) (at_ : Nat → BitVec w) (s : St w) : List Nat → St w
  | [] => s
  | i :: is => runTcc f at_ (stepTcc f at_ s i) is

end Verif.Cw
