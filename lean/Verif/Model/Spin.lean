/-!
# The spinlock of `include/catomic.h`

Any number of threads use one lock.  Every step is one atomic access; steps of the threads interleave in any way.  The lock is a
single location, so sequentially consistent interleaving is what coherence gives for it under any memory order; what the acquire and release
orders do for *other* locations is not modelled.
-/
namespace Verif.Sp

/-- Where a thread is. -/
inductive Pc
  /-- Not using the lock. -/
  | out
  /-- About to execute the test-and-set of `catomic.h:2564`. -/
  | tas
  /-- In the waiting loop of `catomic.h:2568`. -/
  | spin
  /-- `c89atomic_spinlock_lock` has returned. -/
  | held
  deriving DecidableEq

/-- `flag`: the byte of the lock. -/
structure Sys where
  flag : Nat
  pc : Nat → Pc

/-- What a thread does next. -/
inductive Act
  /-- Calls `atomic_lock` (`catomic.h:2646`). -/
  | lock (t : Nat)
  /-- One step within `atomic_lock`. -/
  | step (t : Nat)
  /-- Calls `atomic_unlock` (`catomic.h:2647`). -/
  | unlock (t : Nat)

def Act.tid : Act → Nat
  | .lock t | .step t | .unlock t => t

def Sys.at (y : Sys) (t : Nat) (p : Pc) : Sys := { y with pc := fun u => if u = t then p else y.pc u }

/-- `catomic.h:2561-2572` `c89atomic_spinlock_lock` and `catomic.h:2574-2577` `c89atomic_spinlock_unlock`.  `v` is what a test-and-set
stores: 1 on most machines, by the compiler's documentation any value but 0.  A call that is not possible where the thread is does nothing. -/
def step (v : Nat) (y : Sys) : Act → Sys
  | .lock t => if y.pc t = .out then y.at t .tas else y
  | .step t =>
    match y.pc t with
    | .tas => if y.flag = 0 then { y.at t .held with flag := v } else { y.at t .spin with flag := v }
    | .spin => if y.flag = 1 then y else y.at t .tas
    | _ => y
  | .unlock t => if y.pc t = .held then { y.at t .out with flag := 0 } else y

def run (v : Nat) (y : Sys) (h : List Act) : Sys := h.foldl (step v) y

/-- A lock after `atomic_flag_clear` (`src/future.c:16`): nobody uses it. -/
def clear : Sys := ⟨0, fun _ => .out⟩

end Verif.Sp
