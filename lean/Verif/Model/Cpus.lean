/-!
# The number of processors, and the lists of a spawn scope

`thrd_cpu_count` decides by how much the two lists of a spawn scope grow.  Numbers are those of `size_t`: sums and products wrap at `2^64`.
-/
namespace Verif.Cp

/-- What the system calls behind `thrd_cpu_count` find. -/
inductive Machine
  /-- `GetSystemInfo`: `dwNumberOfProcessors`. -/
  | windows (processors : Nat)
  /-- The kernel numbers its processors below `ids`; this thread may use `allowed` of them; `junk` bits happen to be set in the memory where
  the set of `src/future.c:168` is kept, before the call. -/
  | linux (ids allowed junk : Nat)
  /-- `sysconf` gives `r`, -1 if it cannot tell. -/
  | other (r : Int)

/-- `src/future.c:159-176` `thrd_cpu_count`.  On Linux the set has 1024 bits; the call fails, and leaves the set alone, if the kernel needs
more (`kernel/sched/syscalls.c`); its result is not looked at.  Elsewhere a `long` is converted to `size_t`. -/
def cpuCount : Machine → Nat
  | .windows p => p
  | .linux ids allowed junk => if ids ≤ 1024 then allowed else junk
  | .other r => (r % 2 ^ 64).toNat

/-- `include/raii.h:241-249` `struct future_pool`: `count` is `thread_count`; `futs` and `ress` are the bytes of the blocks `futures` and
`results`, 0 if there is none. -/
structure Pool where
  count : Nat
  futs : Nat
  ress : Nat
  deriving DecidableEq

/-- How a call of `thrd_spawn` ends. -/
inductive Out
  /-- It returns. -/
  | ok
  /-- It panics or throws. -/
  | panic
  /-- It divides by 0. -/
  | trap
  /-- It writes beyond a list. -/
  | over
  deriving DecidableEq

/-- What becomes of the requests of one call: the two lists grow or not; all the rest goes well or not. -/
structure Luck where
  futs : Bool
  ress : Bool
  rest : Bool

/-- `src/future.c:226`, `:227`: the size asked for. -/
def bytes (count cpus : Nat) : Nat := (count + cpus) % 2 ^ 64 * 8 % 2 ^ 64

/-- `src/future.c:230-248`: what follows the growing; the places are written at `:242` and `:243`. -/
def fill (l : Luck) (p : Pool) : Out × Pool :=
  if l.rest then
    if 8 * (p.count + 1) ≤ p.futs ∧ 8 * (p.count + 1) ≤ p.ress then (.ok, { p with count := (p.count + 1) % 2 ^ 64 }) else (.over, p)
  else (.panic, p)

/-- `src/future.c:220-250` `thrd_spawn`, in a scope made by `thrd_scope` (`:203-218`) with `cpus` processors.  The allocator gives no block
larger than `max`.  `try_realloc` (`src/raii.c:159-167`) panics when refused, and the old block stays.  Threads and their promises are not modelled here. -/
def spawn (cpus max : Nat) (l : Luck) (p : Pool) : Out × Pool :=
  if cpus = 0 then (.trap, p)
  else if p.count % cpus = 0 then
    if l.futs ∧ bytes p.count cpus ≤ max then
      let p := { p with futs := bytes p.count cpus }
      if l.ress ∧ bytes p.count cpus ≤ max then fill l { p with ress := bytes p.count cpus } else (.panic, p)
    else (.panic, p)
  else fill l p

/-- `src/future.c:203-218` `thrd_scope`: no places yet. -/
def fresh : Pool := ⟨0, 0, 0⟩

/-- Calls one after another; a panic is caught.  After a trap or a write beyond a list nothing more is known: the run stops there. -/
def run (cpus max : Nat) : List Luck → Pool → List Out × Pool
  | [], p => ([], p)
  | l :: h, p =>
    match spawn cpus max l p with
    | (.ok, q) => let r := run cpus max h q; (.ok :: r.1, r.2)
    | (.panic, q) => let r := run cpus max h q; (.panic :: r.1, r.2)
    | (o, q) => ([o], q)

end Verif.Cp
