/-!
# Futures, promises and spawn scopes (`src/future.c`)

Threads interleave one access to shared memory at a time (sequential consistency; the hand-over of the result goes through the
sequentially consistent flag `done`, so that no weaker order shows).  Everything a thread shares with another is here: the promise, the future
object, the scope of the thread that created the future.

Simplified: allocation succeeds, `thrd_create` and `thrd_join` succeed, the records a worker puts into the creator's scope (`calloc_full`
at `future.c:29`) are dropped (see property C56), the backtrace is dropped.  **Reading freed memory** sets `uaf`; the reader
then finds what was there before (the block is assumed not to have been handed out again), so that what follows can be described at all.
-/
namespace Verif.Fu

/-- What is thrown: the name of the exception, and the message of a panic. -/
structure Exn where
  name : Nat
  panic : Option Nat
  deriving DecidableEq

/-- What the argument passed to the thread function points to. -/
inductive Arg
  | null
  /-- A pack made by `args_for` and its like. -/
  | args
  /-- Something else, of at least four readable bytes. -/
  | other
  deriving DecidableEq

/-- How the thread function ends. -/
inductive Outcome
  /-- It returns NULL, or what it threw was recovered by one of its deferrals (`res` then is still NULL, `future.c:73`). -/
  | null
  /-- It returns the word `v`, not 0. -/
  | plain (v : Nat)
  /-- It returns `thrd_returning(args, p, size)`, `future.c:134-142`: `p` points to `size` bytes, whose contents are `data`. -/
  | returning (p size data : Nat)
  /-- An exception leaves the guarded section of `future.c:77-79` without being recovered. -/
  | throws (e : Exn)
  deriving DecidableEq

/-- `raii_values_t`, `raii.h`: the members `value`, `size`, and what `extended` points to. -/
structure Val where
  value : Nat
  size : Nat
  data : Nat
  deriving DecidableEq

/-- The block `promise_set` puts into the promise, `future.c:25-32`; none for a NULL result. -/
def Outcome.block : Outcome → Option Val
  | .null | .throws _ => none
  | .plain v => some ⟨v, 0, 0⟩
  | .returning p size data => some ⟨p, size, data⟩

/-- `scope`: the creator's scope, `raii_local()` at `future.c:15`. -/
structure Job where
  scope : Nat
  arg : Arg
  out : Outcome

/-- Where a worker is in `thrd_raii_wrapper`, `future.c:70-91`. -/
inductive WPc
  /-- `future.c:74`. -/
  | clear
  /-- In the thread function, `future.c:78`. -/
  | call
  /-- `raii.h:585`. -/
  | noteErr
  /-- `raii.h:586`. -/
  | notePanic
  /-- `future.c:81`, `is_type(f->arg, ..)`. -/
  | test
  /-- `future.c:24`. -/
  | lock
  /-- `future.c:25-32`. -/
  | store
  /-- `future.c:34`. -/
  | unlock
  /-- `future.c:35`. -/
  | setDone
  /-- `future.c:82-89`: releases its argument, runs the deferrals of its own scope, ends. -/
  | leave
  | exited
  /-- NULL was dereferenced. -/
  | crashed
  deriving DecidableEq

/-- `struct _promise`, `raii.h:195-202`.  `isOpen`: its type is `RAII_PROMISE`; `freed`: released with the creator's scope. -/
structure Prom where
  isOpen : Bool
  done : Bool
  mutex : Bool
  result : Option Val
  freed : Bool

/-- Where a caller of `thrd_get` is, `future.c:111-123`. -/
inductive GPc
  | idle
  /-- `future.c:112`. -/
  | check
  /-- `future.c:39-40`. -/
  | wait
  /-- `future.c:42`. -/
  | read
  /-- `future.c:64`. -/
  | join
  /-- `future.c:65-66`. -/
  | free
  /-- `future.c:115` and `future.c:45-52`. -/
  | close
  /-- `future.c:116-119`. -/
  | fin
  /-- Returned a value. -/
  | returned (v : Nat)
  /-- Threw what it found in the scope. -/
  | threw (e : Exn)
  /-- Threw `logic_error`. -/
  | logicError
  /-- NULL was dereferenced. -/
  | crashed
  deriving DecidableEq

/-- A future, its promise and worker, and the call of `thrd_get` on it.  `live`: the future object was not freed.  `reg`: the local
variable `r` of `thrd_get`; `caller`: the scope of the thread that called it. -/
structure Fut where
  job : Job
  w : WPc
  p : Prom
  live : Bool
  g : GPc
  reg : Option Val
  caller : Nat

/-- What a result handle gives: a word, or a pointer to a copy of `size` bytes with contents `data`. -/
inductive Got
  | word (v : Nat)
  | copy (size data : Nat)
  deriving DecidableEq

/-- `struct result_data`, `raii.h`. -/
structure Slot where
  ready : Bool
  got : Option Got
  deriving DecidableEq

/-- Where `thrd_sync` is, `future.c:261-286`; the number is the loop variable. -/
inductive SPc
  | idle
  | wait (k : Nat)
  | read (k : Nat)
  | join (k : Nat)
  | free (k : Nat)
  | close (k : Nat)
  | clean
  | synced
  | threw (e : Exn)
  | crashed
  deriving DecidableEq

/-- `struct future_pool`: the futures spawned, the number of entries the arrays have room for, the results. -/
structure Pool where
  ids : List Nat
  room : Nat
  slots : List Slot
  s : SPc
  /-- An entry was written past the end of the arrays. -/
  oob : Bool

structure Sys where
  futs : Nat → Option Fut
  /-- `err` and `panic` of the scopes. -/
  err : Nat → Option Nat
  panic : Nat → Option Nat
  pool : Pool
  uaf : Bool
  /-- The scope was released: its array has lost the type `RAII_DEF_ARR` (`raii.c:23`), so that it is not released again. -/
  spent : Nat → Bool

inductive Act
  /-- `thrd_async`: future `i`. -/
  | async (i : Nat) (j : Job)
  /-- One step of the worker of `i`. -/
  | worker (i : Nat)
  /-- The thread of scope `s` calls `thrd_get` on `i`. -/
  | get (i s : Nat)
  /-- One step of that call. -/
  | getter (i : Nat)
  /-- The thread of scope `s` throws an exception of its own, outside a guarded section (`raii_unwind_set`, `raii.c:91-97`;
  `ex_unwind_stack`, `except.c:112-115`). -/
  | oops (s : Nat) (e : Exn)
  /-- `thrd_spawn`. -/
  | spawn (i : Nat) (j : Job)
  /-- The owner of the pool calls `thrd_sync`. -/
  | sync
  /-- One step of that call. -/
  | syncer

def Sys.setFut (y : Sys) (i : Nat) (f : Fut) : Sys := { y with futs := fun k => if k = i then some f else y.futs k }

def Sys.setErr (y : Sys) (s : Nat) (v : Option Nat) : Sys := { y with err := fun k => if k = s then v else y.err k }

def Sys.setPanic (y : Sys) (s : Nat) (v : Option Nat) : Sys := { y with panic := fun k => if k = s then v else y.panic k }

def Sys.touch (y : Sys) (freed : Bool) : Sys := { y with uaf := y.uaf || freed }

/-- `promise_create`, `future.c:13-21`; `future_create`, `future.c:55-61`; the thread is started. -/
def newFut (j : Job) : Fut :=
  { job := j, w := .clear, p := ⟨true, false, false, none, false⟩, live := true, g := .idle, reg := none, caller := j.scope }

/-- The deferrals of scope `s` run, among them the release of its promises (`calloc_default` at `future.c:14`); the first time only:
`raii_deferred_free`, `raii.c:436-443`, does nothing to a scope that was released before. -/
def Sys.cleanScope (y : Sys) (s : Nat) : Sys :=
  { y with
    futs := fun k => (y.futs k).map fun f => if f.job.scope = s ∧ y.spent s = false then { f with p := { f.p with freed := true } } else f
    spent := fun k => if k = s then true else y.spent k }

/-- `ex_throw` in the thread of scope `s`: `raii_unwind_set` at `raii.c:91-97`, then the deferrals. -/
def Sys.raise (y : Sys) (s : Nat) (e : Exn) : Sys := ((y.setErr s (some e.name)).setPanic s e.panic).cleanScope s

/-- `thrd_raii_wrapper`, `future.c:70-91`, with `promise_set`, `future.c:23-36`. -/
def workerStep (y : Sys) (i : Nat) (f : Fut) : Sys :=
  let s := f.job.scope
  match f.w with
  | .clear => ((y.touch f.p.freed).setErr s none).setFut i { f with w := .call }
  | .call => y.setFut i { f with w := match f.job.out with | .throws _ => .noteErr | _ => .test }
  | .noteErr =>
    match f.job.out with
    | .throws e => ((y.touch f.p.freed).setErr s (some e.name)).setFut i { f with w := .notePanic }
    | _ => y
  | .notePanic =>
    match f.job.out with
    | .throws e => ((y.touch f.p.freed).setPanic s e.panic).setFut i { f with w := .test }
    | _ => y
  | .test => y.setFut i { f with w := if f.job.arg = .null then .crashed else .lock }
  | .lock =>
    if f.p.mutex then y.touch f.p.freed
    else (y.touch f.p.freed).setFut i { f with w := .store, p := { f.p with mutex := true } }
  | .store =>
    (y.touch f.p.freed).setFut i { f with w := .unlock, p := { f.p with result := f.job.out.block.or f.p.result } }
  | .unlock => (y.touch f.p.freed).setFut i { f with w := .setDone, p := { f.p with mutex := false } }
  | .setDone => (y.touch f.p.freed).setFut i { f with w := .leave, p := { f.p with done := true } }
  | .leave => y.setFut i { f with w := .exited }
  | .exited | .crashed => y

/-- `promise_close`, `future.c:45-53`, up to the test of `scope->err`. -/
def Prom.close (p : Prom) : Prom := if p.isOpen then { p with isOpen := false, mutex := false, done := false } else p

/-- What `promise_close` throws, if anything. -/
def Sys.pending (y : Sys) (f : Fut) : Option Exn :=
  if f.p.isOpen then (y.err f.job.scope).map fun n => ⟨n, y.panic f.job.scope⟩ else none

/-- `thrd_get`, `future.c:111-123`, with `promise_get`, `future.c:38-43`, and `future_close`, `future.c:63-68`. -/
def getStep (y : Sys) (i : Nat) (f : Fut) : Sys :=
  match f.g with
  | .idle => y
  | .check =>
    (y.touch (!f.live || f.p.freed)).setFut i { f with g := if f.live && f.p.isOpen then .wait else .logicError }
  | .wait => if f.p.done then (y.touch f.p.freed).setFut i { f with g := .read } else y.touch f.p.freed
  | .read => (y.touch f.p.freed).setFut i { f with g := .join, reg := f.p.result }
  | .join => if f.w = .exited then y.setFut i { f with g := .free } else y
  | .free => y.setFut i { f with g := .close, live := false }
  | .close =>
    let y' := y.touch (!f.live || f.p.freed)
    match y.pending f with
    | some e => (y'.setFut i { f with g := .threw e, p := f.p.close }).raise f.caller e
    | none => y'.setFut i { f with g := .fin, p := f.p.close }
  | .fin =>
    match f.reg with
    | some b => y.setFut i { f with g := .returned b.value }
    | none => y.setFut i { f with g := .crashed }
  | .returned _ | .threw _ | .logicError | .crashed => y

/-- What `thrd_sync` puts into a result handle, `future.c:270-277`. -/
def Val.got (b : Val) : Got := if b.size > 0 then .copy b.size b.data else .word b.value

/-- `thrd_spawn`, `future.c:220-250`; `cpus` is `cpu_present`. -/
def spawnStep (cpus : Nat) (y : Sys) (i : Nat) (j : Job) : Sys :=
  let q := y.pool
  let n := q.ids.length
  let room := if n % cpus = 0 then n + cpus else q.room
  { y.setFut i (newFut j) with
    pool := { q with ids := q.ids ++ [i], room := room, slots := q.slots ++ [⟨false, none⟩], oob := q.oob || decide (room ≤ n) } }

def Sys.setS (y : Sys) (s : SPc) : Sys := { y with pool := { y.pool with s := s } }

/-- After the last access to entry `k`: the loop head of `future.c:267`. -/
def Pool.head (q : Pool) (k : Nat) : SPc := if k < q.ids.length then .wait k else .clean

/-- The future of entry `k`. -/
def Sys.entry (y : Sys) (k : Nat) : Option (Nat × Fut) :=
  match y.pool.ids[k]? with
  | some i => (y.futs i).map fun f => (i, f)
  | none => none

/-- `thrd_sync`, `future.c:261-286`; `own` is the scope of the calling thread. -/
def syncStep (own : Nat) (y : Sys) : Sys :=
  match y.pool.s with
  | .idle | .synced | .threw _ | .crashed => y
  | .wait k =>
    match y.entry k with
    | some (_, f) => if f.p.done then (y.touch (!f.live || f.p.freed)).setS (.read k) else y.touch (!f.live || f.p.freed)
    | none => y
  | .read k =>
    match y.entry k with
    | some (_, f) =>
      match f.p.result with
      | none => (y.touch f.p.freed).setS .crashed
      | some b =>
        { y.touch f.p.freed with pool := { y.pool with s := .join k, slots := y.pool.slots.set k ⟨true, some b.got⟩ } }
    | none => y
  | .join k =>
    match y.entry k with
    | some (_, f) => if f.w = .exited then y.setS (.free k) else y
    | none => y
  | .free k =>
    match y.entry k with
    | some (i, f) => (y.setFut i { f with live := false }).setS (.close k)
    | none => y
  | .close k =>
    match y.entry k with
    | some (i, f) =>
      let y' := (y.touch (!f.live || f.p.freed)).setFut i { f with p := f.p.close }
      match y.pending f with
      | some e => (y'.setS (.threw e)).raise own e
      | none => y'.setS (y.pool.head (k + 1))
    | none => y
  | .clean => (y.cleanScope own).setS .synced

/-- One step of the whole.  Calls that the interface does not allow (a second `thrd_get` on a future, `thrd_get` on a spawned one,
`thrd_spawn` after `thrd_sync`) do nothing. -/
def step (cpus own : Nat) (y : Sys) : Act → Sys
  | .async i j =>
    match y.futs i with
    | none => y.setFut i (newFut j)
    | some _ => y
  | .worker i =>
    match y.futs i with
    | none => y
    | some f => workerStep y i f
  | .get i s =>
    match y.futs i with
    | none => y
    | some f => if f.g = .idle ∧ i ∉ y.pool.ids then y.setFut i { f with g := .check, caller := s } else y
  | .getter i =>
    match y.futs i with
    | none => y
    | some f => getStep y i f
  | .oops s e => y.raise s e
  | .spawn i j =>
    match y.futs i with
    | none => if y.pool.s = .idle ∧ j.scope = own then spawnStep cpus y i j else y
    | some _ => y
  | .sync => if y.pool.s = .idle then y.setS (y.pool.head 0) else y
  | .syncer => syncStep own y

def run (cpus own : Nat) (y : Sys) (h : List Act) : Sys := h.foldl (step cpus own) y

/-- Nothing has been started; `thrd_scope`, `future.c:203-218`, has made an empty pool. -/
def init : Sys :=
  { futs := fun _ => none, err := fun _ => none, panic := fun _ => none, pool := ⟨[], 0, [], .idle, false⟩, uaf := false, spent := fun _ => false }

/-- `thrd_is_done`, `future.c:125-127`. -/
def isDone (y : Sys) (i : Nat) : Bool := (y.futs i).any fun f => f.p.done

/-- `thrd_result`, `future.c:144-149`, on the handle of entry `k`; `none`: it throws `logic_error`. -/
def resultOf (y : Sys) (k : Nat) : Option Got := (y.pool.slots[k]?).bind fun s => if s.ready then s.got else none

/-- `thrd_then`, `future.c:288-293`: the callback is called with an accumulator, the number of the entry and its value. -/
def thenFold {α : Type} (cb : α → Nat → Option Got → α) (acc : α) : Nat → List Slot → α
  | _, [] => acc
  | n, s :: r => thenFold cb (if s.ready then cb acc n s.got else acc) (n + 1) r

/-- `thrd_is_finish`, `future.c:307-315`. -/
def isFinish (y : Sys) : Bool := y.pool.ids.all fun i => isDone y i

end Verif.Fu
