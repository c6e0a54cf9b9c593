/-!
# Threads that start threads, and the memory they leave to each other

`thrd_async` and `thrd_raii_wrapper` (`src/future.c:23-106`) with the two things of its creator a worker uses: the promise, a block of the creator's scope, and that scope itself,
an object in the creator's thread-local storage, which ends with the creator.  All threads, step by step.

A function here returns something: for a null result `src/future.c:25` does not come to the scope.

Left out: the race on the scope's deferral array when two threads use it at a time (C56); values (C38) and exceptions (C39) of the functions; the second use of a
future after `thrd_get` freed it (C41); the worker's argument, which the worker itself frees; memory the functions take themselves.  `thrd_spawn` makes its promise in the same way.
-/
namespace Verif.Kn

/-- Where a thread is. -/
inductive Pc
  /-- Not started. -/
  | none
  /-- Made by `thrd_create`, before `src/future.c:75`. -/
  | begin
  /-- In its function (the main thread: in `main`). -/
  | body
  /-- `promise_set`, `src/future.c:24`. -/
  | lock
  /-- `src/future.c:25-32`. -/
  | store
  /-- `src/future.c:34`. -/
  | unlock
  /-- `src/future.c:35`. -/
  | done
  /-- `raii_destroy`, `src/future.c:88`; the main thread: `exit` (`src/raii.c:125`). -/
  | destroy
  /-- `thrd_exit`, `src/future.c:90`. -/
  | exit
  | over
  deriving DecidableEq, Repr

/-- Thread 0 is the main thread. -/
structure Sys where
  pc : Nat → Pc
  parent : Nat → Nat
  next : Nat
  /-- The promise of thread `c` is allocated. -/
  prom : Nat → Bool
  /-- `done` of the promise of thread `c`. -/
  flag : Nat → Bool
  /-- The promises the scope of a thread holds. -/
  kids : Nat → List Nat
  /-- The scope's deferral array is one: no release so far. -/
  armed : Nat → Bool
  /-- The thread's storage has ended. -/
  gone : Nat → Bool
  /-- Memory given back was used, or given back again. -/
  bad : Bool

def fn {β : Type} (f : Nat → β) (a : Nat) (b : β) : Nat → β := fun x => if x = a then b else f x

def init : Sys :=
  { pc := fun t => if t = 0 then .body else .none, parent := fun _ => 0, next := 1, prom := fun _ => false, flag := fun _ => false, kids := fun _ => [], armed := fun _ => true,
    gone := fun _ => false, bad := false }

/-- The promise of `c` is used. -/
def Sys.useProm (s : Sys) (c : Nat) : Sys := { s with bad := s.bad || !s.prom c }

/-- The promise of `c` and, through it, the scope of its creator are used. -/
def Sys.useScope (s : Sys) (c : Nat) : Sys := { s with bad := s.bad || !s.prom c || s.gone (s.parent c) }

/-- `src/raii.c:436-443` `raii_deferred_free`, the promises in it. -/
def Sys.clean (s : Sys) (t : Nat) : Sys :=
  if s.armed t then
    { s with bad := s.bad || (s.kids t).any fun c => !s.prom c, prom := fun c => if c ∈ s.kids t then false else s.prom c, kids := fn s.kids t [], armed := fn s.armed t false }
  else s

inductive Act
  /-- `thrd_async` by `t`; the new thread is the next one. -/
  | async (t : Nat)
  /-- `t` looks whether the function of `c` is over: one round of `thrd_get`'s loop (`src/future.c:39-40`) or `thrd_is_done`. -/
  | poll (t c : Nat)
  /-- `t` releases its scope: `raii_deferred_clean()`, `thrd_sync` of a spawn scope, or a throw that unwinds it. -/
  | release (t : Nat)
  /-- `t` comes to the next step; in `body`: its function (or `main`) returns, or (`thrown`) ends with an exception. -/
  | step (t : Nat) (thrown : Bool)

/-- `none`: not possible. -/
def act (s : Sys) : Act → Option Sys
  -- `src/future.c:13-21`, `101-107`
  | .async t =>
    if s.pc t = .body then
      some { s with pc := fn s.pc s.next .begin, parent := fn s.parent s.next t, next := s.next + 1, prom := fn s.prom s.next true, kids := fn s.kids t (s.next :: s.kids t) }
    else none
  | .poll t c => if s.pc t = .body ∧ c < s.next ∧ 0 < c ∧ s.parent c = t then some (s.useProm c) else none
  | .release t => if s.pc t = .body then some (s.clean t) else none
  | .step t thrown =>
    match s.pc t with
    | .none | .over => none
    -- `src/future.c:75`
    | .begin => some { s.useScope t with pc := fn s.pc t .body }
    -- `src/future.c:80`, `include/raii.h:577-592`; the main thread calls `exit`
    | .body =>
      if t = 0 then some { s with pc := fn s.pc t .destroy }
      else if thrown then some { s.useScope t with pc := fn s.pc t .lock }
      else some { s with pc := fn s.pc t .lock }
    | .lock => some { s.useProm t with pc := fn s.pc t .store }
    | .store => some { s.useScope t with pc := fn s.pc t .unlock }
    | .unlock => some { s.useProm t with pc := fn s.pc t .done }
    | .done => some { s.useProm t with pc := fn s.pc t .destroy, flag := fn s.flag t true }
    | .destroy => some { s.clean t with pc := fn s.pc t .exit }
    | .exit => some { s with pc := fn s.pc t .over, gone := fn s.gone t true }

/-- All acts one after the other; the process ends with its main thread. -/
def acts : List Act → Sys → Option Sys
  | [], s => some s
  | a :: as, s => if s.pc 0 = .over then none else (act s a).bind (acts as)

end Verif.Kn
