/-!
# The spinlock and the promise on machines that reorder

`c89atomic_spinlock_lock` and `_unlock` (`include/catomic.h:2561-2577`), `promise_set` and `promise_get` (`src/future.c:23-43`), `thrd_is_done` and `thrd_wait`
(`src/future.c:125-132`) with the memory orders they ask for.

The machine is the usual operational one of C11 with views: every atomic object has a history of messages, each of which takes an interval of time; the later
one is the later one in the modification order of the object. Every thread has a view, which says what it knows of: for each atomic object a point of time
before which it may not read, and for each thread how many of its accesses to ordinary memory happened before. A load picks any message not before the view; an
acquire load takes over the view of the message. A store takes any interval that is free and ends after the view; a release store leaves the view of the
thread with its message. A read-modify-write takes an interval that begins where the message it read ends, and hands the view of that message on. Ordinary memory
is plain: two accesses by different threads, one of them a write, neither of which happened before the other, are a race, which is undefined
behaviour (`raced`).

What is left out: `memory_order_seq_cst` is taken as acquire and release, which allows more than C11 does; reading from a store
that a thread has not made yet (load buffering) is not possible. Times are numbers without gaps between them, but any finite history has room enough when
its messages are made long enough.
-/
namespace Verif.Wm

/-- The atomic objects: locks of the user, `mutex` and `done` of a promise (`include/raii.h:194-203`). -/
inductive ALoc
  | user (l : Nat)
  | mutex (f : Nat)
  | done (f : Nat)
  deriving DecidableEq

/-- Ordinary memory: data of the user, `result` of a promise. -/
inductive DLoc
  | data (x : Nat)
  | result (f : Nat)
  deriving DecidableEq

structure View where
  /-- Where the thread is in the history of an atomic object. -/
  ts : ALoc → Nat
  /-- How many accesses of a thread happened before. -/
  vc : Nat → Nat

def View.join (v w : View) : View := ⟨fun l => max (v.ts l) (w.ts l), fun t => max (v.vc t) (w.vc t)⟩

def View.reach (v : View) (l : ALoc) (n : Nat) : View := { v with ts := fun k => if k = l then max (v.ts l) n else v.ts k }

def View.zero : View := ⟨fun _ => 0, fun _ => 0⟩

/-- A message takes the time from `lo` to `hi`. -/
structure Msg where
  lo : Nat
  hi : Nat
  val : Nat
  view : View

/-- Access number `idx` of thread `tid` to ordinary memory. -/
structure Ev where
  tid : Nat
  idx : Nat
  wr : Bool

inductive Instr
  /-- `test_and_set`, acquire, and what comes after it: `catomic.h:2563-2571`. -/
  | lock (l : ALoc)
  /-- The waiting loop of `catomic.h:2568`. -/
  | spin (l : ALoc)
  /-- `catomic.h:2576`. -/
  | unlock (l : ALoc)
  | write (d : DLoc) (v : Nat)
  | read (d : DLoc)
  /-- `future.c:35`. -/
  | setDone (f : Nat)
  /-- The loop of `future.c:39-40`. -/
  | await (f : Nat)
  /-- `thrd_is_done` until it says so: `future.c:126`, `future.c:130`. -/
  | poll (f : Nat)

/-- What a thread may call. -/
inductive Call
  | lock (l : Nat)
  | unlock (l : Nat)
  | write (x v : Nat)
  | read (x : Nat)
  /-- `promise_set`, with the value of the function. -/
  | set (f v : Nat)
  /-- `promise_get`, as `thrd_get` calls it. -/
  | get (f : Nat)
  /-- `thrd_wait`. -/
  | wait (f : Nat)

/-- The calls as what they do to memory: `catomic.h:2646-2647`, `future.c:23-36`, `future.c:38-43`, `future.c:129-132`. -/
def Call.code : Call → List Instr
  | .lock l => [.lock (.user l)]
  | .unlock l => [.unlock (.user l)]
  | .write x v => [.write (.data x) v]
  | .read x => [.read (.data x)]
  | .set f v => [.lock (.mutex f), .write (.result f) v, .unlock (.mutex f), .setDone f]
  | .get f => [.await f, .read (.result f)]
  | .wait f => [.poll f]

/-- `held`: the locks whose `atomic_lock` has returned. `set`: the value `promise_set` was called with. `got`: what calls of `promise_get` returned. `saw`: the futures
`thrd_wait` has returned for. -/
structure Sys where
  msgs : ALoc → List Msg
  evs : DLoc → List Ev
  val : DLoc → Nat
  view : Nat → View
  todo : Nat → List Instr
  held : Nat → List ALoc
  set : Nat → Option Nat
  got : Nat → List (Nat × Nat)
  saw : Nat → List Nat
  raced : Bool

def fn {α β : Type} [DecidableEq α] (f : α → β) (a : α) (b : β) : α → β := fun x => if x = a then b else f x

/-- All flags are clear (`future.c:16-17`), nothing has been done. -/
def init : Sys :=
  { msgs := fun _ => [⟨0, 1, 0, .zero⟩], evs := fun _ => [], val := fun _ => 0, view := fun _ => .zero, todo := fun _ => [], held := fun _ => [], set := fun _ => none, got := fun _ => [],
    saw := fun _ => [], raced := false }

/-- The time from `a` to `b` is not taken. -/
def free (ms : List Msg) (a b : Nat) : Bool := a < b && ms.all fun m => m.hi ≤ a || b ≤ m.lo

/-- The message a load of `l` by `t` reads, when it may. -/
def Sys.pick (s : Sys) (t : Nat) (l : ALoc) (i : Nat) : Option Msg :=
  match (s.msgs l)[i]? with
  | none => none
  | some m => if (s.view t).ts l ≤ m.hi then some m else none

/-- A load of message `m`. -/
def Sys.load (s : Sys) (acq : Bool) (t : Nat) (l : ALoc) (m : Msg) : Sys :=
  { s with view := fn s.view t ((if acq then (s.view t).join m.view else s.view t).reach l m.hi) }

/-- A read-modify-write of message `m` that stores `v` until `b`. -/
def Sys.rmw (s : Sys) (acq rel : Bool) (t : Nat) (l : ALoc) (m : Msg) (v b : Nat) : Option Sys :=
  if free (s.msgs l) m.hi b then
    let w := (if acq then (s.view t).join m.view else s.view t).reach l b
    some { s with view := fn s.view t w, msgs := fn s.msgs l (⟨m.hi, b, v, if rel then w.join m.view else m.view⟩ :: s.msgs l) }
  else none

/-- A store of `v` from `a` to `b`. -/
def Sys.store (s : Sys) (rel : Bool) (t : Nat) (l : ALoc) (v a b : Nat) : Option Sys :=
  if free (s.msgs l) a b && (s.view t).ts l < b then
    let w := (s.view t).reach l b
    some { s with view := fn s.view t w, msgs := fn s.msgs l (⟨a, b, v, if rel then w else .zero⟩ :: s.msgs l) }
  else none

/-- An access to ordinary memory. -/
def Sys.access (s : Sys) (t : Nat) (d : DLoc) (wr : Bool) : Sys :=
  let v := s.view t
  let n := v.vc t + 1
  { s with
    raced := s.raced || (s.evs d).any fun e => (wr || e.wr) && decide (v.vc e.tid < e.idx)
    evs := fn s.evs d (⟨t, n, wr⟩ :: s.evs d)
    view := fn s.view t { v with vc := fn v.vc t n } }

/-- The next access of a thread; `i` is the message it reads, `a` and `b` are the time a store takes. `none`: not possible. -/
def exec (s : Sys) (t i a b : Nat) : Option Sys :=
  match s.todo t with
  | [] => none
  | .lock l :: k => do
    let m ← s.pick t l i
    let s ← s.rmw true false t l m 1 b
    if m.val = 0 then some { s with todo := fn s.todo t k, held := fn s.held t (l :: s.held t) }
    else some { s with todo := fn s.todo t (.spin l :: .lock l :: k) }
  | .spin l :: k => do
    let m ← s.pick t l i
    let s := s.load false t l m
    if m.val = 1 then some s else some { s with todo := fn s.todo t k }
  | .unlock l :: k => do
    let s ← s.store true t l 0 a b
    some { s with todo := fn s.todo t k, held := fn s.held t ((s.held t).filter (· ≠ l)) }
  | .write d v :: k =>
    let s := s.access t d true
    some { s with val := fn s.val d v, todo := fn s.todo t k }
  | .read d :: k =>
    let s := s.access t d false
    let s := { s with todo := fn s.todo t k }
    match d with
    | .data _ => some s
    | .result f => some { s with got := fn s.got t ((f, s.val d) :: s.got t) }
  | .setDone f :: k => do
    let m ← s.pick t (.done f) i
    let s ← s.rmw true true t (.done f) m 1 b
    some { s with todo := fn s.todo t k }
  | .await f :: k => do
    let m ← s.pick t (.done f) i
    let s := s.load true t (.done f) m
    if m.val = 0 then some s else some { s with todo := fn s.todo t k }
  | .poll f :: k => do
    let m ← s.pick t (.done f) i
    let s := s.load false t (.done f) m
    if m.val = 0 then some s else some { s with todo := fn s.todo t k, saw := fn s.saw t (f :: s.saw t) }

inductive Act
  /-- A thread that is in no call makes one. -/
  | call (t : Nat) (c : Call)
  | run (t i a b : Nat)

def step (s : Sys) : Act → Option Sys
  | .call t c =>
    match s.todo t with
    | [] => some { s with todo := fn s.todo t c.code, set := match c with | .set f v => fn s.set f (some v) | _ => s.set }
    | _ => none
  | .run t i a b => exec s t i a b

end Verif.Wm
