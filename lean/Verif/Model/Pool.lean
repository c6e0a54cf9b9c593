/-!
# Thread pools: `thrd_pool` and what may be called on its result (`src/future.c`)

Threads interleave: the caller of `thrd_pool`, which starts the threads one by one and then goes on to
use the pool, and the threads themselves.  `thrd_add` and `thrd_for` (`include/raii.h:290`, `292`) are
declared but defined nowhere, so no work can be given to a pool and they are not modelled.

Simplified: allocation and `thrd_create` succeed; once something undefined has happened nothing more is
said (the state stays as it is).
-/
namespace Verif.Tp

/-- What `thrd_pool` allocates. -/
inductive Block
  /-- `unique_init()`, `src/future.c:179`. -/
  | scope
  /-- The pool itself, `src/future.c:180`; deferred to the scope above. -/
  | pool
  /-- A `future`, `src/future.c:187`. -/
  | future (i : Nat)
  /-- A `future_arg`, `src/future.c:188`. -/
  | arg (i : Nat)
  deriving DecidableEq, Repr

/-- `future_arg` as a thread gets it: `try_calloc` leaves `func`, `arg`, `value` NULL, `src/future.c:188-190`. -/
structure FArg where
  value : Option Nat

/-- The system.  `count` is what `thrd_pool` was called with, `made` the number of threads started;
`returned`: `thrd_pool` is over.  `values` is the member `value` of each `future`: `none`, as
`future_create` (`src/future.c:55-61`) takes the block from `malloc` and does not set it. -/
structure St where
  count : Nat
  made : Nat
  returned : Bool
  args : Nat → FArg
  values : Nat → Option Nat
  blocks : List Block
  /-- The threads that have taken a step. -/
  ran : List Nat
  undef : Bool

/-- What may happen next. -/
inductive Act
  /-- The caller's next step in `thrd_pool`. -/
  | maker
  /-- Thread `i` takes its next step. -/
  | worker (i : Nat)
  /-- The caller calls `thrd_is_finish`, `thrd_sync`, `thrd_destroy` on the pool. -/
  | isFinish
  | sync
  | destroy
  deriving DecidableEq, Repr

/-- What a call tells its caller. -/
inductive Ans
  | none
  | bool (b : Bool)
  | logicError
  deriving DecidableEq, Repr

/-- `src/future.c:178-184`: before the first thread. -/
def start (count : Nat) : St :=
  { count := count, made := 0, returned := false, args := fun _ => ⟨none⟩, values := fun _ => none,
    blocks := [.pool, .scope], ran := [], undef := false }

/-- One pass of the loop of `src/future.c:186-196`, or the end of `thrd_pool`, `src/future.c:198-201`. -/
def makerStep (s : St) : St :=
  if s.returned then s
  else if s.made < s.count then
    { s with made := s.made + 1, blocks := .arg s.made :: .future s.made :: s.blocks }
  else { s with returned := true }

/-- `thrd_raii_wrapper`, `src/future.c:70-74`: the first thing a thread does is
`f->value->scope->err = nullptr`. -/
def workerStep (i : Nat) (s : St) : St :=
  if i < s.made then
    match (s.args i).value with
    | none => { s with ran := i :: s.ran, undef := true }
    | some _ => { s with ran := i :: s.ran }
  else s

/-- The loop of `thrd_is_finish`, `src/future.c:307-315`, over the futures left; `thrd_is_done`
(`src/future.c:125-127`) follows the pointer `value`.  `none`: an indeterminate pointer was followed.
(A set `value` would be a promise nobody has kept.) -/
def finished (s : St) : Nat → Option Bool
  | 0 => some true
  | n + 1 =>
    match s.values (s.count - (n + 1)) with
    | none => none
    | some _ => some false

/-- One step, and what the caller learns.  The type of a pool is `RAII_POOL` (`src/future.c:199`), so
`thrd_sync` throws at `src/future.c:262-263` and `thrd_destroy` finds nothing to do at `src/future.c:296`. -/
def step (s : St) : Act → St × Ans
  | .maker => (if s.undef then s else makerStep s, .none)
  | .worker i => (if s.undef then s else workerStep i s, .none)
  | .isFinish =>
    if s.undef || !s.returned then (s, .none)
    else match finished s s.count with
      | none => ({ s with undef := true }, .none)
      | some b => (s, .bool b)
  | .sync => if s.undef || !s.returned then (s, .none) else (s, .logicError)
  | .destroy => (s, .none)

/-- A history. -/
def run (s : St) : List Act → St
  | [] => s
  | a :: h => run (step s a).1 h

end Verif.Tp
