/-!
# `catch_if` with `caught(E)`, and recovery functions of the thread's scope

`caught(E)` is `raii_caught("E")` (`include/raii.h:612`): it compares the name with what the thread's scope has noted, or,
if it has noted nothing, with the exception of the current context.  `raii_recover` registers a function with the
thread's scope, which is to call `raii_caught` "to mark Error condition handled" (`include/raii.h:370-372`).

POSIX build, native thread-local storage, one thread, no guard (`exception_setup_func` and `exception_unwind_func`
are NULL).  Contexts and jumps as in `Verif.Model.Except`.

Simplifications: a context is never reused; handlers have the shape
`if (caught(A)) … else if (caught(B)) … else …`; a block without `finally` is one with an empty `finally`; the only
memory is `calloc_default` memory whose first word stays zero, so that the loop of `ex_unwind_stack`
(`src/except.c:117-129`) stops at once (C57 is about the others), no pointer is protected; deferred functions do not
throw; arrays can always grow.
-/
namespace Verif.Ci

abbrev Name := List UInt8

/-- `src/raii.c:742-744` `is_str_eq`, by `C02_is_str_eq_exact`. -/
def eqName (s t : Name) : Bool := s.length == 8 || s.isPrefixOf t

/-- What is thrown: name and message (`src/except.c:379`). -/
structure Exn where
  name : Name
  panic : Option Name
  deriving DecidableEq, Repr

/-- `"panic"`, the name of `ex_err_panic`. -/
def panicName : Name := [112, 97, 110, 105, 99]

/-- The string that says what went wrong (`src/raii.c:485`, `508`). -/
def Exn.key (e : Exn) : Name := e.panic.getD e.name

/-- A deferred function: it does something observable, then may call `raii_caught(n)`. -/
structure D where
  id : Nat
  recovers : Option Name
  deriving DecidableEq, Repr

mutual
/-- User programs. -/
inductive Stmt
  | skip
  /-- Some observable user action. -/
  | mark (n : Nat)
  | seq (a b : Stmt)
  /-- `throw(E)`. -/
  | throw (n : Name)
  /-- `raii_panic(m)`. -/
  | panic (m : Name)
  /-- `raii_init()`. -/
  | init
  /-- Looks at `raii_message()`. -/
  | message
  /-- `raii_defer`, `raii_recover`. -/
  | recover (d : D)
  /-- `calloc_default`; the block's release is the deferred function `id`. -/
  | hold (id : Nat)
  /-- `try { body } catch_if { arms } finally { fin } end_try`. -/
  | tryIf (body : Stmt) (arms : Arms) (fin : Stmt)
/-- `if (caught(n)) s else rest`; the last `else` is `other`. -/
inductive Arms
  | other (s : Stmt)
  | arm (n : Name) (s : Stmt) (rest : Arms)
end

/-- What can be observed: a user action, a deferred function being called, the string seen in `raii_message()`. -/
inductive Ev
  | mark (n : Nat)
  | ran (id : Nat)
  | msg (m : Option Name)
  deriving DecidableEq, Repr

/-- `include/exception.h:379-416` `ex_context_t`, the fields used; `exn` is `ex` and `panic`, `none` while `ex` is 0. -/
structure Ctx where
  next : Nat
  state : Nat
  exn : Option Exn
  isRaii : Bool

/-- `include/raii.h:162-174` `memory_t`, the fields used; `err` is `err` and `panic`; `defers` newest first; `active`: the
array has the type `RAII_DEF_ARR`. -/
structure Scope where
  err : Option Exn
  defers : List D
  active : Bool
  isProt : Bool

/-- State of the thread.  `cur` is `ex_local()`, context 0 the thread's root; `scope` is `raii_local()`. -/
structure St where
  ctxs : Nat → Ctx
  cur : Nat
  fresh : Nat
  scope : Option Scope
  trace : List Ev

/-- Result of running code. -/
inductive Out
  | ok (st : St)
  /-- `longjmp` to context `j` with value `v`. -/
  | jump (j v : Nat) (st : St)
  /-- `ex_terminate` with this exception as the current one. -/
  | dead (e : Exn) (st : St)
  /-- NULL was dereferenced. -/
  | wild (st : St)
  /-- The block was re-entered more often than looked at. -/
  | running (st : St)

def Out.andThen (o : Out) (k : St → Out) : Out :=
  match o with
  | .ok st => k st
  | o => o

def Out.st : Out → St
  | .ok st | .jump _ _ st | .dead _ st | .wild st | .running st => st

def St.setCtx (st : St) (c : Nat) (x : Ctx) : St :=
  { st with ctxs := fun d => if d = c then x else st.ctxs d }

def St.log (st : St) (e : Ev) : St := { st with trace := st.trace ++ [e] }

/-- `src/raii.c:103-129` `raii_init`: on the first call the current context becomes the one that knows the thread's
scope. -/
def raiiInit (st : St) : St :=
  match st.scope with
  | some _ => st
  | none => { st.setCtx st.cur { st.ctxs st.cur with isRaii := true } with scope := some ⟨none, [], true, false⟩ }

/-- `ex_local()->state = ex_catch_st`, `src/raii.c:488`, `493`. -/
def markCaught (st : St) : St := st.setCtx st.cur { st.ctxs st.cur with state := 2 }

/-- `src/raii.c:483-496` `raii_caught`, when the thread has the scope `sc`.  `is_str_eq` with NULL is false. -/
def caughtBy (sc : Scope) (n : Name) (st : St) : Bool :=
  match sc.err with
  | none => match (st.ctxs st.cur).exn with
    | none => false
    | some e => eqName n e.name
  | some e => eqName n e.key

/-- `src/raii.c:483-496` `raii_caught`; `none`: the thread has no scope, `scope->panic` dereferences NULL. -/
def caught (n : Name) (st : St) : Option (Bool × St) :=
  match st.scope with
  | none => none
  | some sc => if caughtBy sc n st then some (true, markCaught st) else some (false, st)

/-- A deferred function being called. -/
def perform (d : D) (st : St) : St :=
  let st := st.log (.ran d.id)
  match d.recovers with
  | none => st
  | some n => match caught n st with
    | some (_, st) => st
    | none => st

/-- The loop of `raii_deferred_run`, `src/raii.c:403-412`. -/
def runList : List D → St → St
  | [], st => st
  | d :: ds, st => runList ds (perform d st)

/-- `src/raii.c:436-443` `raii_deferred_free(raii_local())`, `395-427` `raii_deferred_run`; also `raii_destroy`
(`310-312`), which does nothing if the thread has no scope. -/
def deferredFree (st : St) : St :=
  match st.scope with
  | none => st
  | some sc =>
    if sc.active then
      { runList sc.defers st with
        scope := some { sc with defers := [], active := false, isProt := sc.isProt && !sc.err.isSome } }
    else st

/-- `src/raii.c:91-97` `raii_unwind_set`, called by `src/except.c:397-398` if the context knows the thread's scope. -/
def unwindSet (e : Exn) (st : St) : St :=
  if (st.ctxs st.cur).isRaii then
    let st := raiiInit st
    { st with scope := st.scope.map ({ · with err := some e }) }
  else st

/-- The flag `is_unwind` left by `raii_unwind_set`: `scope->is_protected`. -/
def isUnwind (st : St) : Bool :=
  (st.ctxs st.cur).isRaii && (st.scope.any (·.isProt))

/-- `src/except.c:106-133` `ex_unwind_stack`. -/
def unwindStack (st : St) : St := if isUnwind st then deferredFree st else st

/-- `src/except.c:379-415` `ex_throw`.  In the root context `ex_terminate` (`354-377`) releases the thread's scope, or
`exit` does (`src/raii.c:125`). -/
def throwE (e : Exn) (st : St) : Out :=
  let st := unwindStack (unwindSet e (st.setCtx st.cur { st.ctxs st.cur with exn := some e }))
  if st.cur = 0 then .dead e (deferredFree st)
  else .jump st.cur ((st.ctxs st.cur).state ||| 1) st

/-- `include/exception.h:297-312` `ex_try` up to the body; `junk` is what is in the uninitialised `is_raii`. -/
def enterTry (junk : Nat → Bool) (st : St) : St :=
  let id := st.fresh
  { st.setCtx id ⟨st.cur, 0, none, junk id⟩ with cur := id, fresh := id + 1 }

/-- `include/exception.h:341-349` `ex_end_try`. -/
def endTry (id : Nat) (st : St) : Out :=
  let st := if st.cur = id then { st with cur := (st.ctxs id).next } else st
  if (st.ctxs id).state &&& 1 ≠ 0 then throwE ((st.ctxs id).exn.getD ⟨[], none⟩) st else .ok st

/-- Handlers, `finally` and `end_try`, run with `setjmp` having returned `v`; a `longjmp` to the block's own context
runs them again. -/
def region (id : Nat) (rest : St → Out) : Nat → Nat → St → Out
  | 0, _, st => .running st
  | n + 1, v, st =>
    match rest (st.setCtx id { st.ctxs id with state := v }) with
    | .jump j v' st' => if j = id then region id rest n v' st' else .jump j v' st'
    | o => o

/-- The whole block, given how to run its body and the rest. -/
def tryBlock (junk : Nat → Bool) (passes : Nat) (body : St → Out) (rest : Nat → St → Out) (st : St) : Out :=
  let id := st.fresh
  match body (enterTry junk st) with
  | .ok st' => region id (rest id) passes 0 st'
  | .jump j v st' => if j = id then region id (rest id) passes v st' else .jump j v st'
  | o => o

/-- `ex_finally` and `ex_end_try`, `include/exception.h:332-349`. -/
def post (fin : St → Out) (id : Nat) (st : St) : Out :=
  (fin { st with cur := (st.ctxs id).next }).andThen (endTry id)

mutual
/-- Run a statement. -/
def exec (junk : Nat → Bool) (passes : Nat) : Stmt → St → Out
  | .skip, st => .ok st
  | .mark n, st => .ok (st.log (.mark n))
  | .seq a b, st => (exec junk passes a st).andThen (exec junk passes b)
  | .throw n, st => throwE ⟨n, none⟩ st
  -- `include/exception.h:195-199`: the name is that of `ex_err_panic`
  | .panic m, st => throwE ⟨panicName, some m⟩ st
  | .init, st => .ok (raiiInit st)
  -- `src/raii.c:506-510` `raii_message`
  | .message, st => match st.scope with
    | none => .wild st
    | some sc => .ok (st.log (.msg (match sc.err with
        | none => (st.ctxs st.cur).exn.map (·.name)
        | some e => some e.key)))
  -- `src/raii.c:471-477` `raii_defer`, `raii_recover`
  | .recover d, st => match st.scope with
    | none => .wild st
    | some sc => .ok { st with scope := some { sc with defers := d :: sc.defers } }
  -- `src/raii.c:261-263` `calloc_default`
  | .hold id, st =>
    let st := raiiInit st
    .ok { st with scope := st.scope.map fun sc => { sc with defers := ⟨id, none⟩ :: sc.defers, isProt := true } }
  -- `include/exception.h:324-330` `ex_catch_if`
  | .tryIf body arms fin, st =>
    tryBlock junk passes (exec junk passes body)
      (fun id st => (if (st.ctxs id).state = 1 then execA junk passes arms st else .ok st).andThen
        (post (exec junk passes fin) id)) st
/-- The handler. -/
def execA (junk : Nat → Bool) (passes : Nat) : Arms → St → Out
  | .other s, st => exec junk passes s st
  | .arm n s rest, st => match caught n st with
    | none => .wild st
    | some (true, st) => exec junk passes s st
    | some (false, st) => execA junk passes rest st
end

/-- A thread that has done nothing yet. -/
def start : St := ⟨fun _ => ⟨0, 0, none, false⟩, 0, 1, none, []⟩

/-- A whole program: at its end the thread's scope is released (`src/raii.c:125`). -/
def run (junk : Nat → Bool) (passes : Nat) (s : Stmt) : Out :=
  match exec junk passes s start with
  | .ok st => .ok (deferredFree st)
  | o => o

end Verif.Ci
