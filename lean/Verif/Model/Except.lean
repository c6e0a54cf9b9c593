/-!
# Exceptions: `try` / `catch` / `finally` / `throw` / `rethrow`, protected pointers

POSIX build (`include/exception.h:282-360`), one thread.  A `try` block is
the text of the macros; `setjmp`/`longjmp` is modelled by an outcome `jump` naming the context jumped
to and the value `setjmp` returns, which only the block owning that context consumes, by running its
text again from the `setjmp` on.

User code is a straight-line program: loops and conditionals are user code that, in any one
execution, amounts to the sequence of statements it performs.

Simplifications: a context whose block was left is never re-used for another block (using it is
undefined behaviour in C); signals are modelled in `Verif.Model.Signal`; `ex_terminate` is the outcome
`dead` (its output and `atexit` work are not modelled); no guard is active, so
`exception_setup_func` and `exception_unwind_func` are NULL (`Verif.Model.Guard` has them).
-/
namespace Verif.Ex

/-- What `ex_throw` is given (`src/except.c:379`): name (0 is NULL), file, line, function, message. -/
structure Exn where
  name : Nat
  file : Nat
  line : Nat
  function : Nat
  message : Option Nat
  deriving DecidableEq, Repr

/-- `catch(E)` or `catch_any`. -/
inductive Pat
  | name (e : Nat)
  | any
  deriving DecidableEq, Repr

mutual
/-- User programs. -/
inductive Stmt
  /-- Nothing. -/
  | skip
  /-- Some observable user action. -/
  | mark (n : Nat)
  | seq (a b : Stmt)
  /-- `throw(E)`, `raii_panic(message)`. -/
  | throw (e : Exn)
  /-- `rethrow()`. -/
  | rethrow
  /-- `return` (also `break` or `goto` out of the block). -/
  | ret
  /-- Call of a function with this body. -/
  | call (s : Stmt)
  /-- Assignment to a pointer variable. -/
  | assign (v x : Nat)
  /-- `protected(v, f)`; `p` names the local `ex_ptr_t`. -/
  | protect (p v f : Nat)
  /-- `unprotected(v)`. -/
  | unprotect (p : Nat)
  /-- `try { body } handlers end_try`. -/
  | tryCatch (body : Stmt) (hs : Handlers)
  /-- `try { body } handlers finally { fin } end_try`. -/
  | tryFinally (body : Stmt) (hs : Handlers) (fin : Stmt)
/-- The handlers of a block, in order. -/
inductive Handlers
  | nil
  | cons (p : Pat) (s : Stmt) (rest : Handlers)
end

/-- What can be observed. -/
inductive Ev
  | mark (n : Nat)
  /-- Release function `f` called with `x` by unwinding. -/
  | released (f x : Nat)
  /-- `raii_deferred_clean()` called by unwinding. -/
  | cleaned
  deriving DecidableEq, Repr

/-- `include/exception.h:388-428` `ex_context_t`, the fields used. -/
structure Ctx where
  next : Nat
  stack : List Nat
  exn : Exn
  unstack : Bool
  state : Nat
  isRaii : Bool
  isUnwind : Bool

/-- `include/exception.h:430-437` `ex_ptr_t`; `next` is the chain it was linked in front of. -/
structure Node where
  linked : Bool
  func : Nat
  var : Nat
  next : List Nat

/-- State of the thread.  `cur` is `ex_local()`, context 0 the thread's root context. -/
structure St where
  ctxs : Nat → Ctx
  cur : Nat
  fresh : Nat
  nodes : Nat → Node
  vars : Nat → Nat
  trace : List Ev

/-- What is outside the modelled code: the contents of the uninitialised fields of the `n`-th local
context, whether the thread's scope holds memory (`raii_local()->is_protected`), which release
functions throw, and whether thread-local storage is emulated (`emulate_tls`, `include/cthread.h:10-45`). -/
structure World where
  junk : Nat → Ctx
  scopeProtected : Bool
  relThrows : Nat → Nat → Bool
  emulated : Bool

/-- Result of running code. -/
inductive Out
  /-- Fell off the end. -/
  | ok (st : St)
  /-- `return`. -/
  | ret (st : St)
  /-- `longjmp` to context `j` with value `v`. -/
  | jump (j v : Nat) (st : St)
  /-- `ex_terminate` with this exception as the current one. -/
  | dead (e : Exn) (st : St)
  /-- The block was re-entered more often than looked at. -/
  | running (st : St)

def Out.andThen (o : Out) (k : St → Out) : Out :=
  match o with
  | .ok st => k st
  | o => o

/-- The state reached. -/
def Out.st : Out → St
  | .ok st | .ret st | .jump _ _ st | .dead _ st | .running st => st

/-- States, `include/exception.h:148-154`. -/
def tryState : Nat := 0
def throwState : Nat := 1
def catchState : Nat := 2

def St.setCtx (st : St) (c : Nat) (x : Ctx) : St :=
  { st with ctxs := fun d => if d = c then x else st.ctxs d }

def St.log (st : St) (e : Ev) : St := { st with trace := st.trace ++ [e] }

/-- The loop of `src/except.c:116-128` (`ex_unwind_stack`) over the chain of protected pointers.
`temp` is the previous pointer's value.  `none`: a release function threw. -/
def unwindLoop (w : World) : List Nat → Nat → St → Option St × St
  | [], _, st => (some st, st)
  | p :: ps, temp, st =>
    let n := st.nodes p
    if ¬ n.linked then (some st, st)
    else if temp = st.vars n.var then (some st, st)
    else
      let x := st.vars n.var
      if x ≠ 0 then
        let st := { st with nodes := fun q => if q = p then { n with linked := false } else st.nodes q }
        let st := st.log (.released n.func x)
        if w.relThrows n.func x then (none, st) else unwindLoop w ps (st.vars n.var) st
      else unwindLoop w ps (st.vars n.var) st

/-- `src/except.c:106-133` `ex_unwind_stack` (with `exception_unwind_func` NULL).  The scope stored by
`raii_unwind_set` is `raii_local()`, so `ctx->data == raii_local()`. -/
def unwindStack (w : World) (c : Nat) (st : St) : Option St × St :=
  let x := st.ctxs c
  let st := st.setCtx c { x with unstack := true }
  let r := if x.isUnwind && x.isRaii then (some (st.log .cleaned), st.log .cleaned)
           else unwindLoop w x.stack 0 st
  match r with
  | (none, st) => (none, st)
  | (some st, _) =>
    let st := st.setCtx c { st.ctxs c with unstack := false, stack := [] }
    (some st, st)

/-- `src/except.c:379-415` `ex_throw`, with `src/raii.c:91-97` `raii_unwind_set` for contexts whose
`is_raii` is set.  A throw from a release function finds `unstack` set and terminates; the exception
printed is the one being unwound.  Where thread-local storage is emulated, `src/except.c:405` compares the
context not with the thread's root but with `ex_local()`, the current one, which it is. -/
def throwE (w : World) (e : Exn) (st : St) : Out :=
  let c := st.cur
  let x := st.ctxs c
  if x.unstack then .dead x.exn st
  else
    let x := { x with exn := e, isUnwind := false }
    let x := if x.isRaii then { x with isUnwind := w.scopeProtected } else x
    match unwindStack w c (st.setCtx c x) with
    | (none, st) => .dead e st
    | (some st, _) =>
      if c = 0 ∨ w.emulated = true then .dead e st
      else .jump c ((st.ctxs c).state ||| throwState) st

/-- `include/exception.h:297-312` `ex_try` up to the body. -/
def enterTry (w : World) (st : St) : St :=
  let id := st.fresh
  let x := { w.junk id with next := st.cur, stack := [], exn := { (w.junk id).exn with name := 0 },
                            unstack := false, state := tryState }
  { (st.setCtx id x) with cur := id, fresh := id + 1 }

/-- `include/exception.h:341-349` `ex_end_try`. -/
def endTry (w : World) (id : Nat) (st : St) : Out :=
  let st := if st.cur = id then { st with cur := (st.ctxs id).next } else st
  if (st.ctxs id).state &&& throwState ≠ 0 then throwE w (st.ctxs id).exn st else .ok st

/-- Handlers, `finally` and `end_try`, run with `setjmp` having returned `v`; a `longjmp` to the
block's own context runs them again. -/
def region (id : Nat) (rest : St → Out) : Nat → Nat → St → Out
  | 0, _, st => .running st
  | n + 1, v, st =>
    match rest (st.setCtx id { st.ctxs id with state := v }) with
    | .jump j v' st' => if j = id then region id rest n v' st' else .jump j v' st'
    | o => o

/-- The whole block, given how to run its body and the rest. -/
def tryBlock (w : World) (passes : Nat) (body rest : Nat → St → Out) (st : St) : Out :=
  let id := st.fresh
  match body id (enterTry w st) with
  | .ok st' => region id (rest id) passes tryState st'
  | .jump j v st' => if j = id then region id (rest id) passes v st' else .jump j v st'
  | o => o

mutual
/-- Run a statement; `self` is the lexically visible `ex_err`. -/
def exec (w : World) (passes : Nat) : Nat → Stmt → St → Out
  | _, .skip, st => .ok st
  | _, .mark n, st => .ok (st.log (.mark n))
  | self, .seq a b, st => (exec w passes self a st).andThen (exec w passes self b)
  | _, .throw e, st => throwE w e st
  | self, .rethrow, st => throwE w (st.ctxs self).exn st
  | _, .ret, st => .ret st
  | _, .call s, st =>
    match exec w passes 0 s st with
    | .ret st => .ok st
    | o => o
  | _, .assign v x, st => .ok { st with vars := fun u => if u = v then x else st.vars u }
  | _, .protect p v f, st =>
    -- `src/except.c:89-97` `ex_protect_ptr`
    let c := st.ctxs st.cur
    let st := { st with nodes := fun q => if q = p then
      { linked := true, func := f, var := v, next := c.stack } else st.nodes q }
    .ok (st.setCtx st.cur { c with stack := p :: c.stack })
  | _, .unprotect p, st =>
    -- `include/exception.h:450` `unprotected`
    .ok (st.setCtx st.cur { st.ctxs st.cur with stack := (st.nodes p).next })
  | _, .tryCatch body hs, st =>
    tryBlock w passes (fun id => exec w passes id body)
      (fun id st => (execH w passes id hs st).andThen (endTry w id)) st
  | _, .tryFinally body hs fin, st =>
    tryBlock w passes (fun id => exec w passes id body)
      (fun id st => (execH w passes id hs st).andThen fun st =>
        -- `include/exception.h:332-339` `ex_finally`
        (exec w passes id fin { st with cur := (st.ctxs id).next }).andThen (endTry w id)) st
/-- The handlers: `include/exception.h:315-322` `ex_catch_any`, `include/exception.h:351-360`
`ex_catch`; each tests the state again. -/
def execH (w : World) (passes : Nat) (id : Nat) : Handlers → St → Out
  | .nil, st => .ok st
  | .cons p s rest, st =>
    let c := st.ctxs id
    if c.state = throwState ∧ (p = .any ∨ p = .name c.exn.name) then
      (exec w passes id s (st.setCtx id { c with state := catchState })).andThen
        (execH w passes id rest)
    else execH w passes id rest st
end

/-- The root context: `src/except.c:331-348` `ex_init`; `raii` says whether `raii_init` was called. -/
def rootCtx (raii : Bool) : Ctx :=
  { next := 0, stack := [], exn := ⟨0, 0, 0, 0, none⟩, unstack := false, state := 0,
    isRaii := raii, isUnwind := false }

/-- A thread that has not thrown yet. -/
def start (raii : Bool) : St :=
  { ctxs := fun _ => rootCtx raii, cur := 0, fresh := 1,
    nodes := fun _ => ⟨false, 0, 0, []⟩, vars := fun _ => 0, trace := [] }

end Verif.Ex
