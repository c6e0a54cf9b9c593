/-!
# Signals at any moment

A try block and `ex_throw`, one access at a time, with signals arriving in between; the mask of blocked signals, which `ex_throw` and the
system change.  The POSIX build, one thread, whose exception context exists; the signals that arrive are registered (`Verif.Model.Signal`)
and not caused by the program itself.

Simplified: a block has one handler and may have a `finally` part that is one action; `Verif.Model.Except` has the rest (several handlers,
`rethrow`, `return`, protected pointers).  What `ex_throw` does while all signals are blocked is one step.
-/
namespace Verif.Sa

/-- `catch(E)` or `catch_any`. -/
inductive Pat
  | name (e : Nat)
  | any
  deriving DecidableEq, Repr

/-- User programs. -/
inductive Stmt
  | skip
  /-- Some observable action. -/
  | act (n : Nat)
  | seq (a b : Stmt)
  /-- `throw(E)`. -/
  | throw (e : Nat)
  /-- `try { body } catch(p) { h } finally { n } end_try`. -/
  | tryCatch (body : Stmt) (p : Pat) (h : Stmt) (fin : Option Nat)

/-- What happens.  `act`: an action of the program, and the mask it runs under; `arrived`: the system is told of a signal for this thread;
`raised`: the signal's handler is called. -/
inductive Ev
  | act (n : Nat) (mask : Nat → Bool)
  | arrived (s : Nat)
  | raised (s : Nat)
  | thrown (e : Nat)
  | caught (e : Nat)

/-- Where the thread is when signals arrive. -/
inductive Place
  /-- In the program's own code. -/
  | user
  /-- In `ex_try`, after `ex_update(&ex_err)` and before `ex_setjmp` (`include/exception.h:308-310`). -/
  | window
  /-- After `ex_setjmp` returned and before `ex_err.state` is assigned (`include/exception.h:310`). -/
  | assign
  /-- In `ex_throw` while all signals are blocked (`src/except.c:385-402`). -/
  | blocked
  /-- In `ex_throw` afterwards. -/
  | jumping
  /-- Between the parts of a block. -/
  | between
  /-- In the `finally` part. -/
  | fin
  deriving DecidableEq, Repr

/-- What the system does.  `arrivals p t`: the signals that arrive at the `t`-th moment, if the thread is at `p` then; `pick`: which of
several deliverable signals is delivered first; `junk`: the content of `ex_err.state` before it is assigned; `saves`: whether `ex_setjmp`
and `ex_longjmp` save and restore the mask (`include/exception.h:177-185`: `sigsetjmp(buf, 1)` if that is a macro, else `setjmp`);
`name`: the exception registered for a signal. -/
structure World where
  arrivals : Place → Nat → List Nat
  pick : List Nat → Nat
  junk : Nat → Nat
  saves : Bool
  name : Nat → Nat

/-- `include/exception.h:388-428` `ex_context_t`, the fields used.  `buf`: the mask saved by `ex_setjmp`, none while it was not called. -/
structure Ctx where
  next : Nat
  exn : Nat
  state : Nat
  buf : Option (Nat → Bool)

/-- The thread.  `pend`: signals that arrived and were not delivered, once each; `cur` is `ex_local()`, context 0 the thread's root; the
trace is newest first. -/
structure St where
  tick : Nat
  mask : Nat → Bool
  pend : List Nat
  ctxs : Nat → Ctx
  cur : Nat
  fresh : Nat
  trace : List Ev

/-- Result of running code. -/
inductive Out
  | ok (st : St)
  /-- `longjmp` to context `j` with value `v`. -/
  | jump (j v : Nat) (st : St)
  /-- `ex_terminate` with this exception. -/
  | dead (e : Nat) (st : St)
  /-- `longjmp` with a buffer `ex_setjmp` has not filled: undefined. -/
  | wild (st : St)
  /-- More signals than looked at. -/
  | running (st : St)

def Out.andThen (o : Out) (k : St → Out) : Out :=
  match o with
  | .ok st => k st
  | o => o

def Out.st : Out → St
  | .ok st | .jump _ _ st | .dead _ st | .wild st | .running st => st

def St.log (st : St) (e : Ev) : St := { st with trace := e :: st.trace }

def St.setCtx (st : St) (c : Nat) (x : Ctx) : St := { st with ctxs := fun d => if d = c then x else st.ctxs d }

/-- A signal arrives: standard signals do not queue. -/
def St.arrive (st : St) (s : Nat) : St :=
  { st with pend := if s ∈ st.pend then st.pend else st.pend ++ [s], trace := .arrived s :: st.trace }

/-- The signals that arrive at this moment. -/
def arrivals (w : World) (p : Place) (st : St) : St :=
  { (w.arrivals p st.tick).foldl St.arrive st with tick := st.tick + 1 }

/-- The signal the system delivers now, if any: pending and not blocked. -/
def deliverable (w : World) (st : St) : Option Nat :=
  let c := st.pend.filter fun s => !st.mask s
  c[w.pick c % c.length]?

/-- The handler is called: `sa_mask` is empty and `SA_NODEFER` is not set (`src/except.c:590-595`), so its own signal is blocked. -/
def St.enterHandler (st : St) (s : Nat) : St :=
  { st with mask := fun t => t == s || st.mask t, pend := st.pend.filter (· ≠ s), trace := .raised s :: st.trace }

/-- `ex_longjmp(ctx->buf, ctx->state | ex_throw_st)`, `src/except.c:404-414`; in the root context `ex_terminate`. -/
def jumpOut (e : Nat) (st : St) : Out :=
  if st.cur = 0 then .dead e st
  else match (st.ctxs st.cur).buf with
    | none => .wild st
    | some _ => .jump st.cur ((st.ctxs st.cur).state ||| 1) st

/-- `src/except.c:385-402`: the exception is noted while all signals are blocked; then the mask is what it was. -/
def note (w : World) (e : Nat) (st : St) : St :=
  let blocked := arrivals w .blocked { st.setCtx st.cur { st.ctxs st.cur with exn := e } with mask := fun _ => true }
  arrivals w .jumping { blocked with mask := st.mask }

/-- `src/except.c:380-415` `ex_throw`, and `ex_handler`, `src/except.c:521-547`, for the signals that are delivered in it.
A signal delivered in its first lines, before the block, has the effect of one in `note`: its exception takes the place of this one. -/
def throwE (w : World) : Nat → Nat → St → Out
  | 0, _, st => .running st
  | n + 1, e, st =>
    let st := note w e st
    match deliverable w st with
    | some s => throwE w n (w.name s) (st.enterHandler s)
    | none => jumpOut e st

/-- A moment at which signals may arrive and be delivered. -/
def poll (w : World) (passes : Nat) (p : Place) (st : St) (k : St → Out) : Out :=
  let st := arrivals w p st
  match deliverable w st with
  | some s => throwE w passes (w.name s) (st.enterHandler s)
  | none => k st

/-- `include/exception.h:302-308` `ex_try` up to `ex_update`. -/
def enterTry (w : World) (st : St) : St :=
  { st.setCtx st.fresh ⟨st.cur, 0, w.junk st.fresh, none⟩ with cur := st.fresh, fresh := st.fresh + 1 }

def St.setBuf (st : St) (c : Nat) : St := st.setCtx c { st.ctxs c with buf := some st.mask }

def St.setState (st : St) (c v : Nat) : St := st.setCtx c { st.ctxs c with state := v }

/-- `ex_longjmp` arrives at its `ex_setjmp`: the mask. -/
def restore (w : World) (c : Nat) (st : St) : St :=
  if w.saves then { st with mask := (st.ctxs c).buf.getD st.mask } else st

def Pat.hits (p : Pat) (e : Nat) : Bool :=
  match p with
  | .name x => x == e
  | .any => true

/-- `include/exception.h:341-349` `ex_end_try`. -/
def endTry (w : World) (passes id : Nat) (st : St) : Out :=
  poll w passes .between (if st.cur = id then { st with cur := (st.ctxs id).next } else st) fun st =>
  if (st.ctxs id).state &&& 1 ≠ 0 then throwE w passes (st.ctxs id).exn st else .ok st

/-- `include/exception.h:332-339` `ex_finally`. -/
def finish (w : World) (passes id : Nat) (fin : Option Nat) (st : St) : Out :=
  match fin with
  | none => .ok st
  | some n => poll w passes .fin { st with cur := (st.ctxs id).next } fun st => .ok (st.log (.act n st.mask))

/-- What follows the body: the handler (`include/exception.h:314-322`, `351-360`), `finally`, `end_try`. -/
def rest (w : World) (passes id : Nat) (p : Pat) (h : St → Out) (fin : Option Nat) (st : St) : Out :=
  poll w passes .between st fun st =>
  (if (st.ctxs id).state = 1 ∧ p.hits (st.ctxs id).exn then
    h ((st.setState id 2).log (.caught (st.ctxs id).exn))
   else .ok st).andThen fun st =>
  poll w passes .between st fun st =>
  (finish w passes id fin st).andThen (endTry w passes id)

/-- A `longjmp` to the block's own context makes `ex_setjmp` return once more. -/
def region (w : World) (passes id : Nat) (r : St → Out) : Nat → Out → Out
  | 0, o => match o with
    | .jump j v st => if j = id then .running st else .jump j v st
    | o => o
  | n + 1, o => match o with
    | .jump j v st =>
      if j = id then region w passes id r n (poll w passes .assign (restore w id st) fun st => r (st.setState id v))
      else .jump j v st
    | o => o

/-- Run a statement. -/
def exec (w : World) (passes : Nat) : Stmt → St → Out
  | .skip, st => .ok st
  | .act n, st => poll w passes .user st fun st => .ok (st.log (.act n st.mask))
  | .seq a b, st => (exec w passes a st).andThen (exec w passes b)
  | .throw e, st => poll w passes .user st fun st => throwE w passes e (st.log (.thrown e))
  | .tryCatch body p h fin, st =>
    poll w passes .user st fun st =>
    poll w passes .window (enterTry w st) fun st' =>
    let r := rest w passes st.fresh p (exec w passes h) fin
    region w passes st.fresh r passes
      ((poll w passes .assign (st'.setBuf st.fresh) fun st' => exec w passes body (st'.setState st.fresh 0)).andThen r)

/-- A thread outside any block, with the signals of `mask` blocked. -/
def start (mask : Nat → Bool) : St := ⟨0, mask, [], fun _ => ⟨0, 0, 0, none⟩, 0, 1, []⟩

/-- A program, and the moment after it. -/
def run (w : World) (passes : Nat) (mask : Nat → Bool) (s : Stmt) : Out :=
  (exec w passes s (start mask)).andThen fun st => poll w passes .user st .ok

end Verif.Sa
