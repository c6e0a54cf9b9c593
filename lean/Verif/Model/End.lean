/-!
# How a program ends

`exit` with the `raii_destroy` that `raii_init` registers, `ex_throw` outside every try block, `ex_terminate` and its
callbacks.  None of these return, so a configuration is what is being executed now, without the callers below it;
`depth` counts those.  User code that runs here (deferred functions and the two callbacks) returns, throws or calls `exit`.

Left out: pointers protected with `ex_protect_ptr` (C31, C57), deferred functions that register more of them (C23), `guard`
(`exception_setup_func` is NULL: C32), the printing of the message.  A call of `exit` during `exit` goes on with the functions not
yet called, as in glibc and musl (C leaves it undefined).
-/
namespace Verif.Te

/-- What user code does. -/
inductive Act
  | ret | throw | exit
  deriving DecidableEq, Repr

/-- User code: a deferred function with its argument (`none`: NULL), and the callbacks
`exception_ctrl_c_func` and `exception_terminate_func` (`src/except.c:68-69`).  The last argument is the number of calls of user
code made before. -/
structure Env where
  fn : Nat → Option Nat → Nat → Act
  ctrlC : Option (Nat → Act)
  term : Option (Nat → Act)

/-- Where `raii_deferred_free` was called from. -/
inductive Ret
  /-- `ex_terminate`, `src/except.c:355-356`. -/
  | terminate
  /-- `ex_unwind_stack`, `src/except.c:114-115`. -/
  | unwind
  /-- `exit`, `src/raii.c:125`. -/
  | exit
  deriving DecidableEq, Repr

inductive Pc
  | throw
  | term1 | term2 | term3 | term4
  | free (r : Ret)
  | defers (i : Nat) (r : Ret)
  | exit
  /-- Ended by `exit` (`flushed`: streams are flushed, the program's own `atexit` functions called) or by `_Exit`. -/
  | ended (flushed : Bool)
  deriving DecidableEq, Repr

inductive Ev
  | ran (f : Nat) (x : Option Nat)
  | ctrlC
  | terminate
  deriving DecidableEq, Repr

structure St where
  pc : Pc
  /-- The deferral array of the ending thread's scope, oldest first. -/
  entries : List (Nat × Option Nat)
  /-- `is_type(&scope->defer, RAII_DEF_ARR)`. -/
  armed : Bool
  /-- `scope->is_protected`. -/
  prot : Bool
  /-- `ex_local()->is_raii`. -/
  isRaii : Bool
  /-- `ctx->unstack`. -/
  unstack : Bool
  gotSignal : Bool
  gotCtrlC : Bool
  canTerminate : Bool
  /-- How many times `raii_destroy` is still registered with `atexit`. -/
  handlers : Nat
  trace : List Ev
  calls : Nat
  depth : Nat

/-- `raii_deferred_free` returns: `src/except.c:356-361`, `src/except.c:131` and `404-409`, `exit`. -/
def back (s : St) : Ret → St
  | .terminate => { s with pc := .term2 }
  | .unwind => { s with pc := .term1, unstack := false }
  | .exit => { s with pc := .exit }

/-- User code is called; `s'` is the state if it returns. -/
def call (a : Act) (s s' : St) : St :=
  match a with
  | .ret => { s' with calls := s.calls + 1 }
  | .throw => { s with pc := .throw, calls := s.calls + 1, depth := s.depth + 1 }
  | .exit => { s with pc := .exit, calls := s.calls + 1, depth := s.depth + 1 }

def step (env : Env) (s : St) : St :=
  match s.pc with
  -- `src/except.c:380-409` `ex_throw` with `raii_unwind_set` (`src/raii.c:91-97`) and `ex_unwind_stack` (`src/except.c:106-133`)
  | .throw =>
    if s.unstack then { s with pc := .term1 }
    else if s.isRaii && s.prot then { s with pc := .free .unwind, unstack := true }
    else { s with pc := .term1 }
  -- `src/except.c:354-356` `ex_terminate`
  | .term1 => if s.isRaii then { s with pc := .free .terminate } else { s with pc := .term2 }
  -- `src/except.c:363-366`
  | .term2 =>
    match s.gotCtrlC, env.ctrlC with
    | true, some a =>
      let s := { s with gotCtrlC := false, trace := s.trace ++ [.ctrlC] }
      call (a s.calls) s { s with pc := .term3 }
    | _, _ => { s with pc := .term3 }
  -- `src/except.c:368-371`
  | .term3 =>
    match s.canTerminate, env.term with
    | true, some a =>
      let s := { s with canTerminate := false, trace := s.trace ++ [.terminate] }
      call (a s.calls) s { s with pc := .term4 }
    | _, _ => { s with pc := .term4 }
  -- `src/except.c:373-376`
  | .term4 => if s.gotSignal then { s with pc := .ended false } else { s with pc := .exit }
  -- `src/raii.c:436-443` `raii_deferred_free`
  | .free r => if s.armed then { s with pc := .defers s.entries.length r } else back s r
  -- `src/raii.c:394-425` `raii_deferred_run`, then `raii_deferred_array_reset`; `is_protected` is left as it is:
  -- a later throw that sees it finds nothing to run
  | .defers 0 r => back { s with entries := [], armed := false } r
  | .defers (i + 1) r =>
    match s.entries[i]? with
    | none => s
    | some (f, x) =>
      let s := { s with trace := s.trace ++ [.ran f x] }
      call (env.fn f x s.calls) s { s with entries := s.entries.set i (f, none), pc := .defers i r }
  -- `exit`: `raii_destroy` (`src/raii.c:310-312`), as often as it was registered
  | .exit =>
    match s.handlers with
    | 0 => { s with pc := .ended true }
    | h + 1 => { s with pc := .free .exit, handlers := h }
  | .ended _ => s

def run (env : Env) : Nat → St → St
  | 0, s => s
  | n + 1, s => run env n (step env s)

/-- Why the program ends. -/
inductive Cause
  /-- `main` returns or `exit` is called. -/
  | exit
  /-- `throw` or a signal (`ex_handler`, `src/except.c:521-546`), outside every try block. -/
  | throw
  deriving DecidableEq, Repr

def Cause.pc : Cause → Pc
  | .exit => .exit
  | .throw => .throw

/-- What happened before that matters at the end. -/
inductive Past
  /-- A signal that a try block handled; `true`: SIGINT.  `src/except.c:525-527`. -/
  | handled (int : Bool)
  /-- `ex_flags_reset()`, `src/except.c:313-316`. -/
  | reset
  deriving DecidableEq, Repr

/-- `got_signal` and `got_ctrl_c`. -/
def flags : List Past → Bool × Bool
  | [] => (false, false)
  | .reset :: _ => (false, false)
  | .handled i :: h => (true, i || (flags h).2)

/-- The program at its end: `sig` is the signal being the cause, if there is one (`true`: SIGINT), `past` the history, latest first,
`defs` the deferrals of this thread's scope, oldest first. -/
def start (defs : List (Nat × Nat)) (prot isRaii unstack : Bool) (handlers : Nat) (past : List Past) (sig : Option Bool) (c : Cause) : St :=
  { pc := c.pc, entries := defs.map fun d => (d.1, some d.2), armed := true, prot := prot, isRaii := isRaii, unstack := unstack
    gotSignal := (flags past).1 || sig.isSome, gotCtrlC := (flags past).2 || sig == some true, canTerminate := true
    handlers := handlers, trace := [], calls := 0, depth := 0 }

end Verif.Te
