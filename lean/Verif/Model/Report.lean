/-!
# What an uncaught exception says

`ex_throw` outside every try block down to the text `ex_print` writes to `stderr`, with the memory the message of a panic lies in.
POSIX, one thread, native thread-local storage, no guard active.

Left out: the backtrace that follows in builds with `USE_DEBUG`; deferred functions other than the `free` of scoped memory (a deferral that throws
is C63's); the callbacks that run after the report (C63).  The scope's own entry in the chain of protected pointers
(`malloc_full`, `src/raii.c:227`) is left out of `stack`: here it is never visited, as scoped memory sets `is_protected` and that makes the unwinding
run the scope's deferrals instead (when it is visited: C57).
-/
namespace Verif.Rp

/-- The characters of a string. -/
abbrev Text := List Nat

/-- A `const char *`: a string literal, or a block of the heap. -/
inductive Str
  | lit (t : Text)
  | blk (b : Nat)
  deriving DecidableEq, Repr

/-- What `ex_throw` is given (`src/except.c:379`); the name is a constant array (`EX_EXCEPTION`, `include/exception.h:178-179`), `none` is NULL. -/
structure What where
  name : Option Text
  file : Text
  line : Nat
  function : Option Text
  message : Option Str
  deriving DecidableEq, Repr

/-- `throw(E)`, `include/exception.h:194-198`, `293-294`. -/
def throwWhat (name file : Text) (line : Nat) (fn : Text) : What := ⟨some name, file, line, some fn, none⟩

/-- `raii_panic(message)`, `include/exception.h:202-206`; the name is `panic`. -/
def panicWhat (name : Text) (message : Str) (file : Text) (line : Nat) (fn : Text) : What := ⟨some name, file, line, some fn, some message⟩

/-- `ex_handler` for a signal with an entry in the table, `src/except.c:521-546`. -/
def signalWhat (name unknown : Text) : What := ⟨some name, unknown, 0, none, none⟩

structure St where
  /-- The live blocks of the heap with the string in each. -/
  mem : Nat → Option Text
  fresh : Nat
  /-- `raii_init` was called: the root context's `is_raii`. -/
  raii : Bool
  /-- The scope's deferrals (all `free`), newest first. -/
  owned : List Nat
  /-- `is_type(&scope->defer, RAII_DEF_ARR)`: false once the scope was released. -/
  armed : Bool
  /-- `scope->is_protected`. -/
  prot : Bool
  /-- The values of the pointers protected outside every block, newest first (`none`: NULL). -/
  stack : List (Option Nat)
  /-- `got_uncaught_exception`. -/
  flag : Bool

def init : St :=
  { mem := fun _ => none, fresh := 0, raii := false, owned := [], armed := true, prot := false, stack := [], flag := false }

/-- The C library's `free`; `none`: not a live block, undefined. -/
def free (b : Nat) (s : St) : Option St :=
  if (s.mem b).isSome then some { s with mem := fun a => if a = b then none else s.mem a } else none

def freeAll : List Nat → St → Option St
  | [], s => some s
  | b :: bs, s => (free b s).bind (freeAll bs)

/-- `src/raii.c:436-443` `raii_deferred_free` of the thread's scope. -/
def clean (s : St) : Option St :=
  if s.armed then (freeAll s.owned s).map fun s => { s with owned := [], armed := false } else some s

/-- How unwinding ends. -/
inductive Unwound
  /-- Undefined: something was freed twice. -/
  | crash
  /-- A release function threw. -/
  | threw (s : St)
  | done (s : St)

/-- The loop of `src/except.c:116-128` with release functions that free; `throws b`: that of `b` throws instead. -/
def loop (throws : Nat → Bool) : List (Option Nat) → Option Nat → St → Unwound
  | [], _, s => .done s
  | v :: vs, temp, s =>
    let s := { s with flag := decide (temp = v) }
    if temp = v then .done s
    else match v with
      | none => loop throws vs none s
      | some b =>
        if throws b then .threw s
        else match free b s with
          | none => .crash
          | some s => loop throws vs (some b) s

/-- `src/except.c:106-133` `ex_unwind_stack` for a context with `is_raii` as in `s`, after `raii_unwind_set` (`src/raii.c:91-97`). -/
def unwind (throws : Nat → Bool) (s : St) : Unwound :=
  if s.raii && s.prot then
    match clean s with
    | none => .crash
    | some s => .done s
  else
    match loop throws s.stack none s with
    | .done s => .done { s with stack := [] }
    | u => u

/-- What the program does before. -/
inductive Op
  /-- `malloc` by the program, for a string. -/
  | own (t : Text)
  /-- `free` by the program. -/
  | drop (b : Nat)
  /-- `raii_init()`. -/
  | start
  /-- A string in memory of the thread's scope: `malloc_default`, `str_concat` and such. -/
  | fromScope (t : Text)
  /-- `raii_deferred_clean()`. -/
  | release
  /-- `protected(p, free)`, `p` having this value when an exception is thrown. -/
  | protect (v : Option Nat)
  /-- A try block that protected pointers with these values, newest first, and whose exception was caught; nothing was taken from the scope in it, its uninitialised flags are clear. -/
  | caught (ptrs : List (Option Nat))

/-- One operation; `none`: undefined, or the end of the program. -/
def op (throws : Nat → Bool) (s : St) : Op → Option St
  | .own t => some { s with mem := fun a => if a = s.fresh then some t else s.mem a, fresh := s.fresh + 1 }
  | .drop b => free b s
  -- `src/raii.c:103-129`
  | .start => some { s with raii := true }
  -- `src/raii.c:220-232`, `378-399`
  | .fromScope t =>
    some { s with mem := fun a => if a = s.fresh then some t else s.mem a, fresh := s.fresh + 1,
                  raii := true, owned := s.fresh :: s.owned, prot := true }
  | .release => if s.raii then clean s else none
  | .protect v => some { s with stack := v :: s.stack }
  | .caught ptrs =>
    match loop throws ptrs none s with
    | .done s => some s
    | _ => none

def ops (throws : Nat → Bool) : List Op → St → Option St
  | [], s => some s
  | o :: os, s => (op throws s o).bind (ops throws os)

/-- What is printed. -/
structure Report where
  /-- With `USE_DEBUG` the line says whether the exception came during stack unwinding. -/
  unwinding : Option Bool
  text : Text
  function : Option Text
  /-- With `USE_DEBUG`: file and line. -/
  place : Option (Text × Nat)
  deriving DecidableEq, Repr

/-- How the program ends. -/
inductive End
  /-- Undefined: something was freed twice. -/
  | crash
  /-- Undefined: freed memory is printed. -/
  | garbage
  /-- Undefined: NULL is printed with `%s`. -/
  | null
  | said (r : Report)
  deriving DecidableEq, Repr

def readStr (s : St) : Str → Option Text
  | .lit t => some t
  | .blk b => s.mem b

/-- The string printed: `exception->panic != NULL ? exception->panic : exception->ex`. -/
def What.str (w : What) : Option Str :=
  match w.message with
  | some p => some p
  | none => w.name.map .lit

/-- `src/except.c:135-153` `ex_print`. -/
def print (debug during : Bool) (w : What) (s : St) : End :=
  match w.str with
  | none => .null
  | some p =>
    match readStr s p with
    | none => .garbage
    | some t =>
      if debug then .said ⟨some during, t, w.function, some (w.file, w.line)⟩
      else match w.function with
        | none => .null
        | some f => .said ⟨none, t, some f, none⟩

/-- `src/except.c:354-361` `ex_terminate`: `raii_destroy` first; `unstack` is the context's. -/
def terminate (debug unstack : Bool) (w : What) (s : St) : End :=
  match if s.raii then clean s else some s with
  | none => .crash
  | some s => print debug (unstack || s.flag) w s

/-- `src/except.c:379-409` `ex_throw` outside every block.  A release function that throws meets `unstack` (382-383): the context still holds the first exception. -/
def fatal (throws : Nat → Bool) (debug : Bool) (w : What) (s : St) : End :=
  match unwind throws s with
  | .crash => .crash
  | .threw s => terminate debug true w s
  | .done s => terminate debug false w s

/-- What `raii_message()` (`src/raii.c:506-510`) gives the handler of a block in which `raii_init` was first called (`s`, with the pointers protected in it): the string of `scope->panic`, else of `scope->err`, else of `ex_local()->ex`. -/
inductive Heard
  | crash
  | garbage
  /-- A release function threw: the program ends. -/
  | ended
  | null
  | text (t : Text)
  deriving DecidableEq, Repr

/-- `src/except.c:379-402`, then the handler asks. -/
def heard (throws : Nat → Bool) (w : What) (s : St) : Heard :=
  match unwind throws s with
  | .crash => .crash
  | .threw _ => .ended
  | .done s =>
    match w.str with
    | none => .null
    | some p =>
      match readStr s p with
      | none => .garbage
      | some t => .text t

end Verif.Rp
