/-!
# The call stack an exception came from

Builds with `USE_DEBUG`, POSIX (`include/exception.h:292-360`), one thread.  Each `try` block has a context with room for a call stack (`ex_err.backtrace`, `include/exception.h:413`), which
`ex_throw` fills; handlers get it as `err_backtrace` and print it with `ex_backtrace`.

Left out: everything about exceptions that `Model/Except.lean` has (names, handlers in order, protected pointers); leaving a block by `return`; printing in a `finally` section with no exception; functions called on a throw
(`Model/Hooks.lean`); stacks deeper than 256, of which the first 256 addresses are taken.
-/
namespace Verif.Bt

/-- What the room for a call stack holds. -/
inductive Trace
  /-- The call stack at the throw `e`. -/
  | of (e : Nat)
  /-- Whatever the memory held; `size`: what is then found in the field `size`. -/
  | mem (size : Nat)
  deriving DecidableEq, Repr

inductive Prog
  | skip
  | seq (a b : Prog)
  /-- `throw`, `raii_panic`, a signal: the throw called `e`. -/
  | throw (e : Nat)
  /-- `thrd_get` of a future whose function ended with the throw `e`, in another thread. -/
  | get (e : Nat)
  /-- `rethrow()`, in a handler.  In the body of a block within a handler it would name that block's context (`ex_err`), which has no exception yet: such programs are not meant. -/
  | rethrow
  /-- `ex_backtrace(err_backtrace)`, in a handler. -/
  | look
  /-- `try { body } catch... { handler } finally { fin } end_try`; `catches`: which throws have a handler; `size`: from the memory of the block's context, which is not initialised.  No `finally`
  section: `fin` is `skip`. -/
  | block (size : Nat) (body : Prog) (catches : Nat → Bool) (handler fin : Prog)

/-- In a handler or `finally` section: what the block got last, and what `err_backtrace` points to. -/
abbrev Handling := Option (Nat × Trace)

/-- What was printed, for which throw; what is thrown on leaving, if anything; what the room of the current context then holds. -/
abbrev Res := List (Nat × Trace) × Option Nat × Trace

/-- `src/except.c:379-415` `ex_throw`, its work on the room of the context it throws to; `given`: `dump` is not NULL. -/
def fill (given : Bool) (e : Nat) (room : Trace) : Trace := if given then room else .of e

/-- `room`: of the current context. -/
def run : Prog → Handling → Trace → Res
  | .skip, _, room => ([], none, room)
  | .seq a b, h, room =>
    match run a h room with
    | (o, none, room') =>
      let r := run b h room'
      (o ++ r.1, r.2)
    | r => r
  -- `include/exception.h:296`, `src/except.c:546`: no `dump`
  | .throw e, _, room => ([], some e, fill false e room)
  -- `src/future.c:51`: the worker's
  | .get e, _, room => ([], some e, fill true e room)
  -- `include/exception.h:292-293`: the block's own; the context is still the block's
  | .rethrow, some (e, _), room => ([], some e, fill true e room)
  | .rethrow, none, room => ([], none, room)
  -- `src/except.c:171-290`
  | .look, some (e, t), room => ([(e, t)], none, room)
  | .look, none, room => ([], none, room)
  -- `include/exception.h:297-360`
  | .block size body catches handler fin, h, room =>
    match run body h (.mem size) with
    | (o, none, _) =>
      let r := run fin none room
      (o ++ r.1, r.2)
    | (o, some e, own) =>
      if catches e then
        -- the handler runs in the block's own context
        match run handler (some (e, own)) own with
        | (o', none, own') =>
          let r := run fin (some (e, own')) room
          (o ++ o' ++ r.1, r.2)
        | (o', some e', own') =>
          -- `ex_finally` makes the next context the current one
          match run fin (some (e', own')) room with
          -- `ex_end_try` throws on, to the next context
          | (o'', none, room') => (o ++ o' ++ o'', some e', fill true e' room')
          | (o'', some e'', room') => (o ++ o' ++ o'', some e'', room')
      else
        match run fin (some (e, own)) room with
        | (o'', none, room') => (o ++ o'', some e, fill true e room')
        | (o'', some e'', room') => (o ++ o'', some e'', room')

/-- A whole thread: its own context is zeroed (`src/except.c:342`, and static); what nothing handles is printed with what is there (`src/except.c:404-409`, `150`). -/
def thread (p : Prog) : List (Nat × Trace) :=
  match run p none (.mem 0) with
  | (o, none, _) => o
  | (o, some e, room) => o ++ [(e, room)]

/-- `src/except.c:286-287`: how many addresses `ex_backtrace` reads; `depth`: of the call stack at each throw. -/
def Trace.reads (depth : Nat → Nat) : Trace → Nat
  | .of e => min (depth e) 256
  | .mem n => n

end Verif.Bt
