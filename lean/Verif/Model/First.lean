/-!
# Which calls make a thread's scope, and which only use it

`raii_local()` (`src/raii.c:99-101`) is NULL in a thread until `raii_init` (`src/raii.c:103-129`) has run there.  Some functions call `raii_init`, others `raii_local()` and go on with what they get, or
with its field `arena`.

Threads, each with a scope of its own; any interleaving of their calls, each call as one step.  Arguments are right otherwise.  Left out: what the calls do (their own properties), exceptions (a throw ends
the section it is in: the program's `leave`), throws through functions set by other threads' sections (C47), thread ends, emulated thread-local storage (C85).
-/
namespace Verif.Fs

inductive Call
  /-- `malloc_default`, `calloc_default`, `raii_memdup`, `raii_split`, `raii_concat`, `raii_replace`, `raii_encode64`, `thrd_async`: `raii_init()` (`src/raii.c:170-193`, `234`, `262`, `src/future.c:14`). -/
  | alloc
  /-- `thrd_scope`, `src/future.c:203-218`. -/
  | scope
  /-- `raii_mid`, `src/raii.c:131-133`. -/
  | mid
  /-- `raii_defer`, `raii_recover`, `src/raii.c:471-477`. -/
  | defer
  /-- `raii_caught`, `raii_message`, `src/raii.c:483-510`. -/
  | message
  /-- `raii_deferred_clean`, `src/raii.c:445-447`; also at the end of `thrd_sync`, `src/future.c:284`. -/
  | clean
  /-- `raii_decode64` of a valid text, `src/raii.c:196-198`. -/
  | decode
  /-- `raii_destroy`, `src/raii.c:310-312`, which checks for NULL (`src/raii.c:277`). -/
  | destroy
  /-- Calls that do not ask for the thread's scope: `unique_init`, `try_malloc`, `malloc_full` with a scope of one's own, … -/
  | other
  /-- `guard {`, `include/raii.h:531-545`. -/
  | enter
  /-- `} guarded` or another end of the section, `src/raii.c:533-539`. -/
  | leave
  /-- `_recover`, `_is_caught`, `_get_message`, `include/raii.h:499-507`. -/
  | inner
  /-- `thrd_spawn`, `thrd_spawn_ex`, `src/future.c:220-259`. -/
  | spawn
  deriving DecidableEq, Repr

/-- The field `arena`. -/
inductive Slot
  | null
  | sect
  | pool
  deriving DecidableEq, Repr

/-- `saved`: what the sections entered have kept of the field, the innermost first. -/
structure Th where
  made : Bool
  slot : Slot
  saved : List Slot
  deriving DecidableEq, Repr

def Th.start : Th := { made := false, slot := .null, saved := [] }

/-- One call; `none`: a null pointer is used. -/
def step (t : Th) : Call → Option Th
  | .alloc => some { t with made := true }
  | .scope => some { t with made := true, slot := .pool }
  | .mid | .defer | .message | .clean | .decode => if t.made then some t else none
  | .destroy | .other => some t
  | .enter => some { made := true, slot := .sect, saved := t.slot :: t.saved }
  | .leave =>
    match t.saved with
    | [] => some t
    | x :: r => some { t with slot := x, saved := r }
  | .inner => if t.made then (match t.slot with | .null => none | _ => some t) else none
  -- `src/future.c:221`: without a scope it is refused; `is_type(NULL, …)` reads through NULL
  | .spawn => if t.made then (match t.slot with | .null => none | _ => some t) else some t

/-- A history of several threads. -/
def run (s : Nat → Th) : List (Nat × Call) → Option (Nat → Th)
  | [] => some s
  | (i, c) :: h =>
    match step (s i) c with
    | none => none
    | some t => run (fun j => if j = i then t else s j) h

end Verif.Fs
