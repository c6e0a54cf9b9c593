/-!
# Guarded sections and spawn scopes in each other

The field `arena` of a thread's scope (`include/raii.h:162-175`) points to the scope of the innermost guarded section (`include/raii.h:542`) and, written by `thrd_scope` (`src/future.c:215`), to the
current spawn scope, a `struct future_pool`; `guard_set` and `thrd_spawn` read it.  A worker thread runs its function in a guarded section (`src/future.c:77-79`).

One thread.  Left out: the threads started (C38–C40, C69), values, blocks other than sections, `free_arena` scopes (C64), requests for memory refused (C82).  Whether an exception is marked as handled in a section (C33) is an input.
-/
namespace Verif.Sl

/-- What `raii_local()->arena` is. -/
inductive Slot
  /-- The thread has no scope yet. -/
  | noScope
  | null
  | sect (i : Nat)
  | pool (j : Nat)
  deriving DecidableEq, Repr

inductive Ev
  /-- `thrd_scope` returned `j`. -/
  | opened (j : Nat)
  | destroyed (j : Nat)
  | enter (i : Nat)
  | leave
  /-- `thrd_spawn` started a thread of spawn scope `j`. -/
  | started (j : Nat)
  /-- `thrd_spawn` panics: no spawn scope. -/
  | refused
  /-- The exception is noted with section `i`. -/
  | noted (i e : Nat)
  /-- The exception ends the process. -/
  | uncaught (e : Nat)
  /-- A null pointer, freed memory or memory outside a block is used. -/
  | undef
  deriving DecidableEq, Repr

inductive Out
  | ok
  | thrown (e : Nat)
  | over
  deriving DecidableEq, Repr

/-- `live`: the spawn scopes opened and not destroyed, the newest first; `sec`: the sections entered, the innermost first. -/
structure St where
  slot : Slot
  live : List Nat
  sec : List Nat
  next : Nat
  deriving DecidableEq, Repr

def start : St := { slot := .noScope, live := [], sec := [], next := 0 }

/-- `src/except.c:378-416` `ex_throw`: in a section with `guard_set` (`src/raii.c:524-531`), which takes what the field points to for the section's scope; outside all sections the process ends. -/
def throwIn (s : St) (e : Nat) : List Ev × St × Out :=
  if s.sec = [] then ([.uncaught e], s, .over)
  else
    match s.slot with
    | .sect i => ([.noted i e], s, .thrown e)
    | _ => ([.undef], s, .over)

/-- The exception of a refused `thrd_spawn`. -/
def panic : Nat := 0

inductive Prog
  | done
  /-- `thrd_scope()`. -/
  | opens (k : Prog)
  /-- `thrd_spawn(…)`. -/
  | spawn (k : Prog)
  /-- `thrd_destroy` of the newest spawn scope not destroyed. -/
  | destroy (k : Prog)
  | throw (e : Nat)
  /-- A guarded section. -/
  | guard (handled : Bool) (b k : Prog)
  deriving DecidableEq, Repr

/-- `raii_init`. -/
def Slot.init : Slot → Slot
  | .noScope => .null
  | x => x

/-- `include/raii.h:531-545`. -/
def St.enter (s : St) : St := { s with slot := .sect s.next, sec := s.next :: s.sec, next := s.next + 1 }

/-- `src/raii.c:533-539` `guard_reset` after the section entered in `s`. -/
def St.leave (s s₁ : St) : St := { s₁ with slot := s.slot.init, sec := s.sec }

/-- Runs a program. -/
def run : Prog → St → List Ev × St × Out
  | .done, s => ([], s, .ok)
  -- `src/future.c:203-218`
  | .opens k, s => let r := run k { s with slot := .pool s.next, live := s.next :: s.live, next := s.next + 1 }; (.opened s.next :: r.1, r.2)
  -- `src/future.c:220-250`: `is_raii_empty()`; `is_type` of NULL; of a section's scope, whose first word is 0 (`src/raii.c:205`); of a pool, which may be freed
  | .spawn k, s =>
    match s.slot with
    | .noScope => let r := throwIn s panic; (.refused :: r.1, r.2)
    | .null => ([.undef], s, .over)
    | .sect _ => let r := throwIn s panic; (.refused :: r.1, r.2)
    | .pool j => if j ∈ s.live then let r := run k s; (.started j :: r.1, r.2) else ([.undef], s, .over)
  -- `src/future.c:295-305`; the field is left as it is
  | .destroy k, s =>
    match s.live with
    | [] => run k s
    | j :: l => let r := run k { s with live := l }; (.destroyed j :: r.1, r.2)
  | .throw e, s => throwIn s e
  -- `include/raii.h:531-572`
  | .guard handled b k, s =>
    let r := run b s.enter
    match r.2.2 with
    | .over => (.enter s.next :: r.1, r.2)
    | .ok => let q := run k (s.leave r.2.1); (.enter s.next :: r.1 ++ .leave :: q.1, q.2)
    | .thrown e =>
      let q := if handled then run k (s.leave r.2.1) else throwIn (s.leave r.2.1) e
      (.enter s.next :: r.1 ++ .leave :: q.1, q.2)

/-! ## Layout (64-bit targets with 4-byte enumerations) -/

/-- Offsets of members with these sizes and alignments, and the end. -/
def offsets : Nat → List (Nat × Nat) → List Nat
  | o, [] => [o]
  | o, (n, a) :: l => let p := (o + a - 1) / a * a; p :: offsets (p + n) l

/-- `include/raii.h:162-175` `struct memory_s`: arena, four bool, status, mid, defer, protector, backtrace, err, panic. -/
def memoryMembers : List (Nat × Nat) := [(8, 8), (1, 1), (1, 1), (1, 1), (1, 1), (4, 4), (8, 8), (32, 8), (8, 8), (8, 8), (8, 8), (8, 8)]

/-- `include/raii.h:241-249` `struct future_pool`: type, thread_count, cpu_present, scope, futures, results, queue (top, bottom, array). -/
def poolMembers : List (Nat × Nat) := [(4, 4), (4, 4), (8, 8), (8, 8), (8, 8), (8, 8), (24, 8)]

end Verif.Sl
