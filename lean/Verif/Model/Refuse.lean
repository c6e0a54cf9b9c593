/-!
# When memory is refused

The functions of `src/raii.c` and `src/future.c` that ask the system for several things, with a system that may refuse any request: `ok n` says whether
request number `n` is granted.  Blocks have numbers.  Only who holds which block is modelled: what a scope's deferrals, its protector and its array
will free, what a pool or a thread holds, and what the caller was given to free.  A request that panics ends the function.  A throw may then release
the thread's scope or the guard's (C57): that is `release` after the call, and histories have it wherever they like.  Not modelled: that a throw out of
`thrd_spawn` frees the future through the scope's protector when the thread's scope has no deferral at all, which takes the refusal of the array for
the promise before (`src/raii.c:414-420`).  `RAII_FREE` of a block is its removal.  A call on a scope that is not there does nothing here; one on a
scope that was deleted is not legal in C.
-/
namespace Verif.Oo

/-- Which function is asking. -/
inductive Kind
  | memory | deferral | pack | get | scope | arena | guard | pool | async | spawn
  deriving DecidableEq

/-- What for. -/
inductive For
  /-- The block the function is to return (also a promise, which is `calloc_default`). -/
  | block
  /-- The scope's protector. -/
  | protector
  /-- Room in the array of deferrals. -/
  | array
  /-- The pack itself. -/
  | params
  /-- Its values. -/
  | values
  /-- Room for one more value. -/
  | more
  /-- The scope itself. -/
  | self
  /-- Its arena. -/
  | arena
  /-- The pool's arrays. -/
  | tables
  /-- The future. -/
  | future
  /-- The thread's argument. -/
  | argument
  /-- A thread. -/
  | thread
  /-- The result, with its scope's protector and room in its array. -/
  | result | resultProtector | resultArray
  deriving DecidableEq

/-- `include/raii.h:162-175` `memory_t`, as far as it holds blocks.  `entries`: what each deferral will free, the newest first. -/
structure Scope where
  own : List Nat
  array : List Nat
  entries : List (List Nat)
  protector : List Nat
  /-- `futures` and `results` of the pool that belongs to the scope, and `thread_count`. -/
  tables : List Nat
  threads : Nat
  /-- The scope was released: the type of its array is 0 (`src/raii.c:23`), and it will not be released again.  What it is given after that stays in
  these lists for good, also when it is deleted. -/
  spent : Bool

def Scope.empty : Scope := ⟨[], [], [], [], [], 0, false⟩

/-- What `raii_local()->arena` is: nothing, the scope of a guard, or a pool (`src/future.c:216`). -/
inductive Place
  | nothing | guard | pool
  deriving DecidableEq

structure St where
  /-- Requests so far. -/
  tick : Nat
  /-- Blocks numbered so far. -/
  next : Nat
  live : List Nat
  /-- The first is the thread's. -/
  scopes : List Scope
  /-- Blocks that callers, threads and pools hold. -/
  kept : List Nat
  arena : Place
  /-- The guards entered, innermost first: the scope of each, and the arena to go back to. -/
  guards : List (Nat × Place)
  /-- What was refused. -/
  refused : List (Kind × For)

inductive Out
  | ok
  /-- `raii_panic`, `throw`. -/
  | panic
  /-- The handler writes through a null pointer, or takes a pool for a scope. -/
  | undefined
  deriving DecidableEq

variable (ok : Nat → Bool)

def granted (s : St) : St := { s with tick := s.tick + 1, next := s.next + 1, live := s.next :: s.live }

def deny (k : Kind) (f : For) (s : St) : St := { s with tick := s.tick + 1, refused := (k, f) :: s.refused }

/-- A request for a block: `src/raii.c:137-166`, `malloc`, `calloc`, `realloc`. -/
def ask (k : Kind) (f : For) (s : St) : Option Nat × St := if ok s.tick then (some s.next, granted s) else (none, deny k f s)

/-- A request that no block comes of: `thrd_create`. -/
def may (k : Kind) (f : For) (s : St) : Bool × St := if ok s.tick then (true, { s with tick := s.tick + 1 }) else (false, deny k f s)

def free (bs : List Nat) (s : St) : St := { s with live := s.live.filter fun b => !bs.contains b }

def St.at (s : St) (i : Nat) : Scope := s.scopes.getD i .empty

def St.keep (s : St) (bs : List Nat) : St := { s with kept := bs ++ s.kept }

def St.drop (s : St) (bs : List Nat) : St := { s with kept := s.kept.filter fun b => !bs.contains b }

def St.add (s : St) (c : Scope) : St := { s with scopes := s.scopes ++ [c] }

def St.put (s : St) (i : Nat) (c : Scope) : St := { s with scopes := s.scopes.set i c }

/-- `src/raii.c:67-84`, `449-465` `raii_array_append`, `raii_deferred_any`: every sixteenth time the array is reallocated; if that is refused, the
deferral is not made, and the caller is told -1. -/
def defer (k : Kind) (f : For) (i : Nat) (e : List Nat) (s : St) : St :=
  let c := s.at i
  if c.entries.length % 16 = 0 then
    match ask ok k f s with
    | (none, s) => s
    | (some b, s) => (free c.array s).put i { c with array := [b], entries := e :: c.entries }
  else s.put i { c with entries := e :: c.entries }

/-- `src/raii.c:220-231`, `248-259` `malloc_full`, `calloc_full`. -/
def mallocFull (k : Kind) (f1 f2 f3 : For) (i : Nat) (s : St) : Option Nat × St :=
  match ask ok k f1 s with
  | (none, s) => (none, s)
  | (some b, s) =>
    match (s.at i).protector with
    | _ :: _ => (some b, defer ok k f3 i [b] s)
    | [] =>
      match ask ok k f2 s with
      | (none, s) => (none, s)
      | (some p, s) => (some b, defer ok k f3 i [b] (s.put i { s.at i with protector := [p] }))

/-- The blocks of a pack: `src/raii.c:593-668`.  `room`: for how many of its values more room is asked for. -/
def more : Nat → Nat → St → Option Nat × St
  | v, 0, s => (some v, s)
  | v, n + 1, s =>
    match ask ok .pack .more s with
    | (none, s) => (none, s)
    | (some w, s) => more w n (free [v] s)

inductive Op
  /-- `malloc_full`, `calloc_full`, `malloc_default`, `str_memdup_ex`, ... on scope `i`. -/
  | memory (i : Nat)
  /-- `raii_deferred` on scope `i`. -/
  | deferral (i : Nat)
  /-- `args_for`: a pack whose values need more room `n` times. -/
  | pack (n : Nat)
  /-- `get_args`, the first time, of the pack of blocks `p` and `v`, which become the scope's. -/
  | get (i p v : Nat)
  /-- `unique_init`. -/
  | scope
  /-- `unique_init_arena`. -/
  | arena
  /-- The beginning of `guard`. -/
  | guard
  /-- Its end: `include/raii.h:549-560`, `src/raii.c:533-547`. -/
  | unguarded
  /-- `thrd_scope`. -/
  | pool
  /-- `thrd_async`. -/
  | async
  /-- `thrd_spawn` on the pool of scope `i`, with `cpus` processors. -/
  | spawn (i cpus : Nat)
  /-- The caller frees a block it holds: `thrd_get`, the end of a thread. -/
  | done (b : Nat)
  /-- `raii_deferred_free`. -/
  | release (i : Nat)
  /-- `raii_delete`, after `thrd_destroy` for that of a pool. -/
  | delete (i : Nat)

/-- `src/raii.c:395-428`, `436-443`, `20-26`: the deferrals run, and the protector and the array are freed; but only once. -/
def release (i : Nat) (s : St) : St :=
  let c := s.at i
  if c.spent then s
  else (free (c.array ++ (c.entries.flatten ++ c.protector)) s).put i { c with array := [], entries := [], protector := [], spent := true }

/-- `src/future.c:226-229`: the arrays of the pool grow by one place for each processor. -/
def grow (i cpus : Nat) (s : St) : Bool × St :=
  if (s.at i).threads % cpus = 0 then
    match ask ok .spawn .tables s with
    | (none, s) => (false, s)
    | (some a, s) =>
      let c := s.at i
      let s := (free (c.tables.take 1) s).put i { c with tables := a :: c.tables.drop 1 }
      match ask ok .spawn .tables s with
      | (none, s) => (false, s)
      | (some b, s) =>
        let c := s.at i
        (true, (free (c.tables.drop 1) s).put i { c with tables := c.tables.take 1 ++ [b] })
  else (true, s)

/-- `src/future.c:231-240`, and `90-106` for `thrd_async`: promise (`13-21`, of the thread's scope), future, argument, thread.  The future and the
argument. -/
def launch (k : Kind) (s : St) : Option (Nat × Nat) × St :=
  match mallocFull ok k .block .protector .array 0 s with
  | (none, s) => (none, s)
  | (some _, s) =>
    match ask ok k .future s with
    | (none, s) => (none, s)
    | (some f, s) =>
      match ask ok k .argument s with
      | (none, s) => (none, s)
      | (some g, s) =>
        match may ok k .thread s with
        | (false, s) => (none, s)
        | (true, s) => (some (f, g), s)

/-- `src/raii.c:593-671` `raii_args_ex`: the pack is the caller's until `get_args`. -/
def pack (n : Nat) (s : St) : Out × St :=
  match ask ok .pack .params s with
  | (none, s) => (.panic, s)
  | (some p, s) =>
    match ask ok .pack .values s with
    | (none, s) => (.panic, s)
    | (some v, s) =>
      match more ok v n s with
      | (none, s) => (.panic, s)
      | (some v, s) => (.ok, s.keep [p, v])

/-- `src/raii.c:212-218` with `src/arena.c:17-28`.  `raii_delete` does not free the arena: it is the caller's, to be freed by
`free_arena` (`294-308`). -/
def arena (s : St) : Out × St :=
  match ask ok .arena .self s with
  | (none, s) => (.panic, s)
  | (some b, s) =>
    match ask ok .arena .arena s with
    | (none, s) => (.panic, s)
    | (some a, s) => (.ok, (s.add { Scope.empty with own := [b] }).keep [a])

/-- `include/raii.h:531-545`: the handler for exceptions is `guard_set` (`src/raii.c:524-531`) before the scope is there, so that it writes to what
the arena was. -/
def guard (s : St) : Out × St :=
  match ask ok .guard .self s with
  | (none, s) => (if s.arena = .guard then .panic else .undefined, s)
  | (some b, s) => (.ok, { s.add { Scope.empty with own := [b] } with guards := (s.scopes.length, s.arena) :: s.guards, arena := .guard })

/-- `src/future.c:203-219`. -/
def pool (s : St) : Out × St :=
  match ask ok .pool .self s with
  | (none, s) => (.panic, s)
  | (some b, s) =>
    match ask ok .pool .block s with
    | (none, s) => (.panic, s)
    | (some q, s) =>
      match ask ok .pool .protector s with
      | (none, s) => (.panic, s)
      | (some p, s) =>
        match ask ok .pool .array s with
        | (none, s) => (.ok, { s.add { Scope.empty with own := [b], protector := [p] } with arena := .pool })
        | (some a, s) => (.ok, { s.add { Scope.empty with own := [b], array := [a], entries := [[q]], protector := [p] } with arena := .pool })

/-- `src/future.c:221-251`. -/
def spawn (i cpus : Nat) (s : St) : Out × St :=
  match grow ok i cpus s with
  | (false, s) => (.panic, s)
  | (true, s) =>
    match launch ok .spawn s with
    | (none, s) => (.panic, s)
    | (some (f, g), s) =>
      match mallocFull ok .spawn .result .resultProtector .resultArray i (s.keep [g]) with
      | (none, s) => (.panic, s)
      | (some _, s) => (.ok, (s.put i { s.at i with threads := (s.at i).threads + 1 }).keep [f])

/-- `src/raii.c:276-293`, and `src/future.c:295-306` for the scope of a pool. -/
def delete (i : Nat) (s : St) : St :=
  let s := release i s
  (free ((s.at i).own ++ (s.at i).tables) s).put i { s.at i with own := [], tables := [] }

/-- One call. -/
def exec (o : Op) (s : St) : Out × St :=
  match o with
  | .memory i =>
    if i < s.scopes.length then
      match mallocFull ok .memory .block .protector .array i s with
      | (none, s) => (.panic, s)
      | (some _, s) => (.ok, s)
    else (.ok, s)
  | .deferral i => (.ok, if i < s.scopes.length then defer ok .deferral .array i [] s else s)
  | .pack n => pack ok n s
  -- `src/raii.c:565-577`
  | .get i p v =>
    (.ok, if i < s.scopes.length ∧ p ∈ s.kept ∧ v ∈ s.kept ∧ p ≠ v then defer ok .get .array i [p, v] (s.drop [p, v]) else s)
  | .scope =>
    match ask ok .scope .self s with
    | (none, s) => (.panic, s)
    | (some b, s) => (.ok, s.add { Scope.empty with own := [b] })
  | .arena => arena ok s
  | .guard => guard ok s
  | .unguarded =>
    match s.guards with
    | [] => (.ok, s)
    | (i, a) :: gs => (.ok, { delete i s with guards := gs, arena := a })
  | .pool => pool ok s
  | .async =>
    match launch ok .async s with
    | (none, s) => (.panic, s)
    | (some (f, g), s) => (.ok, s.keep [f, g])
  | .spawn i cpus => if i < s.scopes.length then spawn ok i cpus s else (.ok, s)
  | .done b => (.ok, if b ∈ s.kept then free [b] (s.drop [b]) else s)
  | .release i => (.ok, release i s)
  | .delete i => (.ok, delete i s)

/-- A program that catches every exception and goes on, until something is undefined: how each call ended, and the state. -/
def run : List Op → St → List Out × St
  | [], s => ([], s)
  | o :: os, s =>
    match exec ok o s with
    | (.undefined, s) => ([.undefined], s)
    | (r, s) => (r :: (run os s).1, (run os s).2)

/-- A thread with its scope, which is not allocated. -/
def start : St := ⟨0, 0, [], [.empty], [], .nothing, [], []⟩

end Verif.Oo
