import Verif.Model.Except
/-!
# Guarded sections: `guard` … `guarded`, `_defer`, `_malloc`, `_recover`, `_panic`, `_return`, `break`

POSIX build, one thread (several threads: `Verif.Model.GuardThreads`).  Contexts and jumps as in
`Verif.Model.Except`.  Each section has one scope and one context; both carry the same number.

Simplifications.  The deferral array is the list it represents, newest first (`Verif.Model.Scope`
models the array itself; C20 and C21 are about it), and memory does not run out.  A deferred function
performs an observable action and may call `_recover` and then `_panic`; releasing a block of `_malloc`
is a deferred function that does neither.  The thread's own scope holds no memory, so a throw outside
any guarded section releases nothing.  The handlers of `try` blocks are `catch_any`.
-/
namespace Verif.Gd
open Verif.Ex (Exn)

/-- What a deferred function does: an action, `_recover(m)` (`include/raii.h:499`), `_panic`. -/
structure D where
  id : Nat
  recovers : Option Nat
  throws : Option Exn
  deriving DecidableEq

/-- User programs. -/
inductive Stmt
  | skip
  | mark (n : Nat)
  | seq (a b : Stmt)
  /-- `_panic(message)`, `throw(E)`. -/
  | throw (e : Exn)
  /-- Call of a function with this body. -/
  | call (s : Stmt)
  /-- `try { body } catch_any { h } end_try`. -/
  | tryAny (body h : Stmt)
  /-- `guard body guarded`. -/
  | guard (body : Stmt)
  /-- `_defer(f, x)`. -/
  | defer (d : D)
  /-- `_malloc(size)`, `_calloc`: the block `p`. -/
  | malloc (p : Nat)
  /-- `break` out of the guarded section. -/
  | brk
  /-- `_return(value)`. -/
  | greturn

/-- What can be observed: a user action, a deferred function being called (or a block freed). -/
inductive Ev
  | mark (n : Nat)
  | ran (id : Nat)
  deriving DecidableEq, Repr

/-- `ex_context_t`, the fields used. -/
structure Ctx where
  next : Nat
  state : Nat
  exn : Exn
  unstack : Bool

/-- `memory_t` of a guarded section.  `active`: the array has the type `RAII_DEF_ARR`. -/
structure Sc where
  defers : List D
  active : Bool
  isProt : Bool
  err : Option Exn

/-- State of the thread.  `arena` is `raii_local()->arena`; `guardOn` says whether
`exception_setup_func` and `exception_unwind_func` are those of guarded sections (or NULL). -/
structure St where
  ctxs : Nat → Ctx
  scopes : Nat → Sc
  arena : Option Nat
  guardOn : Bool
  cur : Nat
  fresh : Nat
  trace : List Ev

/-- Result of running code. -/
inductive Out
  | ok (st : St)
  | brk (st : St)
  | ret (st : St)
  | jump (j v : Nat) (st : St)
  | dead (e : Exn) (st : St)
  /-- NULL was dereferenced. -/
  | wild (st : St)
  | running (st : St)

def Out.andThen (o : Out) (k : St → Out) : Out :=
  match o with
  | .ok st => k st
  | o => o

def Out.st : Out → St
  | .ok st | .brk st | .ret st | .jump _ _ st | .dead _ st | .wild st | .running st => st

def St.setCtx (st : St) (c : Nat) (x : Ctx) : St :=
  { st with ctxs := fun d => if d = c then x else st.ctxs d }

def St.setSc (st : St) (a : Nat) (x : Sc) : St :=
  { st with scopes := fun d => if d = a then x else st.scopes d }

def St.log (st : St) (e : Ev) : St := { st with trace := st.trace ++ [e] }

/-- The string an exception is compared by: the message if there is one, else the name
(`src/raii.c:499`). -/
def key (e : Exn) : Nat := e.message.getD e.name

/-- `src/raii.c:498-504` `raii_is_caught(raii_local()->arena, m)`.  `eq` is `is_str_eq` (`src/raii.c:742`). -/
def isCaught (eq : Nat → Nat → Bool) (m : Nat) (st : St) : Out :=
  match st.arena with
  | none => .wild st
  | some a =>
    match (st.scopes a).err with
    | none => .ok st
    | some e =>
      if eq m (key e) then .ok (st.setCtx st.cur { st.ctxs st.cur with state := 2 }) else .ok st

/-- The deferred function's action and its `_recover`. -/
def perform (eq : Nat → Nat → Bool) (d : D) (st : St) : Out :=
  match d.recovers with
  | some m => isCaught eq m (st.log (.ran d.id))
  | none => .ok (st.log (.ran d.id))

/-- The loop of `raii_deferred_run` (`src/raii.c:403-412`); `thr` is what a throw does. -/
def runList (eq : Nat → Nat → Bool) (thr : Exn → St → Out) : List D → St → Out
  | [], st => .ok st
  | d :: ds, st =>
    (perform eq d st).andThen fun st =>
    match d.throws with
    | some e => thr e st
    | none => runList eq thr ds st

/-- `src/raii.c:436-443` `raii_deferred_free`, `src/raii.c:395-428` `raii_deferred_run`.  The array is
emptied only after every function returned. -/
def deferredFree (eq : Nat → Nat → Bool) (thr : Exn → St → Out) (a : Nat) (st : St) : Out :=
  if (st.scopes a).active then
    (runList eq thr (st.scopes a).defers st).andThen fun st =>
      let sc := st.scopes a
      .ok (st.setSc a { sc with defers := [], active := false,
                                isProt := sc.isProt && !sc.err.isSome })
  else .ok st

/-- A throw while unwinding: `src/except.c:382-383`. -/
def throwIn (_ : Exn) (st : St) : Out := .dead (st.ctxs st.cur).exn st

/-- `src/raii.c:524-531` `guard_set`, and `src/except.c:106-133` `ex_unwind_stack` with
`raii_deferred_free` as `exception_unwind_func`; nothing outside guarded sections. -/
def unwind (eq : Nat → Nat → Bool) (e : Exn) (st : St) : Out :=
  let c := st.cur
  match st.guardOn, st.arena with
  | false, _ => .ok st
  | true, none => .wild st
  | true, some a =>
    let st := st.setSc a { st.scopes a with err := some e }
    if (st.scopes a).isProt then
      (deferredFree eq throwIn a (st.setCtx c { st.ctxs c with unstack := true })).andThen fun st =>
        .ok (st.setCtx c { st.ctxs c with unstack := false })
    else .ok st

/-- `src/except.c:379-415` `ex_throw`. -/
def throwE (eq : Nat → Nat → Bool) (e : Exn) (st : St) : Out :=
  let c := st.cur
  if (st.ctxs c).unstack then .dead (st.ctxs c).exn st
  else
    (unwind eq e (st.setCtx c { st.ctxs c with exn := e })).andThen fun st =>
      if c = 0 then .dead e st else .jump c ((st.ctxs c).state ||| 1) st

/-- `include/exception.h:341-349` `ex_end_try`. -/
def endTry (eq : Nat → Nat → Bool) (id : Nat) (st : St) : Out :=
  let st := if st.cur = id then { st with cur := (st.ctxs id).next } else st
  if (st.ctxs id).state &&& 1 ≠ 0 then throwE eq (st.ctxs id).exn st else .ok st

/-- Everything of a block after its body, run again on every jump to its own context. -/
def region (id : Nat) (rest : St → Out) : Nat → Out → Out
  | 0, o => match o with
    | .jump j v st => if j = id then .running st else .jump j v st
    | o => o
  | n + 1, o => match o with
    | .jump j v st =>
      if j = id then region id rest n (rest (st.setCtx id { st.ctxs id with state := v })) else .jump j v st
    | o => o

/-- What `guard` remembers in local variables: the arena pointer and the function pointers. -/
structure Frame where
  id : Nat
  arena : Option Nat
  guardOn : Bool

/-- `src/raii.c:533-539` `guard_reset`. -/
def guardReset (fr : Frame) (st : St) : St := { st with arena := fr.arena, guardOn := fr.guardOn }

/-- `include/exception.h:297-312` `ex_try` up to the body. -/
def enterTry (st : St) : St :=
  let x : Ctx := { next := st.cur, state := 0, exn := ⟨0, 0, 0, 0, none⟩, unstack := false }
  { (st.setCtx st.fresh x) with cur := st.fresh, fresh := st.fresh + 1 }

/-- `include/raii.h:529-542` `guard` up to the body, with `unique_init` (`src/raii.c:200-210`). -/
def enterGuard (st : St) : St :=
  { (enterTry (st.setSc st.fresh { defers := [], active := true, isProt := false, err := none })) with
    arena := some st.fresh, guardOn := true }

/-- `include/raii.h:562-571` `guarded` from `ex_catch_if` on. -/
def guardRest (eq : Nat → Nat → Bool) (fr : Frame) (st : St) : Out :=
  (if (st.ctxs fr.id).state = 1 then deferredFree eq (throwE eq) fr.id st else .ok st).andThen fun st =>
  endTry eq fr.id (guardReset fr { st with cur := (st.ctxs fr.id).next })

/-- Run a statement; `fr` is the innermost guarded section of the function. -/
def exec (eq : Nat → Nat → Bool) (passes : Nat) (fr : Frame) : Stmt → St → Out
  | .skip, st => .ok st
  | .mark n, st => .ok (st.log (.mark n))
  | .seq a b, st => (exec eq passes fr a st).andThen (exec eq passes fr b)
  | .throw e, st => throwE eq e st
  | .call s, st =>
    match exec eq passes ⟨0, none, false⟩ s st with
    | .ret st => .ok st
    | o => o
  | .tryAny body h, st =>
    let id := st.fresh
    let rest := fun st =>
      (if (st.ctxs id).state = 1 then
        exec eq passes fr h (st.setCtx id { st.ctxs id with state := 2 })
       else .ok st).andThen (endTry eq id)
    region id rest passes ((exec eq passes fr body (enterTry st)).andThen rest)
  | .guard body, st =>
    let g : Frame := ⟨st.fresh, st.arena, st.guardOn⟩
    let body : Out := match exec eq passes g body (enterGuard st) with
      | .brk st => .ok st
      | o => o
    let body := body.andThen (deferredFree eq (throwE eq) g.id)
    region g.id (guardRest eq g) passes (body.andThen (guardRest eq g))
  | .defer d, st => .ok (st.setSc fr.id { st.scopes fr.id with defers := d :: (st.scopes fr.id).defers })
  | .malloc p, st =>
    -- `src/raii.c:220-231` `malloc_full(scope, size, RAII_FREE)`
    let sc := st.scopes fr.id
    .ok (st.setSc fr.id { sc with defers := ⟨p, none, none⟩ :: sc.defers, isProt := true })
  | .brk, st => .brk st
  | .greturn, st =>
    -- `include/raii.h:518-524` `_return`
    (deferredFree eq (throwE eq) fr.id st).andThen fun st =>
      let st := guardReset fr st
      .ret { st with cur := (st.ctxs fr.id).next }

/-- A thread outside any guarded section. -/
def start : St :=
  { ctxs := fun _ => ⟨0, 0, ⟨0, 0, 0, 0, none⟩, false⟩
    scopes := fun _ => ⟨[], false, false, none⟩
    arena := none, guardOn := false, cur := 0, fresh := 1, trace := [] }

end Verif.Gd
