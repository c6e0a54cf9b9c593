/-!
# Throwing while scoped memory is in use

`malloc_full`/`calloc_full` register every block twice: as a deferral of the scope, and - through
`ex_protect_ptr` - in the list of protected pointers of the current exception context.  This file
models the two lists together: contexts, records (`ex_ptr_t`), scopes, `protected`/`unprotected`,
releasing a scope, throwing.  Several threads: `Verif.Model.ThrowThreads`.

POSIX build, native thread-local storage, one thread, no guard (so `exception_setup_func` and
`exception_unwind_func` are NULL).  Simplifications: memory is a map from addresses to words; a release
function does nothing but be called (the call is recorded), in particular it does not throw; growing a
scope's array and allocating never fail (`Verif.Model.Scope` has the failures); catching is left to
`Verif.Model.Except`: after a throw the context thrown to is still the current one, as in a handler.
-/
namespace Verif.Tm

/-- Names of records: the local variable made by `protected`, or one made for a scope (which thread made it, and its how many-th). -/
inductive Rid
  | user (r : Nat)
  | prot (k : Nat × Nat)
  deriving DecidableEq, Repr

/-- `include/exception.h:420-426` `ex_ptr_t`; `armed` is `type == ex_protected_st`, `target` is `ptr`,
the address whose content is to be released. -/
structure Rec where
  next : Option Rid
  func : Nat
  target : Nat
  armed : Bool
  deriving DecidableEq, Repr

/-- `include/raii.h` `memory_t`, the fields used.  `ok` is `is_type(&scope->defer, RAII_DEF_ARR)`,
`entries` the deferrals, newest first, `err` is `!is_empty(scope->err)`. -/
structure Scope where
  ok : Bool
  entries : List (Nat × Nat)
  protector : Option Rid
  isProtected : Bool
  err : Bool
  deriving DecidableEq, Repr

/-- `include/exception.h:388-428` `ex_context_t`, the fields used. -/
structure Ctx where
  isRaii : Bool
  stack : Option Rid
  deriving DecidableEq, Repr

/-- State of the thread.  `outer` are the enclosing contexts, innermost first; the last of
`cur :: outer` is the thread's root context.  Scope 0 is the thread's.  A record that was given back to
the allocator is `none`. -/
structure St where
  cur : Ctx
  outer : List Ctx
  scopes : Nat → Option Scope
  recs : Rid → Option Rec
  /-- The thread's number, and how many records it has made for scopes: the name of the next. -/
  fresh : Nat × Nat
  mem : Nat → Nat
  /-- Calls of release functions. -/
  trace : List (Nat × Nat)
  /-- The thread has ended. -/
  over : Bool

/-- A new scope: `raii_init`, `unique_init` (`src/raii.c:103-113`, `200-210`). -/
def newScope : Scope := ⟨true, [], none, false, false⟩

def St.setScope (st : St) (s : Nat) (x : Option Scope) : St :=
  { st with scopes := fun t => if t = s then x else st.scopes t }

def St.setRec (st : St) (r : Rid) (x : Option Rec) : St :=
  { st with recs := fun t => if t = r then x else st.recs t }

def St.setMem (st : St) (a x : Nat) : St :=
  { st with mem := fun t => if t = a then x else st.mem t }

def St.setStack (st : St) (p : Option Rid) : St := { st with cur := { st.cur with stack := p } }

/-- `src/raii.c:103-129` `raii_init`: on the first call the current context becomes the one that knows
the thread's scope. -/
def raiiInit (st : St) : St :=
  match st.scopes 0 with
  | some _ => st
  | none => { st.setScope 0 (some newScope) with cur := { st.cur with isRaii := true } }

/-- `src/except.c:89-97` `ex_protect_ptr`. -/
def protectPtr (st : St) (r : Rid) (target func : Nat) : St :=
  (st.setRec r (some ⟨st.cur.stack, func, target, true⟩)).setStack (some r)

/-- `src/except.c:99-104` `ex_unprotected_ptr`.  Reading a freed record is undefined. -/
def unprotectedPtr (st : St) (r : Rid) : Option St :=
  match st.recs r with
  | none => none
  | some rec =>
    if rec.armed then some ((st.setRec r (some { rec with armed := false })).setStack rec.next) else some st

/-- `src/raii.c:223-224`, `251-252`: the scope's protector, made on first use. -/
def protectorOf (st : St) (sc : Scope) : Rid := sc.protector.getD (.prot st.fresh)

/-- `src/raii.c:220-231` `malloc_full`, `248-259` `calloc_full` (`zero`), with `b` the block the
allocator answered.  The block's own address is passed as the address of the pointer to protect. -/
def allocFull (st : St) (s b func : Nat) (zero : Bool) : Option St :=
  match st.scopes s with
  | none => none
  | some sc =>
    let r := protectorOf st sc
    let st := if zero then st.setMem b 0 else st
    let st := protectPtr st r b func
    some { st.setScope s (some { sc with protector := some r, isProtected := true,
                                         entries := (func, b) :: sc.entries }) with fresh := (st.fresh.1, st.fresh.2 + 1) }

/-- `src/raii.c:394-425` `raii_deferred_run(scope, 0)`, the deferrals. -/
def runEntries (st : St) (sc : Scope) : St := { st with trace := st.trace ++ sc.entries }

/-- `src/raii.c:410-416`: the protector's own release, when nothing was deferred. -/
def runProtector (st : St) (sc : Scope) : Option St :=
  match sc.protector with
  | none => some st
  | some r =>
    if sc.isProtected = true ∧ sc.err = true ∧ sc.entries = [] then
      match st.recs r with
      | none => none
      | some rec => some (({ st with trace := st.trace ++ [(rec.func, st.mem rec.target)] }).setMem rec.target 0)
    else some st

/-- `src/raii.c:418-424`: the protector is unprotected and freed. -/
def dropProtector (st : St) (sc : Scope) : Option St :=
  match sc.protector with
  | none => some st
  | some r => (unprotectedPtr st r).map (·.setRec r none)

/-- `src/raii.c:436-443` `raii_deferred_free`. -/
def deferredFree (st : St) (s : Nat) : Option St :=
  match st.scopes s with
  | none => none
  | some sc =>
    if sc.ok then
      (runProtector (runEntries st sc) sc).bind fun st =>
      (dropProtector st sc).map fun st =>
        st.setScope s (some { sc with ok := false, entries := [], protector := none,
                                      isProtected := sc.isProtected && !(sc.protector.isSome && sc.err) })
    else some st

/-- `src/raii.c:276-292` `raii_delete`: any scope but the thread's is freed too. -/
def delete (st : St) (s : Nat) : Option St :=
  (deferredFree st s).map fun st => if s = 0 then st else st.setScope s none

/-- `src/except.c:117-129`, the loop of `ex_unwind_stack`: `p` the record, `temp` the value before.
Outer `none`: undefined; inner `none`: rounds used up. -/
def walk (st : St) : Nat → Option Rid → Nat → Option (Option St)
  | _, none, _ => some (some st)
  | 0, some _, _ => some none
  | n + 1, some r, temp =>
    match st.recs r with
    | none => none
    | some rec =>
      if rec.armed then
        let v := st.mem rec.target
        if temp = v then some (some st)
        else if v = 0 then walk st n rec.next v
        else walk { st.setRec r (some { rec with armed := false }) with trace := st.trace ++ [(rec.func, v)] } n rec.next v
      else some (some st)

/-- `src/raii.c:91-97` `raii_unwind_set`. -/
def unwindSet (st : St) : St × Bool :=
  let st := raiiInit st
  match st.scopes 0 with
  | none => (st, false)
  | some sc => (st.setScope 0 (some { sc with err := true }), sc.isProtected)

/-- `src/except.c:398-402`: the flag `is_unwind`. -/
def throwSet (st : St) : St × Bool := if st.cur.isRaii then unwindSet st else (st, false)

/-- `src/except.c:106-133` `ex_unwind_stack`. -/
def unwindStack (n : Nat) (st : St) (isUnwind : Bool) : Option (Option St) :=
  (if isUnwind then (deferredFree st 0).map some else walk st n st.cur.stack 0).map
    (Option.map (·.setStack none))

/-- `exit` with `raii_destroy` registered by `raii_init` (`src/raii.c:125`). -/
def atExit (st : St) : Option St :=
  match st.scopes 0 with
  | none => some { st with over := true }
  | some _ => (delete st 0).map ({ · with over := true })

/-- `src/except.c:404-409`, `355-378`: in the root context the process ends, after releasing the
thread's scope if the context knows it. -/
def terminate (st : St) : Option St :=
  if st.outer = [] then (if st.cur.isRaii then delete st 0 else some st).bind atExit else some st

/-- `src/except.c:380-415` `ex_throw`. -/
def throw (n : Nat) (st : St) : Option (Option St) :=
  match unwindStack n (throwSet st).1 (throwSet st).2 with
  | none => none
  | some none => some none
  | some (some st) => (terminate st).map some

/-- What the user's thread does. -/
inductive Op
  /-- Enters a `try` block, whose context has `junk` in its uninitialised field `is_raii`. -/
  | enter (junk : Bool)
  /-- Reaches the end of the block. -/
  | leave
  /-- `raii_init()`. -/
  | init
  /-- `unique_init()` answers scope `s`. -/
  | scope (s : Nat)
  /-- `malloc_full`, `calloc_full`; the allocator answers `b`. -/
  | alloc (s b f : Nat) (zero : Bool)
  /-- Stores the word `x` at `a`: a variable or (the first word of) a block. -/
  | store (a x : Nat)
  /-- `protected(v, f)` with `v` the variable at `a`; `r` names the local record. -/
  | protect (r a f : Nat)
  /-- `unprotected(v)`. -/
  | unprotect (r : Nat)
  /-- `raii_delete(s)`. -/
  | delete (s : Nat)
  | throw
  /-- The thread ends: `raii_destroy`. -/
  | finish
  deriving DecidableEq, Repr

/-- One operation.  `include/exception.h:323-338` (`ex_try`), `352-362` (`ex_end_try`), `447`
(`protected`), `450` (`unprotected`). -/
def step (n : Nat) (st : St) : Op → Option (Option St)
  | .enter junk => some (some { st with cur := ⟨junk, none⟩, outer := st.cur :: st.outer })
  | .leave => match st.outer with
    | [] => none
    | c :: cs => some (some { st with cur := c, outer := cs })
  | .init => some (some (raiiInit st))
  | .scope s => some (some (st.setScope s (some newScope)))
  | .alloc s b f zero => (allocFull st s b f zero).map some
  | .store a x => some (some (st.setMem a x))
  | .protect r a f => some (some (protectPtr st (.user r) a f))
  | .unprotect r => match st.recs (.user r) with
    | none => none
    | some rec => some (some (st.setStack rec.next))
  | .delete s => (delete st s).map some
  | .throw => throw n st
  | .finish => (atExit st).map some

/-- A history. -/
def run (n : Nat) (st : St) : List Op → Option (Option St)
  | [] => some (some st)
  | o :: os => match step n st o with
    | some (some st) => run n st os
    | r => r

/-- Thread `t` at its start: nothing set up; memory holds whatever it holds. -/
def start (mem : Nat → Nat) (t : Nat := 0) : St := ⟨⟨false, none⟩, [], fun _ => none, fun _ => none, (t, 0), mem, [], false⟩

end Verif.Tm
