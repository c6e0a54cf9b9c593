/-!
# Exceptions on Windows: the `_WIN32` branch of `include/exception.h:199-287`, `catch_seh`, `catch_filter_seh`

There `throw(E)` is a panic with the name of `E` as message, a try block is a `__try` with one `__except`, and which
handler runs is decided by the filters `catch_seh` and `catch_filter_seh`.

What Windows does: an exception is offered to the filters of the `__try` blocks it was raised in, innermost first, all
blocks still being there; the first that says `EXCEPTION_EXECUTE_HANDLER` gets control in its `__except` block, the
blocks inside are gone; if none does, the process ends.

A program is a tree of statements: this is one thread, without loops (a loop is the sequence of its iterations).  An
`ex_context_t` is a number, never reused; it is there as long as its block; 0 is the context of the thread.

Simplifications: no protected pointers, scopes or setup functions (`ex_unwind_stack` does nothing, `is_raii` and
`is_guarded` are false), no backtrace, no file and line; `finally` blocks do one thing and do not throw; `catch_if`
and `finality` (with it a block is no statement, C97) are left out; the C run-time does not turn faults into signals.
-/
namespace Verif.Seh

abbrev Name := List UInt8

/-- The bytes of a string literal. -/
def str (s : String) : Name := s.toUTF8.toList

/-- `src/raii.c:742-744` `is_str_eq`, by `C02_is_str_eq_exact`. -/
def eqName (s t : Name) : Bool := s.length == 8 || s.isPrefixOf t

/-- `is_str_eq` with NULL on the left. -/
def eqOpt : Option Name → Name → Bool
  | none, _ => false
  | some s, t => eqName s t

/-- `ctx->panic`: NULL, a string, or what was on the stack (`ex_try` does not set it). -/
inductive Msg
  | null
  | str (n : Name)
  | junk
  deriving DecidableEq, Repr

/-- `include/exception.h:140-146`; `both` is `ex_catch_st | ex_throw_st`. -/
inductive State
  | try
  | throw
  | catch
  | both
  deriving DecidableEq, Repr

def State.orThrow : State → State
  | .try | .throw => .throw
  | .catch | .both => .both

def State.thrown : State → Bool
  | .throw | .both => true
  | _ => false

/-- The parts of `ex_context_t` that decide what runs. -/
structure Ctx where
  ex : Option Name
  panic : Msg
  state : State
  rethrown : Bool
  caught : BitVec 32
  next : Nat
  deriving DecidableEq, Repr

/-- A row of `ex_sig`, `src/except.c:80-88`. -/
structure Row where
  ex : Option Name
  seh : BitVec 32
  deriving DecidableEq, Repr

/-- `include/exception.h:128`. -/
def panicCode : BitVec 32 := 0xE0000001

/-- `src/except.c:502-519` `ex_signal_seh`: the first row that is free or has this code; with 32 rows full, nothing. -/
def setRow (code : BitVec 32) (n : Name) : List Row → List Row
  | [] => []
  | r :: rs => if r.ex = none ∨ r.seh = code then ⟨some n, code⟩ :: rs else r :: setRow code n rs

/-- `src/except.c:610-619` the codes and names `ex_signal_setup` installs. -/
def sehRows : List (BitVec 32 × Name) :=
  [(0xC0000005, str "sig_segv"), (0xC000008C, str "array_bounds_exceeded"), (0xC000008E, str "sig_fpe"),
   (0xC0000094, str "divide_by_zero"), (0xC000001D, str "sig_ill"), (0xC0000095, str "int_overflow"),
   (0xC00000FD, str "stack_overflow"), (0xC0000008, str "invalid_handle"), (panicCode, str "panic"),
   (0xC000013A, str "sig_int")]

/-- The table after `ex_signal_seh` (`src/except.c:610-619`), before the signals: rows they install
(`src/except.c:567-605`) have code 0 and come behind these. -/
def table : List Row :=
  sehRows.foldl (fun t p => setRow p.1 p.2 t) (List.replicate 32 ⟨none, 0⟩)

/-- What a filter says. -/
inductive Verdict
  | execute
  | search
  | wild
  deriving DecidableEq, Repr

/-- `is_str_eq(ctx->panic, x)`; `none` is a read through a wild pointer. -/
def eqMsg : Msg → Name → Option Bool
  | .null, _ => some false
  | .str n, x => some (eqName n x)
  | .junk, _ => none

/-- `src/except.c:417-463` `catch_seh`; `got` is `got_signal`. -/
def catchSeh (tab : List Row) (got : Bool) (x : Name) (code : BitVec 32) (c : Ctx) : Verdict × Ctx :=
  if eqOpt c.ex x = false ∧ c.panic = .null then (.execute, c)
  else if c.ex = none ∧ code.msb = true then
    match tab.find? (fun r => r.seh == code) with
    | none => (.execute, { c with panic := .null })
    | some r => (.execute, { c with panic := .null, ex := r.ex, state := .throw, rethrown := true })
  else
    match eqMsg c.panic x with
    | none => (.wild, c)
    | some b =>
      if b = false ∧ eqOpt c.ex x = false then (.execute, c)
      else
        match tab.find? (fun r => r.seh == code || c.caught == r.seh || eqOpt c.ex x) with
        | none => (.search, c)
        | some r => (.execute, { c with state := .throw, rethrown := true
                                        ex := if got || code.msb then r.ex else c.ex })

/-- `src/except.c:465-500` `catch_filter_seh`. -/
def catchFilter (tab : List Row) (code : BitVec 32) (c : Ctx) : Verdict × Ctx :=
  if code = panicCode then (.execute, { c with state := .throw })
  else
    match tab.find? (fun r => r.seh == code || c.caught == r.seh) with
    | none => (.search, c)
    | some r => (.execute, { c with state := .throw, rethrown := true, ex := r.ex, panic := .null })

/-- `catch(X)` or `catch_any`. -/
inductive Catch
  | one (x : Name)
  | any
  deriving DecidableEq, Repr

def Catch.filter (tab : List Row) (got : Bool) : Catch → BitVec 32 → Ctx → Verdict × Ctx
  | .one x, code, c => catchSeh tab got x code c
  | .any, code, c => catchFilter tab code c

inductive Prog
  | skip
  | say (k : Nat)
  /-- `throw(E)`. -/
  | throw (e : Name)
  /-- `raise(sig)`, for which `ex_sig` has the name `n`. -/
  | raise (sig : BitVec 32) (n : Name)
  /-- The processor raises a Windows exception. -/
  | fault (code : BitVec 32)
  | rethrow
  | seq (a b : Prog)
  /-- `try { body } catch(..) { handler } finally { say k } end_try`. -/
  | tryCatch (body : Prog) (c : Catch) (handler : Prog) (k : Nat)
  deriving DecidableEq, Repr

/-- What can be seen.  `caught`: a handler starts, with this `err`. -/
inductive Ev
  | said (k : Nat)
  | caught (err : Msg)
  | fin (k : Nat)
  deriving DecidableEq, Repr

structure S where
  ctxs : Nat → Ctx
  cur : Nat
  fresh : Nat
  got : Bool
  trace : List Ev

inductive Res
  | normal
  /-- A filter is looked for; the contexts that are there. -/
  | raised (code : BitVec 32) (live : List Nat)
  /-- `longjmp` to the `setjmp` of this context. -/
  | jump (i : Nat)
  /-- `ex_terminate`. -/
  | terminated
  | wild
  deriving DecidableEq, Repr

def S.setCtx (s : S) (i : Nat) (c : Ctx) : S := { s with ctxs := fun j => if j = i then c else s.ctxs j }

def S.add (s : S) (e : Ev) : S := { s with trace := s.trace ++ [e] }

/-- `src/except.c:379-415` `ex_throw`. -/
def exThrow (live : List Nat) (s : S) (ex : Option Name) (panic : Msg) : Res × S :=
  if s.cur = 0 then (.terminated, s)
  else if s.cur ∈ live then
    (.raised panicCode live, s.setCtx s.cur { s.ctxs s.cur with ex := ex, panic := panic })
  else (.wild, s)

/-- `EX_MAKE_IF`, `include/exception.h:165-169`. -/
def Ctx.err (c : Ctx) : Msg :=
  match c.panic with
  | .null => match c.ex with
    | none => .null
    | some n => .str n
  | m => m

/-- `ex_finally`, `ex_end_try` and the `rethrow` in it, `include/exception.h:201-208, 245-262`: `caught` and
`is_rethrown` have just been reset, so it is `ex_throw`. -/
def finish (live : List Nat) (i k : Nat) (s : S) : Res × S :=
  let c := s.ctxs i
  let s := { s.add (.fin k) with cur := c.next }
  let s := s.setCtx i { c with caught := -1, rethrown := false }
  if c.state.thrown then exThrow live s c.ex c.panic else (.normal, s)

/-- A program in the try blocks `live`, innermost first.  `junk`: what the fields `panic` and `caught` of a new context
happen to hold. -/
def exec (tab : List Row) (junk : Nat → Msg × BitVec 32) : Prog → List Nat → S → Res × S
  | .skip, _, s => (.normal, s)
  | .say k, _, s => (.normal, s.add (.said k))
  | .throw e, live, s => exThrow live s (some (str "panic")) (.str e)
  | .raise sig n, live, s =>
    if s.cur = 0 ∨ s.cur ∈ live then
      exThrow live { s.setCtx s.cur { s.ctxs s.cur with caught := sig } with got := true } (some n) .null
    else (.wild, s)
  | .fault code, live, s => (.raised code live, s)
  | .rethrow, live, s =>
    match live with
    | [] => (.wild, s)
    | i :: _ =>
      let c := s.ctxs i
      if -1 < c.caught.toInt ∨ c.rethrown = true then (.jump i, s.setCtx i { c with rethrown := false })
      else exThrow live s c.ex c.panic
  | .seq a b, live, s =>
    match exec tab junk a live s with
    | (.normal, s) => exec tab junk b live s
    | r => r
  | .tryCatch body c h k, live, s =>
    let i := s.fresh
    let s := s.setCtx i ⟨none, (junk i).1, .try, false, (junk i).2, s.cur⟩
    match exec tab junk body (i :: live) { s with cur := i, fresh := i + 1 } with
    | (.normal, s) => finish live i k s
    | (.jump j, s) =>
      if j = i then finish live i k (s.setCtx i { s.ctxs i with state := (s.ctxs i).state.orThrow }) else (.jump j, s)
    | (.raised code at', s) =>
      if s.cur = 0 ∨ s.cur ∈ at' then
        let r := c.filter tab s.got code (s.ctxs s.cur)
        let s := s.setCtx s.cur r.2
        match r.1 with
        | .wild => (.wild, s)
        | .search => (.raised code at', s)
        | .execute =>
          if (s.ctxs i).state = .throw then
            let s := (s.setCtx i { s.ctxs i with state := .catch }).add (.caught (s.ctxs i).err)
            match exec tab junk h (i :: live) s with
            | (.normal, s) => finish live i k s
            | (.jump j, s) =>
              if j = i then finish live i k (s.setCtx i { s.ctxs i with state := (s.ctxs i).state.orThrow })
              else (.jump j, s)
            | r => r
          else finish live i k s
      else (.wild, s)
    | r => r

/-- A thread outside all try blocks. -/
def start : S := ⟨fun _ => ⟨none, .null, .try, false, -1, 0⟩, 0, 1, false, []⟩

/-- How a program ends. -/
inductive End
  | done
  | terminated
  | wild
  deriving DecidableEq, Repr

/-- A whole program. -/
def run (junk : Nat → Msg × BitVec 32) (p : Prog) : End × List Ev :=
  match exec table junk p [] start with
  | (.normal, s) => (.done, s.trace)
  | (.terminated, s) => (.terminated, s.trace)
  | (.raised _ _, s) => (.terminated, s.trace)
  | (_, s) => (.wild, s.trace)

end Verif.Seh
