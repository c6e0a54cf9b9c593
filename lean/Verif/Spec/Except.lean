import Verif.Model.Except
/-!
# What `try` / `catch` / `finally` mean

Exceptions as values: no contexts, no jumps.
-/
namespace Verif.Ex

/-- How a statement ends. -/
inductive Res
  | done
  | thrown (e : Exn)
  | returned
  deriving DecidableEq, Repr

mutual
/-- The observable actions of a statement and how it ends.  `pend` is the exception being handled. -/
def eval (pend : Option Exn) : Stmt → List Nat × Res
  | .skip => ([], .done)
  | .mark n => ([n], .done)
  | .seq a b =>
    match eval pend a with
    | (t, .done) => (t ++ (eval pend b).1, (eval pend b).2)
    | r => r
  | .throw e => ([], .thrown e)
  | .rethrow => ([], match pend with | some e => .thrown e | none => .done)
  | .ret => ([], .returned)
  | .call s =>
    match eval none s with
    | (t, .returned) => (t, .done)
    | r => r
  | .assign _ _ => ([], .done)
  | .protect _ _ _ => ([], .done)
  | .unprotect _ => ([], .done)
  | .tryCatch body hs =>
    match eval none body with
    | (t, .thrown e) => (t ++ (evalH e hs).1, (evalH e hs).2)
    | r => r
  | .tryFinally body hs fin =>
    let r := match eval none body with
      | (t, .thrown e) => (t ++ (evalH e hs).1, (evalH e hs).2)
      | r => r
    (r.1 ++ (eval none fin).1, match (eval none fin).2 with | .done => r.2 | x => x)
/-- The first handler that accepts `e` handles it; if none does, `e` goes on. -/
def evalH (e : Exn) : Handlers → List Nat × Res
  | .nil => ([], .thrown e)
  | .cons p s rest => if p = .any ∨ p = .name e.name then eval (some e) s else evalH e rest
end

mutual
/-- Programs as the macros require them: `rethrow` only in a handler (`h`), and no `return` out of
a `try` block. `r` says whether `return` is allowed here. -/
def Stmt.wf (h r : Bool) : Stmt → Bool
  | .seq a b => a.wf h r && b.wf h r
  | .rethrow => h
  | .ret => r
  | .call s => s.wf false true
  | .tryCatch body hs => body.wf false false && hs.wf
  | .tryFinally body hs fin => body.wf false false && hs.wf && fin.wf false false
  | _ => true
def Handlers.wf : Handlers → Bool
  | .nil => true
  | .cons _ s rest => s.wf true false && rest.wf
end

/-- The user's actions in a history. -/
def marks (t : List Ev) : List Nat :=
  t.filterMap fun | .mark n => some n | _ => none

/-- A thread that can throw: its current handler exists and is not in the middle of unwinding. -/
def St.ready (st : St) : Prop := st.cur < st.fresh ∧ (st.ctxs st.cur).unstack = false

/-- Release functions do not throw, and the compiler has thread-local storage (for builds without see C85). -/
def World.calm (w : World) : Prop := (∀ f x, w.relThrows f x = false) ∧ w.emulated = false

/-- `o` is what code started in `st` does that ends with `r`: falls through, returns, or throws `e` at
the handler that was current in `st` (terminating the process if that is the thread's root). -/
def Ends (st : St) (o : Out) : Res → Prop
  | .done => o = .ok o.st
  | .returned => o = .ret o.st
  | .thrown e => (o.st.ctxs st.cur).exn = e ∧
      o = if st.cur = 0 then .dead e o.st else .jump st.cur ((st.ctxs st.cur).state ||| 1) o.st

/-- Does the handler accept an exception of this name? -/
def Pat.accepts (p : Pat) (e : Exn) : Prop := p = .any ∨ p = .name e.name

/-- The handlers of a block, as a list. -/
def Handlers.ofList : List (Pat × Stmt) → Handlers
  | [] => .nil
  | (p, s) :: rest => .cons p s (.ofList rest)

mutual
/-- The actions occurring in a program text. -/
def Stmt.acts : Stmt → List Nat
  | .mark n => [n]
  | .seq a b => a.acts ++ b.acts
  | .call s => s.acts
  | .tryCatch body hs => body.acts ++ hs.acts
  | .tryFinally body hs fin => body.acts ++ hs.acts ++ fin.acts
  | _ => []
def Handlers.acts : Handlers → List Nat
  | .nil => []
  | .cons _ s rest => s.acts ++ rest.acts
end

/-- What user code does with protected pointers. -/
inductive POp
  | protect (p v f : Nat)
  | unprotect (p : Nat)
  | assign (v x : Nat)

def POp.stmt : POp → Stmt
  | .protect p v f => .protect p v f
  | .unprotect p => .unprotect p
  | .assign v x => .assign v x

def progOf : List POp → Stmt → Stmt
  | [], s => s
  | o :: os, s => .seq o.stmt (progOf os s)

/-- The pointers protected, newest first, as (name, variable, release function), and the variables. -/
structure Prot where
  live : List (Nat × Nat × Nat)
  vars : Nat → Nat

def POp.step (a : Prot) : POp → Prot
  | .protect p v f => { a with live := (p, v, f) :: a.live }
  | .unprotect p => { a with live := a.live.filter (fun q => q.1 ≠ p) }
  | .assign v x => { a with vars := fun u => if u = v then x else a.vars u }

def Prot.run (a : Prot) (os : List POp) : Prot := os.foldl POp.step a

/-- Legal use: no name protected twice, only protected names unprotected. -/
def POp.legal (a : Prot) : POp → Prop
  | .protect p _ _ => p ∉ a.live.map Prod.fst
  | .unprotect p => p ∈ a.live.map Prod.fst
  | .assign _ _ => True

/-- Unprotecting only the newest. -/
def POp.lifo (a : Prot) : POp → Prop
  | .protect p _ _ => p ∉ a.live.map Prod.fst
  | .unprotect p => (a.live.map Prod.fst).head? = some p
  | .assign _ _ => True

def Legal (ok : Prot → POp → Prop) : Prot → List POp → Prop
  | _, [] => True
  | a, o :: os => ok a o ∧ Legal ok (o.step a) os

/-- The release calls due: newest first, NULL pointers left out. -/
def Prot.releases (a : Prot) : List Ev :=
  a.live.filterMap fun q => if a.vars q.2.1 = 0 then none else some (.released q.2.2 (a.vars q.2.1))

end Verif.Ex
