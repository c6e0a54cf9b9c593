import Verif.Model.Guard
/-!
# Guarded sections in several threads

`exception_setup_func` and `exception_unwind_func` are variables of the process (`src/except.c:66-67`), each
section saves them on entry and puts them back when left.  The rest of a section's state is local to its
thread.

Simplifications: entering, leaving and panicking are single steps (the two variables are always written
together, `on` says whether they are those of guarded sections or NULL); deferred functions do not
panic; sections contain no `try` blocks.  An uncaught panic ends the process; what a history says
after that is not meant to happen.
-/
namespace Verif.Gd
open Verif.Ex (Exn)

/-- A section a thread is in: what it saved on entry, its deferrals (newest first), whether it holds memory. -/
structure Sec where
  saved : Bool
  defers : List D
  mem : Bool

/-- The process. -/
structure Sys where
  on : Bool
  th : Nat → List Sec
  obs : List (Nat × List Nat × Option Bool)

/-- What a thread does next. -/
inductive Op
  | enter (t : Nat)
  | exit (t : Nat)
  | defer (t : Nat) (d : D)
  | malloc (t : Nat) (p : Nat)
  | panic (t : Nat) (e : Exn)

def Op.tid : Op → Nat
  | .enter t | .exit t | .defer t _ | .malloc t _ | .panic t _ => t

/-- `_recover` in the deferred functions of a section, during a panic that found the variables set
(`src/raii.c:524-531`: only then the scope knows the exception; `src/raii.c:498-504`) or not.  A section
holding memory has run them before its handler is entered, and goes on panicking. -/
def stops (eq : Nat → Nat → Bool) (on : Bool) (e : Exn) (s : Sec) : Bool :=
  on && !s.mem && s.defers.any fun d => d.recovers.any fun m => eq m (key e)

/-- A panic (`src/except.c:379-415` `ex_throw`, then `include/raii.h:562-571` `guarded` of each section): the
functions run, how it ends (`some true` recovered, `some false` uncaught, `none` NULL dereferenced by
`guard_set`, `src/raii.c:525-526`), the variables and the sections left. -/
def panicRun (eq : Nat → Nat → Bool) (e : Exn) : Bool → List Sec → (List Nat × Option Bool) × Bool × List Sec
  | on, [] => (([], if on then none else some false), on, [])
  | on, s :: rest =>
    if stops eq on e s then ((s.defers.map D.id, some true), s.saved, rest)
    else
      let r := panicRun eq e s.saved rest
      ((s.defers.map D.id ++ r.1.1, r.1.2), r.2)

def Sys.set (y : Sys) (t : Nat) (l : List Sec) : Sys := { y with th := fun u => if u = t then l else y.th u }

/-- One step of a thread. -/
def step (eq : Nat → Nat → Bool) (y : Sys) : Op → Sys
  | .enter t => { y.set t (⟨y.on, [], false⟩ :: y.th t) with on := true }  -- `include/raii.h:529-542`
  | .exit t =>  -- `include/raii.h:562-571`
    match y.th t with
    | [] => y
    | s :: rest => { y.set t rest with on := s.saved, obs := y.obs ++ [(t, s.defers.map D.id, some true)] }
  | .defer t d =>
    match y.th t with
    | [] => y
    | s :: rest => y.set t ({ s with defers := d :: s.defers } :: rest)
  | .malloc t p =>
    match y.th t with
    | [] => y
    | s :: rest => y.set t ({ s with defers := ⟨p, none, none⟩ :: s.defers, mem := true } :: rest)
  | .panic t e =>
    let r := panicRun eq e y.on (y.th t)
    { y.set t r.2.2 with on := r.2.1, obs := y.obs ++ [(t, r.1)] }

/-- A whole history. -/
def runSys (eq : Nat → Nat → Bool) (y : Sys) (h : List Op) : Sys := h.foldl (step eq) y

/-- No thread in a section. -/
def idle : Sys := ⟨false, fun _ => [], []⟩

end Verif.Gd
