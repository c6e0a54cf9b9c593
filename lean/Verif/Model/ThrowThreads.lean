import Verif.Model.ThrowMem
/-!
# Throwing while scoped memory is shared by threads

`Verif.Model.ThrowMem` once more, with any number of threads.  Each has its own contexts, list of
protected pointers and scope (`src/except.c:59`, `src/raii.c:3`: thread-local); scopes made
with `unique_init`, the records of protected pointers and memory are common to all, and so is a scope one
thread hands to another: `thrd_spawn` and `thrd_async` give the creator's scope to the new thread
(`src/future.c:93-109`, `220-250`), and `promise_set` and `thrd_returning` allocate from it in the new
thread (`src/future.c:13-36`, `134-142`).

Simplifications: each operation is done in one go (nothing locks a scope or a list of protected pointers -
`promise_set` locks its promise only - so what is found here goes wrong even without races); an uncaught throw ends the process, so
nothing should follow it in a history, but here it only ends the thread.
-/
namespace Verif.Tt
open Verif.Tm (Rid Rec Scope Ctx Op)

/-- What is a thread's own: the part of `Tm.St` that is thread-local.  `made`: how many records the
thread has made for scopes. -/
structure Loc where
  cur : Ctx
  outer : List Ctx
  made : Nat
  trace : List (Nat × Nat)
  over : Bool

/-- The process.  Scope `2 * t` is the scope of thread `t` (`src/raii.c:99-101` `raii_local`), the odd ones
are made by `unique_init` (`src/raii.c:200-210`). -/
structure St where
  loc : Nat → Loc
  scopes : Nat → Option Scope
  recs : Rid → Option Rec
  mem : Nat → Nat

/-- The scope thread `t` calls `s`: 0 is its own. -/
def look (t s : Nat) : Nat := if s = 0 then 2 * t else if s = 2 * t then 0 else s

/-- The operation, as thread `t` calls the scopes. -/
def turn (t : Nat) : Op → Op
  | .scope s => .scope (look t s)
  | .alloc s b f z => .alloc (look t s) b f z
  | .delete s => .delete (look t s)
  | o => o

/-- What thread `t` sees. -/
def view (st : St) (t : Nat) : Tm.St :=
  ⟨(st.loc t).cur, (st.loc t).outer, fun s => st.scopes (look t s), st.recs, (t, (st.loc t).made), st.mem, (st.loc t).trace,
    (st.loc t).over⟩

/-- What thread `t` sees has become `v`. -/
def put (st : St) (t : Nat) (v : Tm.St) : St :=
  ⟨fun u => if u = t then ⟨v.cur, v.outer, v.fresh.2, v.trace, v.over⟩ else st.loc u, fun s => v.scopes (look t s), v.recs, v.mem⟩

/-- The scope of a thread is part of its thread-local storage: it is gone when the thread is. -/
def gone (v : Tm.St) : Tm.St := if v.over then v.setScope 0 none else v

/-- Thread `t` does `o`; undefined after its end. -/
def step (n : Nat) (st : St) (t : Nat) (o : Op) : Option (Option St) :=
  if (st.loc t).over then none else (Tm.step n (view st t) (turn t o)).map (Option.map fun v => put st t (gone v))

/-- A history: who does what, in order. -/
def run (n : Nat) (st : St) : List (Nat × Op) → Option (Option St)
  | [] => some (some st)
  | (t, o) :: os => match step n st t o with
    | some (some st) => run n st os
    | r => r

/-- At the start nothing is set up, for any thread. -/
def start (mem : Nat → Nat) : St := ⟨fun _ => ⟨⟨false, none⟩, [], 0, [], false⟩, fun _ => none, fun _ => none, mem⟩

end Verif.Tt
