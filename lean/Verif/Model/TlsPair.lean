/-!
# The scope and the exception context of a thread, where thread-local storage is emulated

The library has two thread-local variables: `raii`, the thread's scope (`src/raii.c:3`), and `except`, its exception context
(`src/except.c:59`).  Built with `emulate_tls` (`include/cthread.h:10-45`: tcc, `USE_EMULATED_TLS`, compilers without thread-local storage),
each has a key, made when the variable's function is first called, and 0 until then (`include/cthread.h:459-460`).  `raii_local` and
`ex_local` ask for the object under the key without calling that function (`src/raii.c:99-101`, `src/except.c:318-320`).

Keys are counted from 0, as glibc does.  Threads are numbers.  Nothing fails for want of memory or keys.
-/
namespace Verif.Et

/-- Objects a key may hold: a scope, the root context of a thread (blocks of the heap), the context of a `try` block (on the stack), or what
is not the library's. -/
inductive Obj
  | scope (n : Nat)
  | ctx (n : Nat)
  | frame (n : Nat)
  | foreign (n : Nat)
  deriving DecidableEq, Repr

/-- `keys`: how many keys exist; `slot t k`: what thread `t` stored under key `k`; `outer t`: `ex_err.next` of the blocks thread `t` is in;
`fresh`: how many objects were made. -/
structure St where
  keys : Nat
  slot : Nat → Nat → Option Obj
  raiiMade : Bool
  exMade : Bool
  raiiKey : Nat
  exKey : Nat
  outer : Nat → List Obj
  fresh : Nat

/-- `tss_get`: NULL for a key that does not exist. -/
def St.get (s : St) (t k : Nat) : Option Obj := if k < s.keys then s.slot t k else none

/-- `tss_set`. -/
def St.set (s : St) (t k : Nat) (o : Obj) : St :=
  { s with slot := fun t' k' => if t' = t ∧ k' = k then some o else s.slot t' k' }

/-- `raii_local()`, `src/raii.c:99-101`; `thrd_local_return`, `include/cthread.h:423`. -/
def St.raiiLocal (s : St) (t : Nat) : Option Obj := s.get t s.raiiKey

/-- `ex_local()`, `src/except.c:318-320`. -/
def St.exLocal (s : St) (t : Nat) : Option Obj := s.get t s.exKey

/-- `except()`, `include/cthread.h:424-447`. -/
def St.except (s : St) (t : Nat) : St × Obj :=
  let s := if s.exMade then s else { s with exMade := true, exKey := s.keys, keys := s.keys + 1 }
  match s.get t s.exKey with
  | some o => (s, o)
  | none => ({ s with fresh := s.fresh + 1 }.set t s.exKey (.ctx s.fresh), .ctx s.fresh)

/-- `ex_init()`, `src/except.c:331-348`, what it returns. -/
def St.exInit (s : St) (t : Nat) : St × Obj :=
  match s.exLocal t with
  | some o => (s, o)
  | none => s.except t

/-- `raii()`, `include/cthread.h:424-447`. -/
def St.raii (s : St) (t : Nat) : St × Obj :=
  let s := if s.raiiMade then s else { s with raiiMade := true, raiiKey := s.keys, keys := s.keys + 1 }
  match s.get t s.raiiKey with
  | some o => (s, o)
  | none => ({ s with fresh := s.fresh + 1 }.set t s.raiiKey (.scope s.fresh), .scope s.fresh)

/-- `raii_init()`, `src/raii.c:103-128`, what it returns; a new scope is noted in the thread's context, `ex_init()`. -/
def St.raiiInit (s : St) (t : Nat) : St × Obj :=
  match s.raiiLocal t with
  | some o => (s, o)
  | none => (((s.raii t).1.exInit t).1, (s.raii t).2)

/-- What a thread does: use its scope (`raii_init`), use its context (`ex_init`), enter and leave a `try` block. -/
inductive Op
  | scope
  | context
  | enter
  | leave
  deriving DecidableEq, Repr

/-- `src/except.c:322-329` `ex_update`, `include/exception.h:302-308` `ex_try`, `341-346` `ex_end_try`.  The result is the object obtained. -/
def St.step (s : St) (t : Nat) : Op → St × Option Obj
  | .scope => ((s.raiiInit t).1, some (s.raiiInit t).2)
  | .context => ((s.exInit t).1, some (s.exInit t).2)
  | .enter =>
    let r := s.exInit t
    ({ r.1 with fresh := r.1.fresh + 1, outer := fun u => if u = t then r.2 :: r.1.outer t else r.1.outer u }.set t r.1.exKey (.frame r.1.fresh), some r.2)
  | .leave => match s.outer t with
    | [] => (s, none)
    | o :: os => ({ s with outer := fun u => if u = t then os else s.outer u }.set t s.exKey o, none)

/-- A history: the objects obtained, in order, and the state. -/
def St.run (s : St) : List (Nat × Op) → St × List (Nat × Op × Option Obj)
  | [] => (s, [])
  | (t, o) :: h => (((s.step t o).1.run h).1, (t, o, (s.step t o).2) :: ((s.step t o).1.run h).2)

/-- Before the library is used: `keys` keys exist already, which hold `held`. -/
def start (keys : Nat) (held : Nat → Nat → Option Nat) : St :=
  ⟨keys, fun t k => if k < keys then (held t k).map .foreign else none, false, false, 0, 0, fun _ => [], 0⟩

end Verif.Et
