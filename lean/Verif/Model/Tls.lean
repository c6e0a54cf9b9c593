/-!
# Thread-local variables

The macros `thrd_local`, `thrd_static` of `include/cthread.h:423-548` define, for a variable `var`, the functions
`var()` (the calling thread's object), `var_update(p)` and `is_var_empty()`.  Two builds: on top of the compiler's
thread-local storage, and *emulated* on top of `tss_create`/`tss_get` (`emulate_tls`, tcc).  Threads and
variables are numbers; an object holds a number.
-/
namespace Verif.Tl

/-- What a thread does with a variable. -/
inductive Op
  /-- `*var() = x`. -/
  | write (v x : Nat)
  /-- `*var()`. -/
  | read (v : Nat)
  /-- `is_var_empty()`. -/
  | isEmpty (v : Nat)
  deriving DecidableEq, Repr

/-- What it observes. -/
inductive Res
  | done
  | val (x : Nat)
  | bool (b : Bool)
  /-- `var()` returned NULL, or a block that was freed. -/
  | crash
  deriving DecidableEq, Repr

/-! ## The compiler's thread-local storage -/

/-- Per thread and variable: whether `thrd_var_tls` points to `thrd_var_buffer` (it starts as `initial`, NULL), and
the buffer, which starts as 0.  `include/cthread.h:507-518`, `521-524`. -/
structure N where
  tls : Nat → Nat → Bool
  buffer : Nat → Nat → Nat

def N.start : N := ⟨fun _ _ => false, fun _ _ => 0⟩

/-- `var()`.  `include/cthread.h:498-505`.  The registration of `var_del` for the end of the program is not
modelled. -/
def N.get (s : N) (t v : Nat) : N :=
  if s.tls t v then s else { s with tls := fun t' v' => if t' = t ∧ v' = v then true else s.tls t' v' }

def N.step (s : N) (t : Nat) : Op → N × Res
  | .write v x =>
    let s := s.get t v
    ({ s with buffer := fun t' v' => if t' = t ∧ v' = v then x else s.buffer t' v' }, .done)
  | .read v =>
    let s := s.get t v
    (s, .val (s.buffer t v))
  -- `include/cthread.h:515-517`
  | .isEmpty v => (s, .bool (!s.tls t v))

/-! ## Emulated -/

/-- Keys are counted from 0, as glibc does; blocks of the heap likewise. -/
structure E where
  /-- `thrd_var_tls ≠ 0`: the variable was set up. -/
  made : Nat → Bool
  /-- `thrd_var_tss`, 0 to begin with.  `include/cthread.h:459-460`. -/
  key : Nat → Nat
  /-- How many keys exist. -/
  keys : Nat
  /-- What `tss_set` stored, by thread and key. -/
  slot : Nat → Nat → Option Nat
  heap : Nat → Nat
  blocks : Nat

def E.start : E := ⟨fun _ => false, fun _ => 0, 0, fun _ _ => none, fun _ => 0, 0⟩

/-- `tss_get`: NULL for a key that does not exist. -/
def E.tssGet (s : E) (t k : Nat) : Option Nat := if k < s.keys then s.slot t k else none

/-- The first half of the setting up: `thrd_var_tls = sizeof(type)`.  `include/cthread.h:427-428`. -/
def E.mark (s : E) (v : Nat) : E := { s with made := fun v' => if v' = v then true else s.made v' }

/-- The second half: `tss_create`.  `include/cthread.h:429`.  It does not fail here. -/
def E.create (s : E) (v : Nat) : E :=
  { s with key := fun v' => if v' = v then s.keys else s.key v', keys := s.keys + 1 }

/-- The rest of `var()`: `include/cthread.h:434-444`.  `junk` is what `malloc` finds in a block; the result
is the block, or none for NULL (`tss_set` fails for a key that does not exist). -/
def E.fetch (s : E) (junk : Nat → Nat) (t v : Nat) : E × Option Nat :=
  match s.tssGet t (s.key v) with
  | some b => (s, some b)
  | none =>
    let s' := { s with
      blocks := s.blocks + 1
      heap := fun b => if b = s.blocks then junk b else s.heap b }
    if s.key v < s.keys then
      ({ s' with slot := fun t' k => if t' = t ∧ k = s.key v then some s.blocks else s.slot t' k }, some s.blocks)
    else (s', none)

/-- `var()` without interruption.  `include/cthread.h:425-447`. -/
def E.get (s : E) (junk : Nat → Nat) (t v : Nat) : E × Option Nat :=
  (if s.made v then s else (s.mark v).create v).fetch junk t v

def E.step (junk : Nat → Nat) (s : E) (t : Nat) : Op → E × Res
  | .write v x => match s.get junk t v with
    | (s, some b) => ({ s with heap := fun b' => if b' = b then x else s.heap b' }, .done)
    | (s, none) => (s, .crash)
  | .read v => match s.get junk t v with
    | (s, some b) => (s, .val (s.heap b))
    | (s, none) => (s, .crash)
  -- `include/cthread.h:465-467`
  | .isEmpty v => (s, .bool (s.tssGet t (s.key v)).isNone)

/-- What a history of operations observes. -/
def runWith {S : Type} (step : S → Nat → Op → S × Res) : S → List (Nat × Op) → List Res
  | _, [] => []
  | s, (t, op) :: h => (step s t op).2 :: runWith step (step s t op).1 h

def N.run (h : List (Nat × Op)) : List Res := runWith N.step N.start h
def E.run (junk : Nat → Nat) (h : List (Nat × Op)) : List Res := runWith (E.step junk) E.start h

end Verif.Tl
