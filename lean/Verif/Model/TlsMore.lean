import Verif.Model.Tls
/-!
# Thread-local variables: another object, and none

The rest of what `thrd_local`, `thrd_static` and their `_plain` forms define (`include/cthread.h:449-548`): `var_update(p)`, `var_del()`.  Besides the
variables there are objects of the program's own, to whose addresses a variable can be set.  What `atexit` and the end of a thread do is not modelled.
-/
namespace Verif.Tu
open Verif.Tl (Res E)

/-- What a thread does. -/
inductive Op
  /-- `*var() = x`. -/
  | write (v x : Nat)
  /-- `*var()`. -/
  | read (v : Nat)
  /-- `is_var_empty()`. -/
  | isEmpty (v : Nat)
  /-- `var_update(&o)`. -/
  | update (v o : Nat)
  /-- `var_del()`. -/
  | del (v : Nat)
  /-- `o = x`, `o`. -/
  | poke (o x : Nat)
  | peek (o : Nat)
  deriving DecidableEq, Repr

/-! ## The compiler's thread-local storage -/

/-- What `thrd_var_tls` points to. -/
inductive Ptr
  | null
  | buffer
  | ext (o : Nat)
  deriving DecidableEq

/-- `include/cthread.h:507-524`. -/
structure N where
  tls : Nat → Nat → Ptr
  buffer : Nat → Nat → Nat
  ext : Nat → Nat

/-- The objects hold 0. -/
def N.start : N := ⟨fun _ _ => .null, fun _ _ => 0, fun _ => 0⟩

def N.point (s : N) (t v : Nat) (p : Ptr) : N := { s with tls := fun t' v' => if t' = t ∧ v' = v then p else s.tls t' v' }

/-- `var()`.  `include/cthread.h:498-505`. -/
def N.get (s : N) (t v : Nat) : N := if s.tls t v = .null then s.point t v .buffer else s

/-- What is at an address. -/
def N.at (s : N) (t v : Nat) : Ptr → Nat
  | .ext o => s.ext o
  | _ => s.buffer t v

/-- It is changed. -/
def N.put (s : N) (t v x : Nat) : Ptr → N
  | .ext o => { s with ext := fun o' => if o' = o then x else s.ext o' }
  | _ => { s with buffer := fun t' v' => if t' = t ∧ v' = v then x else s.buffer t' v' }

def N.step (s : N) (t : Nat) : Op → N × Res
  | .write v x => ((s.get t v).put t v x ((s.get t v).tls t v), .done)
  | .read v => (s.get t v, .val ((s.get t v).at t v ((s.get t v).tls t v)))
  -- `include/cthread.h:515-517`
  | .isEmpty v => (s, .bool (decide (s.tls t v = .null)))
  -- `include/cthread.h:512-514`
  | .update v o => (s.point t v (.ext o), .done)
  -- `include/cthread.h:509-511`: the buffer is left as it is
  | .del v => (s.point t v .null, .done)
  | .poke o x => ({ s with ext := fun o' => if o' = o then x else s.ext o' }, .done)
  | .peek o => (s, .val (s.ext o))

/-! ## Emulated -/

/-- `e`: as in `Model/Tls.lean`; `gone`: `thrd_var_tss` is -1; `dead`: the keys deleted (their numbers are not used again here); `freed`: blocks given
back. -/
structure E2 where
  e : E
  gone : Nat → Bool
  dead : Nat → Bool
  freed : List Nat
  ext : Nat → Nat

def E2.start : E2 := ⟨E.start, fun _ => false, fun _ => false, [], fun _ => 0⟩

/-- `tss_get(thrd_var_tss)`. -/
def E2.tssGet (s : E2) (t v : Nat) : Option Nat :=
  if s.gone v || s.dead (s.e.key v) then none else s.e.tssGet t (s.e.key v)

/-- `var()` without interruption: `include/cthread.h:425-447`.  A key made now is not -1. -/
def E2.get (s : E2) (junk : Nat → Nat) (t v : Nat) : E2 × Option Nat :=
  let r := s.e.get junk t v
  ({ s with e := r.1, gone := fun v' => if v' = v ∧ s.e.made v = false then false else s.gone v' }, r.2)

/-- `include/cthread.h:449-457` `var_del`: the calling thread's object is freed, the key is deleted for all. -/
def E2.del (s : E2) (t v : Nat) : E2 :=
  if s.e.made v then
    { e := { s.e with made := fun v' => if v' = v then false else s.e.made v' }
      gone := fun v' => if v' = v then true else s.gone v'
      dead := fun k => if k = s.e.key v then true else s.dead k
      freed := match s.tssGet t v with
        | some b => b :: s.freed
        | none => s.freed
      ext := s.ext }
  else s

/-- Something is stored through `var()`. -/
def E2.put (junk : Nat → Nat) (s : E2) (t v x : Nat) : E2 × Res :=
  match s.get junk t v with
  | (s, some b) => ({ s with e := { s.e with heap := fun b' => if b' = b then x else s.e.heap b' } }, .done)
  | (s, none) => (s, .crash)

def E2.step (junk : Nat → Nat) (s : E2) (t : Nat) : Op → E2 × Res
  | .write v x => s.put junk t v x
  | .read v => match s.get junk t v with
    | (s, some b) => (s, .val (s.e.heap b))
    | (s, none) => (s, .crash)
  | .isEmpty v => (s, .bool (s.tssGet t v).isNone)
  -- `include/cthread.h:462-464`: `*var() = *value`
  | .update v o => s.put junk t v (s.ext o)
  | .del v => (s.del t v, .done)
  | .poke o x => ({ s with ext := fun o' => if o' = o then x else s.ext o' }, .done)
  | .peek o => (s, .val (s.ext o))

def runWith {S : Type} (step : S → Nat → Op → S × Res) : S → List (Nat × Op) → List Res
  | _, [] => []
  | s, (t, op) :: h => (step s t op).2 :: runWith step (step s t op).1 h

def N.run (h : List (Nat × Op)) : List Res := runWith N.step N.start h
def E2.run (junk : Nat → Nat) (h : List (Nat × Op)) : List Res := runWith (E2.step junk) E2.start h

/-- The state after a history. -/
def E2.after (junk : Nat → Nat) (s : E2) (h : List (Nat × Op)) : E2 := h.foldl (fun s o => (E2.step junk s o.1 o.2).1) s

/-! ## Variables that are no pointers -/

/-- `thrd_local_plain(type, var, initial)` with the compiler's storage, for one thread and one variable: `thrd_var_tls` is of type `type`; `address` is
that of the buffer, converted to `type` (`include/cthread.h:498-505`, `526-529`). -/
def plainGet (initial address tls : Nat) : Nat := if tls = initial then address else tls

inductive POp
  /-- `var()`. -/
  | get
  /-- `var_update(x)`. -/
  | update (x : Nat)
  deriving DecidableEq

/-- What `var()` returns in a history; `tls` is what the variable holds. -/
def plainRun (initial address : Nat) : Nat → List POp → List Nat
  | _, [] => []
  | tls, .get :: h => plainGet initial address tls :: plainRun initial address (plainGet initial address tls) h
  | _, .update x :: h => plainRun initial address x h

end Verif.Tu
