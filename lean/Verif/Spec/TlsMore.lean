import Verif.Model.TlsMore
import Verif.Spec.Tls
/-!
# What a thread-local variable that is set to another object is

Histories are given latest first.
-/
namespace Verif.Tu
open Verif.Tl (Res)

abbrev History := List (Nat × Op)

/-- The object of the program's own that thread `t`'s variable `v` is; none if it has its own. -/
def refers (t v : Nat) : History → Option Nat
  | [] => none
  | (t', .update v' o) :: h => if t' = t ∧ v' = v then some o else refers t v h
  | (t', .del v') :: h => if t' = t ∧ v' = v then none else refers t v h
  | _ :: h => refers t v h

/-- Has the thread an object for `v`: has it used `v`, or set it, and not deleted it since? -/
def has (t v : Nat) : History → Bool
  | [] => false
  | (t', .write v' _) :: h => (t' == t && v' == v) || has t v h
  | (t', .read v') :: h => (t' == t && v' == v) || has t v h
  | (t', .update v' _) :: h => (t' == t && v' == v) || has t v h
  | (t', .del v') :: h => if t' = t ∧ v' = v then false else has t v h
  | _ :: h => has t v h

/-- What is in the object of the program's own. -/
def extVal (o : Nat) : History → Nat
  | [] => 0
  | (_, .poke o' x) :: h => if o' = o then x else extVal o h
  | (t, .write v x) :: h => if refers t v h = some o then x else extVal o h
  | _ :: h => extVal o h

/-- What is in the thread's own object; if `new`, then `var_del` ends it and the next one is new and holds 0. -/
def ownVal (new : Bool) (t v : Nat) : History → Nat
  | [] => 0
  | (t', .write v' x) :: h => if t' = t ∧ v' = v ∧ refers t v h = none then x else ownVal new t v h
  | (t', .del v') :: h => if t' = t ∧ v' = v ∧ new = true then 0 else ownVal new t v h
  | _ :: h => ownVal new t v h

/-- What `*var()` is. -/
def value (new : Bool) (t v : Nat) (h : History) : Nat :=
  match refers t v h with
  | some o => extVal o h
  | none => ownVal new t v h

/-- What thread `t` is to observe after the history `h`. -/
def expected (new : Bool) (h : History) (t : Nat) : Op → Res
  | .read v => .val (value new t v h)
  | .isEmpty v => .bool (!has t v h)
  | .peek o => .val (extVal o h)
  | _ => .done

def expectedAll (new : Bool) (past : History) : History → List Res
  | [] => []
  | (t, op) :: h => expected new past t op :: expectedAll new ((t, op) :: past) h

/-- Since `var_del` the thread has not written to its own object again. -/
def stale (t v : Nat) : History → Bool
  | [] => false
  | (t', .write v' _) :: h => if t' = t ∧ v' = v ∧ refers t v h = none then false else stale t v h
  | (t', .del v') :: h => (t' == t && v' == v) || stale t v h
  | _ :: h => stale t v h

/-- A history in which no thread, after `var_del`, reads its own object before it writes to it. -/
def fresh (past : History) : History → Prop
  | [] => True
  | (t, op) :: h => (match op with
      | .read v => stale t v past = true → (refers t v past).isSome = true
      | _ => True) ∧ fresh ((t, op) :: past) h

/-! ## Emulated: `var_update` makes a copy -/

/-- What the program put into its object. -/
def pokeVal (o : Nat) : History → Nat
  | [] => 0
  | (_, .poke o' x) :: h => if o' = o then x else pokeVal o h
  | _ :: h => pokeVal o h

/-- The history with a write of what the object holds for each `var_update`, and without the program's own objects. -/
def copies : History → List (Nat × Tl.Op)
  | [] => []
  | (t, .write v x) :: h => (t, .write v x) :: copies h
  | (t, .read v) :: h => (t, .read v) :: copies h
  | (t, .isEmpty v) :: h => (t, .isEmpty v) :: copies h
  | (t, .update v o) :: h => (t, .write v (pokeVal o h)) :: copies h
  | _ :: h => copies h

/-- What is observed if `var_update` copies: what C61 says of the writes, and of the program's own objects what it put there. -/
def expectedC (h : History) (t : Nat) : Op → Res
  | .read v => Tl.expected (copies h) t (.read v)
  | .isEmpty v => Tl.expected (copies h) t (.isEmpty v)
  | .peek o => .val (pokeVal o h)
  | _ => .done

def expectedCopy (past : History) : History → List Res
  | [] => []
  | (t, op) :: h => expectedC past t op :: expectedCopy ((t, op) :: past) h

/-- As in C61: no thread reads what it has not written, none asks whether a variable is empty that no thread has used. -/
def careful (past : History) : History → Prop
  | [] => True
  | (t, op) :: h => (match op with
      | .read v => (Tl.lastWrite t v (copies past)).isSome
      | .isEmpty v => Tl.everUsed v (copies past)
      | _ => true) = true ∧ careful ((t, op) :: past) h

end Verif.Tu
