import Verif.Model.Tls
/-!
# What a thread-local variable is

What an operation observes depends on the earlier operations *of the same thread on the same variable* only.
Histories are given latest first.
-/
namespace Verif.Tl

/-- The latest value thread `t` wrote to `v`; `none` if it wrote none. -/
def lastWrite (t v : Nat) : List (Nat × Op) → Option Nat
  | [] => none
  | (t', .write v' x) :: h => if t' = t ∧ v' = v then some x else lastWrite t v h
  | _ :: h => lastWrite t v h

/-- Has thread `t` used `v`? -/
def used (t v : Nat) : List (Nat × Op) → Bool
  | [] => false
  | (t', .write v' _) :: h => (t' == t && v' == v) || used t v h
  | (t', .read v') :: h => (t' == t && v' == v) || used t v h
  | _ :: h => used t v h

/-- Has any thread? -/
def everUsed (v : Nat) : List (Nat × Op) → Bool
  | [] => false
  | (_, .write v' _) :: h => v' == v || everUsed v h
  | (_, .read v') :: h => v' == v || everUsed v h
  | _ :: h => everUsed v h

/-- What thread `t` is to observe, after the history `h`. -/
def expected (h : List (Nat × Op)) (t : Nat) : Op → Res
  | .write _ _ => .done
  | .read v => .val ((lastWrite t v h).getD 0)
  | .isEmpty v => .bool (!used t v h)

/-- What the operations of a history are to observe; `past` is what went before. -/
def expectedAll (past : List (Nat × Op)) : List (Nat × Op) → List Res
  | [] => []
  | (t, op) :: h => expected past t op :: expectedAll ((t, op) :: past) h

/-- A history in which no thread reads what it has not written, and none asks whether a variable is empty that no
thread has used. -/
def careful (past : List (Nat × Op)) : List (Nat × Op) → Prop
  | [] => True
  | (t, op) :: h => (match op with
      | .read v => (lastWrite t v past).isSome
      | .isEmpty v => everUsed v past
      | .write _ _ => true) = true ∧ careful ((t, op) :: past) h

end Verif.Tl
