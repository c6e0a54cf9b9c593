import Verif.Model.SigAsync
/-!
# What a program may expect of signals that arrive at any moment

Traces are newest first.
-/
namespace Verif.Sa

/-- Signal `s` has arrived and was not raised since. -/
def owed (s : Nat) : List Ev → Bool
  | [] => false
  | .arrived t :: r => t == s || owed s r
  | .raised t :: r => t != s && owed s r
  | _ :: r => owed s r

/-- The exception that was thrown, or raised by a signal, and not caught yet. -/
def inFlight (name : Nat → Nat) : List Ev → Option Nat
  | [] => none
  | .thrown e :: _ => some e
  | .raised s :: _ => some (name s)
  | .caught _ :: _ => none
  | _ :: r => inFlight name r

/-- The exceptions that gave way to another before they were caught. -/
def lost (name : Nat → Nat) : List Ev → List Nat
  | [] => []
  | .thrown _ :: r => (inFlight name r).toList ++ lost name r
  | .raised _ :: r => (inFlight name r).toList ++ lost name r
  | _ :: r => lost name r

/-- Something was caught that was not in flight. -/
def wrong (name : Nat → Nat) : List Ev → Bool
  | [] => false
  | .caught e :: r => inFlight name r != some e || wrong name r
  | _ :: r => wrong name r

/-- The program threw while an exception was in flight. -/
def clash (name : Nat → Nat) : List Ev → Bool
  | [] => false
  | .thrown _ :: r => (inFlight name r).isSome || clash name r
  | _ :: r => clash name r

/-- The program's actions ran with the mask `m`. -/
def Masked (m : Nat → Bool) (tr : List Ev) : Prop := ∀ n m', Ev.act n m' ∈ tr → m' = m

/-- What is expected of a whole program that started with mask `m`: nothing undefined; its actions run with the mask `m`, and so
does what follows; every signal that is not in `m` was raised; what is caught is what was thrown; no exception is lost, and none is left - if
one is, it ends the program. -/
def Fine (name : Nat → Nat) (m : Nat → Bool) : Out → Prop
  | .ok st => Masked m st.trace ∧ st.mask = m ∧ (∀ s, m s = false → owed s st.trace = false) ∧ wrong name st.trace = false ∧
      lost name st.trace = [] ∧ inFlight name st.trace = none
  | .dead e st => Masked m st.trace ∧ wrong name st.trace = false ∧ lost name st.trace = [] ∧ inFlight name st.trace = some e
  | .jump _ _ _ | .wild _ => False
  | .running _ => True

/-- Signals arrive one at a time, and only in the program's own code. -/
structure Quiet (w : World) : Prop where
  place : ∀ p t, p ≠ .user → w.arrivals p t = []
  single : ∀ t, (w.arrivals .user t).length ≤ 1

end Verif.Sa
