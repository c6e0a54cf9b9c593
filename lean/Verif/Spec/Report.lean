import Verif.Model.Report
/-!
# What an uncaught exception should say
-/
namespace Verif.Rp.Spec
open Verif.Rp

/-- The string an exception is told by, as it reads when the exception is thrown: the message of a panic, else the name. -/
def told (s : St) (w : What) : Option Text := w.str.bind (readStr s)

/-- The report the program should end with; `during`: a release function threw while an exception was being unwound. -/
def report (debug during : Bool) (t : Text) (w : What) : Report :=
  if debug then ⟨some during, t, w.function, some (w.file, w.line)⟩ else ⟨none, t, w.function, none⟩

/-- Unwinding releases protected pointers until a release function throws: the newest first, NULL pointers passed over. -/
def during (throws : Nat → Bool) (s : St) : Bool := !(s.raii && s.prot) && s.stack.any fun v => v.any throws

/-- The blocks the library releases before the report: those of the protected pointers up to one whose release function throws (unless the scope holds memory), and the memory of the scope if it was not released before. -/
def released (throws : Nat → Bool) (s : St) : List Nat :=
  (if s.raii && s.prot then [] else (s.stack.filterMap id).takeWhile fun b => !throws b) ++ (if s.raii && s.armed then s.owned else [])

/-- Going on after a pointer of value `t`, none equals the one protected after it. -/
def changingFrom : Option Nat → List (Option Nat) → Prop
  | _, [] => True
  | t, v :: vs => t ≠ v ∧ changingFrom v vs

/-- The newest protected pointer is not NULL, and none equals the next. -/
def changing (l : List (Option Nat)) : Prop := changingFrom none l

/-- No try block of the history met a protected NULL pointer first, or two equal pointers in a row. -/
def careful (h : List Op) : Prop := ∀ l, Op.caught l ∈ h → changing l

end Verif.Rp.Spec
