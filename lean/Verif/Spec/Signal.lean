import Verif.Model.Signal
/-!
# What registering signals means
-/
namespace Verif.Sg

/-- What a program does about signals. -/
inductive Op
  | register (s e : Nat)
  | reset (s : Nat)
  /-- Entering a `try` block or a guarded section. -/
  | enter
  deriving DecidableEq

def step (os : Nat → Bool) (defs : List (Nat × Nat)) (st : St) : Op → St
  | .register s e => register os s e st
  | .reset s => reset os s st
  | .enter => enter os defs st

def run (os : Nat → Bool) (defs : List (Nat × Nat)) (st : St) (h : List Op) : St := h.foldl (step os defs) st

/-- The signals that have a name, with the latest one. -/
abbrev Regs := List (Nat × Nat)

/-- Registering: possible if the system allows it and the signal is known or fewer than 32 are. -/
def Regs.add (os : Nat → Bool) (r : Regs) (s e : Nat) : Regs :=
  if os s ∧ (s ∈ r.map Prod.fst ∨ r.length < 32) then (s, e) :: r.filter (fun p => p.1 ≠ s) else r

/-- The name of a signal. -/
def Regs.name (r : Regs) (s : Nat) : Option Nat := (r.find? fun p => p.1 == s).map Prod.snd

/-- What a user thinks of: names, which signals are exceptions now, and whether the defaults were set. -/
structure View where
  regs : Regs
  on : Nat → Bool
  set : Bool

def View.register (os : Nat → Bool) (v : View) (s e : Nat) : View :=
  if s ∈ v.regs.map Prod.fst ∨ v.regs.length < 32 then
    { regs := v.regs.add os s e, on := fun t => if t = s && os s then true else v.on t, set := true }
  else v

def View.step (os : Nat → Bool) (defs : List (Nat × Nat)) (v : View) : Op → View
  | .register s e => v.register os s e
  | .reset s => { v with on := fun t => if t = s && os s then false else v.on t, set := false }
  | .enter => if v.set then v else defs.foldl (fun v d => v.register os d.1 d.2) v

def View.run (os : Nat → Bool) (defs : List (Nat × Nat)) (v : View) (h : List Op) : View := h.foldl (View.step os defs) v

def View.effect (v : View) (s : Nat) : Effect := if v.on s then .throws (v.regs.name s) else .default

def fresh : View := ⟨[], fun _ => false, false⟩

/-- What an operation says about signal `s`: a name, or that it be reset; registering or resetting a signal the
system does not let the program handle says nothing. -/
def Op.says (os : Nat → Bool) (s : Nat) : Op → Option (Option Nat)
  | .register t e => if t = s ∧ os s = true then some (some e) else none
  | .reset t => if t = s ∧ os s = true then some none else none
  | .enter => none

/-- The last thing the program itself said about signal `s`. -/
def said (os : Nat → Bool) (s : Nat) : List Op → Option (Option Nat)
  | [] => none
  | o :: h => (said os s h).or (o.says os s)

/-- What a signal should do, given what was said about it and what it did before. -/
def told (x : Option (Option Nat)) (before : Effect) : Effect :=
  match x with
  | some (some e) => .throws (some e)
  | some none => .default
  | none => before

/-- The signals a program registers. -/
def Op.sig : Op → List Nat
  | .register s _ => [s]
  | _ => []

end Verif.Sg
