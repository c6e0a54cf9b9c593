import Verif.Model.ThrowMem
/-!
# What throwing should do to scoped memory: nothing

Every block is handed to its release function when its scope is released, whatever was thrown in
between; throwing releases the pointers protected in the current block, and nothing else.
-/
namespace Verif.Tm

/-- `frame`: the pointers protected in the current block, newest first (record, variable, function);
`outer`: those of the enclosing blocks; `scopes`: the blocks of each scope, newest first. -/
structure A where
  frame : List (Nat × Nat × Nat)
  outer : List (List (Nat × Nat × Nat))
  scopes : Nat → Option (List (Nat × Nat))
  mem : Nat → Nat
  out : List (Nat × Nat)
  over : Bool

def A.start (mem : Nat → Nat) : A := ⟨[], [], fun _ => none, mem, [], false⟩

/-- The releases a throw owes: the protected pointers, newest first. -/
def A.owed (x : A) : List (Nat × Nat) := x.frame.map fun p => (p.2.2, x.mem p.2.1)

/-- The blocks of scope `s`. -/
def A.blocks (x : A) (s : Nat) : List (Nat × Nat) := (x.scopes s).getD []

def A.set (x : A) (s : Nat) (l : Option (List (Nat × Nat))) : A :=
  { x with scopes := fun t => if t = s then l else x.scopes t }

/-- The end of the thread: its scope is released. -/
def A.finish (x : A) : A := { x with out := x.out ++ x.blocks 0, over := true }

def A.step (x : A) : Op → A
  | .enter _ => { x with frame := [], outer := x.frame :: x.outer }
  | .leave => { x with frame := x.outer.headD [], outer := x.outer.tail }
  | .init => if (x.scopes 0).isSome then x else x.set 0 (some [])
  | .scope s => x.set s (some [])
  | .alloc s b f zero =>
    { x.set s (some ((f, b) :: x.blocks s)) with
      mem := fun t => if zero = true ∧ t = b then 0 else x.mem t }
  | .store a v => { x with mem := fun t => if t = a then v else x.mem t }
  | .protect r a f => { x with frame := (r, a, f) :: x.frame }
  | .unprotect _ => { x with frame := x.frame.tail }
  | .delete s => { x.set s none with out := x.out ++ x.blocks s }
  | .throw =>
    let y := { x with out := x.out ++ x.owed, frame := [] }
    if x.outer = [] then y.finish else y
  | .finish => x.finish

def A.run (x : A) : List Op → A
  | [] => x
  | o :: os => (x.step o).run os

/-- Neighbouring values differ, and none is NULL (what C31 needs). -/
def Apart : Nat → List Nat → Prop
  | _, [] => True
  | t, v :: vs => v ≠ 0 ∧ v ≠ t ∧ Apart v vs

/-- Is the operation used as documented?  Records are unprotected newest first and the values of the
protected pointers suit C31, so that only what concerns scoped memory is left. -/
def A.legal (x : A) : Op → Prop
  | .enter _ => True
  | .leave => x.outer ≠ []
  | .init => True
  | .scope s => s ≠ 0 ∧ x.scopes s = none
  | .alloc s b _ _ => x.scopes s ≠ none ∧ b ≠ 0
  | .store _ _ => True
  | .protect r _ _ => ∀ fr ∈ x.frame :: x.outer, ∀ p ∈ fr, p.1 ≠ r
  | .unprotect r => ∃ a f rest, x.frame = (r, a, f) :: rest
  | .delete s => s ≠ 0 ∧ x.scopes s ≠ none
  | .throw => Apart 0 (x.frame.map fun p => x.mem p.2.1)
  | .finish => True

/-- A legal history. -/
def A.Legal (x : A) : List Op → Prop
  | [] => True
  | o :: os => x.over = false ∧ x.legal o ∧ (x.step o).Legal os

/-- Does the operation use scoped memory in a way that matters to the current block: allocating from a
scope, or releasing one? -/
def Op.touches : Op → Bool
  | .alloc .. | .delete .. => true
  | _ => false

/-- What must hold for one operation to go well.  `d` says whether scoped memory was allocated or a scope
released in the current block.  The thread's scope is set up outside every block, the uninitialised flag
of contexts happens to be clear, and nothing is thrown in a block that touched scoped memory; outside
every block only if no pointer is protected there and, once scoped memory was touched there, the thread's
scope owns a block. -/
def A.tame (x : A) (d : Bool) : Op → Prop
  | .enter junk => junk = false
  | .init => x.outer = [] ∨ x.scopes 0 ≠ none
  | .throw => if x.outer = [] then x.frame = [] ∧ (d = false ∨ x.blocks 0 ≠ []) else d = false
  | _ => True

/-- Whether scoped memory was touched: in the current block, then in the enclosing ones. -/
def flags (d : Bool) (ds : List Bool) : Op → List Bool
  | .enter _ => false :: d :: ds
  | .leave => ds
  | o => (d || o.touches) :: ds

/-- The histories that go well. -/
def A.Tame (x : A) : List Bool → List Op → Prop
  | _, [] => True
  | [], _ => False
  | d :: ds, o :: os => x.tame d o ∧ (x.step o).Tame (flags d ds o) os

end Verif.Tm
