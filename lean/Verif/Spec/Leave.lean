import Verif.Model.Leave
/-!
# What a guarded section should return
-/
namespace Verif.Lv

/-- The value is that of the expression where it is written; the deferred functions run afterwards.  An `if` does what an `if` does. -/
def meant (fin : Exp) : List Stmt → St → Result
  | [], s => ⟨fin.eval s, s.defers, []⟩
  | .assign i e :: l, s =>
    match e.eval s with
    | some n => meant fin l { s with vars := fun j => if j = i then n else s.vars j }
    | none => ⟨none, [], s.defers⟩
  | .alloc p n :: l, s => meant fin l { s with blk := fun q => if q = p then some n else s.blk q, defers := .free p :: s.defers }
  | .defer a :: l, s => meant fin l { s with defers := a :: s.defers }
  | .ret e :: _, s => ⟨e.eval s, s.defers, []⟩
  | .ifBlock c e :: l, s | .ifPlain c e :: l, s =>
    match c.eval s with
    | none => ⟨none, [], s.defers⟩
    | some 0 => meant fin l s
    | some _ => ⟨e.eval s, s.defers, []⟩

/-- A deferred function changes nothing the expression reads. -/
def Exp.avoids (e : Exp) (a : Act) : Bool :=
  match e with
  | .const _ => true
  | .var i => match a with | .set j _ => i != j | _ => true
  | .load p => match a with | .poke q _ | .free q => p != q | _ => true
  | .add x y => x.avoids a && y.avoids a

/-- Everything the section defers. -/
def deferred : List Stmt → List Act
  | [] => []
  | .defer a :: l => a :: deferred l
  | .alloc p _ :: l => .free p :: deferred l
  | _ :: l => deferred l

/-- Everything the section may return. -/
def returned : List Stmt → List Exp
  | [] => []
  | .ret e :: l | .ifBlock _ e :: l | .ifPlain _ e :: l => e :: returned l
  | _ :: l => returned l

def Stmt.braced : Stmt → Bool
  | .ifPlain _ _ => false
  | _ => true

/-- Nothing is deferred yet. -/
def fresh (vars : Nat → Nat) (blk : Nat → Option Nat) : St := ⟨vars, blk, []⟩

end Verif.Lv
