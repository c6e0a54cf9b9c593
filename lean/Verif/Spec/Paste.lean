import Verif.Model.Paste
/-!
# Operands of macros

What is expected of a macro that looks like a function: the operand is evaluated, and its value is converted to the type of the parameter.
-/
namespace Verif.Paste.Spec
open Verif.Paste

/-- The number a function with a parameter of type `t` gets. -/
def meant (t : Ty) (e : Expr) (v : Nat → Ty × Int) : Option Int := (e.eval v).map (conv t)

/-- The values of an integer type. -/
def Fits (t : Ty) (n : Int) : Prop := if t.signed then -2 ^ (t.w - 1) ≤ n ∧ n < 2 ^ (t.w - 1) else 0 ≤ n ∧ n < 2 ^ t.w

/-- The operators outside the first operand are `+`, `-`, `*`, `&`, `|` and `^`, and none of them calculates in an unsigned type of less than `w` bits. -/
def Modular (w : Nat) (v : Nat → Ty × Int) : Expr → Prop
  | .bin op l r => op ≠ .div ∧ ((usual (l.ty v) (r.ty v)).signed = true ∨ w ≤ (usual (l.ty v) (r.ty v)).w) ∧ Modular w v l
  | .lt _ _ | .land _ _ | .cond _ _ _ => False
  | _ => True

/-- The terms added up. -/
def total : List (Bool × Int) → Int
  | [] => 0
  | (true, n) :: r => n + total r
  | (false, n) :: r => -n + total r

end Verif.Paste.Spec
