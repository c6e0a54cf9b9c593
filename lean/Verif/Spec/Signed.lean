import Verif.Model.Signed
/-!
# Operations on signed numbers

On integers only.
-/
namespace Verif.Sg.Spec
open Verif.Sg

/-- The numbers of a signed type of `w` bits. -/
def Fits (w : Nat) (n : Int) : Prop := -2 ^ (w - 1) ≤ n ∧ n < 2 ^ (w - 1)

/-- Bit `i` of a number in two's complement, which goes on for ever. -/
def Bit (n : Int) (i : Nat) : Prop := n / 2 ^ i % 2 = 1

/-- The operand has the object's type. -/
def ArgsFit (w : Nat) : SOp → Prop
  | .fetchAdd y | .fetchSub y | .fetchAnd y | .fetchOr y | .fetchXor y | .exchange y | .store y => Fits w y
  | .compareExchange e d => Fits w e ∧ Fits w d
  | _ => True

/-- An operation on an object that holds `x`: `x'` is what it holds afterwards, `r` what is returned, `f` the flag. -/
def Meets (w : Nat) (op : SOp) (x x' r : Int) (f : Bool) : Prop :=
  Fits w x' ∧
  match op with
  | .fetchAdd y => r = x ∧ ∃ k : Int, x' = x + y + k * 2 ^ w
  | .fetchSub y => r = x ∧ ∃ k : Int, x' = x - y + k * 2 ^ w
  | .fetchAnd y => r = x ∧ ∀ i, Bit x' i ↔ Bit x i ∧ Bit y i
  | .fetchOr y => r = x ∧ ∀ i, Bit x' i ↔ Bit x i ∨ Bit y i
  | .fetchXor y => r = x ∧ ∀ i, Bit x' i ↔ (Bit x i ↔ ¬ Bit y i)
  | .exchange y => r = x ∧ x' = y
  | .store y => x' = y
  | .testAndSet => r = x ∧ x' = 1
  | .clear => x' = 0
  | .load => r = x ∧ x' = x
  | .compareExchange e d => (x = e → f = true ∧ x' = d ∧ r = e) ∧ (x ≠ e → f = false ∧ x' = x ∧ r = x)

end Verif.Sg.Spec
