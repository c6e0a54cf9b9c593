import Verif.Model.CasWin
/-!
# What compare-and-swap is
-/
namespace Verif.Cw

variable {w : Nat}

/-- If the object at `a` holds what the variable at `expected` does, the object is set to `desired` and nothing else is changed, and the result is true;
otherwise the variable is set to what the object holds and nothing else is changed, and the result is false. -/
def CasRight (m : Mem w) (a expected desired : BitVec w) (r : Mem w × Bool) : Prop :=
  (m a = m expected → r.2 = true ∧ r.1 a = desired ∧ ∀ p, p ≠ a → r.1 p = m p) ∧
  (m a ≠ m expected → r.2 = false ∧ r.1 expected = m a ∧ ∀ p, p ≠ expected → r.1 p = m p)

/-- What the object holds after `n` changes. -/
def after (f : BitVec w → BitVec w) (x : BitVec w) : Nat → BitVec w
  | 0 => x
  | n + 1 => f (after f x n)

/-- Loops performed one after the other, by the threads named: what each finds, with the thread. -/
def turns (f : BitVec w → BitVec w) (x : BitVec w) : List Nat → List (Nat × BitVec w)
  | [] => []
  | i :: is => (i, x) :: turns f (f x) is

/-- What thread `i` found, the latest first. -/
def found (i : Nat) (h : List (Nat × BitVec w)) : List (BitVec w) := ((h.filter (·.1 == i)).map (·.2)).reverse

end Verif.Cw
