import Verif.Model.Endian
/-!
Numbers as bytes in memory.
-/
namespace Verif.En.Spec
open Verif.En

/-- The bytes of a number in the memory of a machine (`big`: the high byte first), `k` of them. -/
def memory (big : Bool) (k : Nat) (v : Nat) : List Nat := (List.range k).map fun i => v / 256 ^ (if big then k - 1 - i else i) % 256

/-- A time in microseconds. -/
def micros (t : TV) : Int := t.sec * 1000000 + t.usec

def Normal (t : TV) : Prop := 0 ≤ t.usec ∧ t.usec < 1000000

/-- A `struct timespec`, in nanoseconds. -/
def nanos (t : TV) : Int := t.sec * 1000000000 + t.usec

def NormalNs (t : TV) : Prop := 0 ≤ t.usec ∧ t.usec < 1000000000

end Verif.En.Spec
