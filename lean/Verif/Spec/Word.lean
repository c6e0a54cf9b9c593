import Verif.Model.Word
namespace Verif.Wv.Spec

/-- Machines there are. -/
def Mach.Real (m : Mach) : Prop := m.ptr = 4 ∨ m.ptr = 8

/-- Types of C: `char`, `short`, `int`, `long`, `long long` and their like. -/
def Ty.Real (t : Ty) : Prop := t.width = 1 ∨ t.width = 2 ∨ t.width = 4 ∨ t.width = 8

/-- The values of a type. -/
def Ty.Has (t : Ty) (x : Int) : Prop :=
  if t.signed then -256 ^ t.width ≤ 2 * x ∧ 2 * x < 256 ^ t.width else 0 ≤ x ∧ x < 256 ^ t.width

/-- At the start of `mem` the machine keeps the value `x` of type `t`: two's complement, in its byte order. -/
def Holds (m : Mach) (t : Ty) (x : Int) (mem : List UInt8) : Prop := ∃ rest, mem = enc m t.width (x % 256 ^ t.width).toNat ++ rest

end Verif.Wv.Spec
