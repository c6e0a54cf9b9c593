import Verif.Model.Cpus
namespace Verif.Cp.Spec

/-- Machines there are: at least one processor; what a call may return. -/
def Real : Machine → Prop
  | .windows p => 1 ≤ p ∧ p < 2 ^ 32
  | .linux ids allowed junk => 1 ≤ allowed ∧ allowed ≤ ids ∧ ids < 2 ^ 32 ∧ junk ≤ 1024
  | .other r => r = -1 ∨ 1 ≤ r ∧ r < 2 ^ 32

/-- The number of processors this thread may use, if the system tells. -/
def usable : Machine → Option Nat
  | .windows p => some p
  | .linux _ allowed _ => some allowed
  | .other r => if r = -1 then none else some r.toNat

/-- A call that returned or threw, and did nothing else. -/
def Sound (o : Out) : Prop := o = .ok ∨ o = .panic

/-- The calls that returned. -/
def returned (os : List Out) : Nat := os.countP (· = .ok)

/-- The least multiple of `c` that is `n` or more. -/
def up (n c : Nat) : Nat := (n + c - 1) / c * c

end Verif.Cp.Spec
