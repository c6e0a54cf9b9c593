import Verif.Model.Asm
/-!
# What an atomic operation in assembly language may do
-/
namespace Verif.Xa
variable {W : Nat}

/-- `q` is one of the `n` bytes at `p`. -/
def Inside (p : BitVec W) (n : Nat) (q : BitVec W) : Prop := ∃ k < n, q = p + BitVec.ofNat W k

/-- The two ranges of bytes have none in common. -/
def Apart (p : BitVec W) (n : Nat) (q : BitVec W) (k : Nat) : Prop := ∀ x, Inside p n x → ¬ Inside q k x

/-- Memory outside `P` is as it was. -/
def Elsewhere (P : BitVec W → Prop) (s s' : St W) : Prop := ∀ q, ¬ P q → s'.mem q = s.mem q

/-- Registers outside `R` are as they were. -/
def Keeps (R : Reg → Prop) (s s' : St W) : Prop := ∀ r, ¬ R r → s'.reg r = s.reg r

/-- The memory operand depends on the register. -/
def MemOp.Uses (m : MemOp W) (r : Reg) : Prop := m.base = some r ∨ ∃ k, m.index = some (r, k)

/-- What compare-and-swap leaves in the object. -/
def casValue (e d v : Nat) : Nat := if v = e then d else v

/-- From `s` to `s'` the code exchanged the 8 bytes at `p` for `d` if they held `e`, left what they held in `edx:eax`, and changed nothing else but
what is below the top of the stack. -/
def Cas64Right (s s' : St 32) (p : BitVec 32) (e d : Nat) : Prop :=
  s'.low 4 .a + 2 ^ 32 * s'.low 4 .d = peek s.mem 8 p ∧ peek s'.mem 8 p = casValue e d (peek s.mem 8 p) ∧
  Elsewhere (fun x => Inside p 8 x ∨ Inside (s.reg .sp - 4) 4 x) s s' ∧ Keeps (fun x => x = .a ∨ x = .d) s s'

end Verif.Xa
