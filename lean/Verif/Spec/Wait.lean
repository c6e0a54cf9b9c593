import Verif.Model.Wait
/-!
What waiting for children should do (POSIX).
-/
namespace Verif.Wt.Spec
open Verif.Wt

/-- The process is a child the call asks about: any (`-1`) or the one with that number. -/
def Child (e : Env) (pid : D) (p : Proc) : Prop := (∃ ps, e.list = some ps ∧ p ∈ ps) ∧ p.parent = e.self ∧ (pid = -1 ∨ p.pid = pid)

/-- `s` is the status of a process that exited with `code`: the low eight bits can be read from it, and it was neither killed nor stopped. -/
def Exited (s code : D) : Prop :=
  WIFEXITED s = true ∧ (WEXITSTATUS s).toNat = code.toNat % 256 ∧ WIFSIGNALED s = false ∧ WIFSTOPPED s = false

/-- `wait`, `waitpid`, `wait3`, `wait4` with `-1` or a number of a process. -/
def Right (e : Env) (pid : D) (want hang : Bool) : Res → Prop
  | .done o =>
    o.left = 0 ∧
    -- a child that ended
    ((∃ p code, Child e pid p ∧ (e.life p.pid = .ended code ∨ (hang = true ∧ e.life p.pid = .running (some code))) ∧ o.ret = p.pid ∧ o.errno = none ∧
        (∀ s, o.status = some s → Exited s code) ∧ (o.status.isSome = want))
      -- no child has ended
      ∨ (hang = false ∧ (∃ p, Child e pid p) ∧ (∀ p, Child e pid p → ∃ l, e.life p.pid = .running l) ∧ o = ⟨0, none, none, 0⟩)
      -- there is no child, or Windows refuses
      ∨ (((∀ p, ¬ Child e pid p) ∨ ∃ p, Child e pid p ∧ e.opens p.pid = false) ∧ o = ⟨-1, none, some .child, 0⟩))
  | .aborts => False
  -- all children run on for ever
  | .never => hang = true ∧ (∃ p, Child e pid p) ∧ ∀ p, Child e pid p → e.life p.pid = .running none

end Verif.Wt.Spec
