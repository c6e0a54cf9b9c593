import Verif.Model.WorkSteal
/-!
# What the scheduler is to do
-/
namespace Verif.Ws

/-- At every moment: nothing freed is used, no task is printed twice, the continuation runs at most once, and only after
every task; and a worker leaves only after the continuation ran. -/
def Right (n : Nat) (s : St) : Prop :=
  s.bad = false ∧ (∀ t, s.printed t ≤ 1) ∧ s.conts ≤ 1 ∧
  (s.done = true ↔ s.conts = 1) ∧ (s.conts = 1 → ∀ t, t < n → s.printed t = 1) ∧
  (∀ w, s.wk w = .exited → s.done = true)

/-- The worker of a step. -/
def Lbl.worker : Lbl → Nat
  | .obtain w _ | .nothing w | .print w | .join w | .cont w | .check w => w

/-- All steps are by workers below `k`. -/
def By (k : Nat) (ls : List Lbl) : Prop := ∀ l ∈ ls, l.worker < k

/-- Steps that get on with the work, as opposed to looking for it in vain. -/
def Lbl.busy : Lbl → Bool
  | .obtain .. | .print _ | .join _ | .cont _ => true
  | .nothing _ | .check _ => false

end Verif.Ws
