import Verif.Model.GuardThreads
namespace Verif.Gd

/-- What thread `t` observed: functions run on leaving sections, and how panics ended. -/
def seenBy (t : Nat) (y : Sys) : List (Nat × List Nat × Option Bool) := y.obs.filter fun o => o.1 == t

/-- Only one thread at a time is in sections, and no thread panics while another is in one. -/
def Serial (eq : Nat → Nat → Bool) : Sys → List Op → Prop
  | _, [] => True
  | y, o :: h => (∀ u, u ≠ o.tid → y.th u = []) ∧ Serial eq (step eq y o) h

end Verif.Gd
