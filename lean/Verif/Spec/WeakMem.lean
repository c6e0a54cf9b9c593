import Verif.Model.WeakMem

/-!
How a program uses locks and futures: every piece of data has a home, which is a lock or a future.
-/
namespace Verif.Wm

inductive Home
  /-- Used by whoever holds the lock. -/
  | lock (l : Nat)
  /-- Used by the function of the future, and read by those who have waited for it. -/
  | future (f : Nat)

structure Plan where
  home : Nat → Home
  /-- The thread that runs the function of a future. -/
  worker : Nat → Nat

/-- What thread `t` may call. `also`: to have waited by `thrd_wait` (`thrd_is_done` was true) is enough to read what the function wrote; otherwise the result
has to be fetched first. -/
def Plan.allows (P : Plan) (also : Bool) (s : Sys) (t : Nat) : Call → Prop
  | .lock _ | .get _ | .wait _ => True
  | .unlock l => .user l ∈ s.held t
  | .write x _ =>
    match P.home x with
    | .lock l => .user l ∈ s.held t
    | .future f => t = P.worker f ∧ s.set f = none
  | .read x =>
    match P.home x with
    | .lock l => .user l ∈ s.held t
    | .future f => (t = P.worker f ∧ s.set f = none) ∨ (∃ v, (f, v) ∈ s.got t) ∨ (also = true ∧ f ∈ s.saw t)
  -- `thrd_raii_wrapper` calls it once, at its end
  | .set f _ => t = P.worker f ∧ s.set f = none

/-- The states reached when all threads keep to the plan. -/
inductive Run (P : Plan) (also : Bool) : Sys → Prop
  | init : Run P also init
  | call {s s' : Sys} {t : Nat} {c : Call} : Run P also s → P.allows also s t c → step s (.call t c) = some s' → Run P also s'
  | run {s s' : Sys} {t i a b : Nat} : Run P also s → step s (.run t i a b) = some s' → Run P also s'

end Verif.Wm
