import Verif.Model.Deque
/-!
# What a work-stealing deque is for
-/
namespace Verif.Dq
variable {α : Type}

/-- What is still in the deque, oldest first. -/
def Dq.content (q : Dq α) : List (Option α) :=
  (List.range (q.bottom - q.top)).map fun n => q.arr.buf ((q.top + n) % q.arr.size)

/-- Nothing obtained twice, nothing obtained that was not pushed, nothing lost - as multisets; what is left counts when the owner is in no call. -/
def Fair (q : Dq α) : Prop :=
  (∃ rest, (q.pushed.map some).Perm (q.got ++ rest)) ∧
  (∀ (_ : match q.o with | .idle => True | _ => False), (q.pushed.map some).Perm (q.got ++ q.content))

/-- The thief has found task `t` in the deque and is on its way to taking it. -/
def TPc.after (t : Nat) : TPc α → Prop
  | .array t' | .read t' _ | .cas t' _ => t' = t
  | _ => False

/-- The owner is not about to go wrong.  In `take`: something was pushed before; and if, by the `top` it read, the newest task `b` is not the only
one, then at the lowering of `bottom` that task has not been stolen and no thief is on its way to it. -/
def CalmStep (q : Dq α) : Act α → Prop
  | .owner =>
    match q.o with
    | .take => q.bottom ≠ 0
    | .lower b t => t < b → q.top ≤ b ∧ ∀ j, ¬ (q.th j).after b
    | _ => True
  | _ => True

/-- Histories in which the owner never goes wrong. -/
def Calm : Dq α → List (Act α) → Prop
  | _, [] => True
  | q, a :: h => CalmStep q a ∧ Calm (step q a) h

end Verif.Dq
