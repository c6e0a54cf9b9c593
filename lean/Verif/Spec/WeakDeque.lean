import Verif.Model.WeakDeque

/-!
What a deque is for: every task that was pushed is obtained once, and whoever obtains it knows what was written before it was pushed.
-/
namespace Verif.Wd

variable {α : Type}

/-- The tasks in the deque, oldest first, as its owner sees it. -/
def St.content (s : St α) : List (Option α) :=
  (List.range (s.bottom.now - s.top.now)).map fun n => (s.cell s.array.now ((s.top.now + n) % s.size s.array.now)).now

/-- What was pushed is what was obtained and what is left; when the owner is in no call, what is left is in the deque. -/
def Once (s : St α) : Prop :=
  ∃ rest, (s.pushed.map some).Perm (s.got.map Prod.fst ++ rest) ∧ ((match s.o with | .idle => True | _ => False) → rest = s.content)

/-- Whatever was obtained is a task for which `push` was called, and that call happened before. -/
def Seen (s : St α) : Prop :=
  ∀ x ∈ s.got, ∃ n w, x.1 = some w ∧ s.calls[n]? = some w ∧ n < x.2

def Good (s : St α) : Prop := Once s ∧ Seen s

/-- The states reached by steps that are `ok`. -/
inductive Reach (M : Mach) (size : Nat) (ok : St α → Act α → Prop) : St α → Prop
  | init : Reach M size ok (init size)
  | step {s s' : St α} {a : Act α} : Reach M size ok s → ok s a → step M s a = some s' → Reach M size ok s'

/-- Nobody is in a call. -/
def St.quiet (s : St α) (but : Option Nat) : Prop :=
  ∀ j, but ≠ some j → match s.th j with | .idle => True | _ => False

def St.ownerIdle (s : St α) : Prop := match s.o with | .idle => True | _ => False

/-- Only one thread at a time is in a call. -/
def Alone (s : St α) : Act α → Prop
  | .push _ | .take | .owner _ => s.quiet none
  | .steal j | .thief j _ => s.ownerIdle ∧ s.quiet (some j)

/-- The owner calls `push` only. -/
def PushOnly (_ : St α) : Act α → Prop
  | .take => False
  | _ => True

/-- A `take` that will believe there are two tasks or more, because of the value of `top` it has read, is right about that at its fence; the first call of `take` comes
after a call of `push`; a thief is given the array it knows of, not one that was made after the call of `push` whose `bottom` it has read. -/
def Calm (s : St α) : Act α → Prop
  | .take => s.pushed ≠ []
  | .owner _ => match s.o with | .fence b t => t < b → s.top.now < b | _ => True
  | .thief j i => match s.th j with | .array _ => i = (s.tt j).cur.ts .array | _ => True
  | _ => True

/-- The owner calls `push` only, and not more often than the first array has cells. -/
def Few (size : Nat) (s : St α) : Act α → Prop
  | .take => False
  | .push _ => s.calls.length < size
  | _ => True

/-- There are no thieves, and the first call is one of `push`. -/
def Solo (s : St α) : Act α → Prop
  | .take => s.pushed ≠ []
  | .push _ | .owner _ => True
  | .steal _ | .thief _ _ => False

end Verif.Wd
