import Verif.Model.First
/-!
# What a thread did before a call

Read off the calls.
-/
namespace Verif.Fs.Spec
open Verif.Fs

/-- What thread `i` called. -/
def calls (i : Nat) (h : List (Nat × Call)) : List Call := (h.filter (fun x => x.1 == i)).map Prod.snd

/-- Calls after which the thread has a scope. -/
def Makes (c : Call) : Prop := c = .alloc ∨ c = .scope ∨ c = .enter

/-- Every section entered is left. -/
inductive Bal : List Call → Prop
  | nil : Bal []
  | one {l c} : Bal l → c ≠ .enter → c ≠ .leave → Bal (l ++ [c])
  | sect {l b} : Bal l → Bal b → Bal (l ++ .enter :: b ++ [.leave])

/-- Every section entered is left, and outside sections no spawn scope was opened. -/
inductive Idle : List Call → Prop
  | nil : Idle []
  | one {l c} : Idle l → c ≠ .enter → c ≠ .leave → c ≠ .scope → Idle (l ++ [c])
  | sect {l b} : Idle l → Bal b → Idle (l ++ .enter :: b ++ [.leave])

/-- No section is left that was not entered. -/
def Opens : List Call → Prop := fun l => ∀ x y, l = x ++ .leave :: y → ¬ Bal x

/-- The thread has done `l` before and now calls `c`, which uses a null pointer. -/
def Bad (l : List Call) : Call → Prop
  | .mid | .defer | .message | .clean | .decode => ¬ ∃ c ∈ l, Makes c
  | .inner => Idle l
  | .spawn => Idle l ∧ ∃ c ∈ l, Makes c
  | _ => False

end Verif.Fs.Spec
