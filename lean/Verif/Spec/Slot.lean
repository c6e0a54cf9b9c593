import Verif.Model.Slot
/-!
# Sections and spawn scopes nest

Read off the events.
-/
namespace Verif.Sl.Spec
open Verif.Sl

/-- Spawn scopes opened and not destroyed, and sections entered and not left; the newest first. -/
structure Book where
  live : List Nat
  sec : List Nat

def Book.note (b : Book) : Ev → Book
  | .opened j => { b with live := j :: b.live }
  | .destroyed j => { b with live := b.live.erase j }
  | .enter i => { b with sec := i :: b.sec }
  | .leave => { b with sec := b.sec.tail }
  | _ => b

def Book.after (b : Book) (tr : List Ev) : Book := tr.foldl Book.note b

/-- What an event should be: a thread started belongs to the newest spawn scope; `thrd_spawn` is refused only if there is none; an exception is noted with the innermost section, and ends the process only
outside all; nothing is undefined. -/
def Right (b : Book) : Ev → Prop
  | .started j => b.live.head? = some j
  | .refused => b.live = []
  | .noted i _ => b.sec.head? = some i
  | .uncaught _ => b.sec = []
  | .undef => False
  | _ => True

def AllRight (tr : List Ev) (b : Book) : Prop := ∀ t₁ e t₂, tr = t₁ ++ e :: t₂ → Right (b.after t₁) e

/-- Whether a program opens or destroys a spawn scope. -/
def touches : Prog → Bool
  | .done | .throw _ => false
  | .opens _ | .destroy _ => true
  | .spawn k => touches k
  | .guard _ b k => touches b || touches k

inductive Lv
  /-- The current section opened no spawn scope. -/
  | fresh
  /-- The newest spawn scope is one the current section opened last. -/
  | here
  | other
  deriving DecidableEq

/-- Programs that call `thrd_spawn` only in the section that opened the newest spawn scope, and throw in no section that opened one. -/
def Tame : Bool → Lv → Prog → Prop
  | _, _, .done => True
  | i, _, .opens k => Tame i .here k
  | i, l, .spawn k => l = .here ∧ Tame i .here k
  | i, l, .destroy k => Tame i (if l = .fresh then .fresh else .other) k
  | i, l, .throw _ => i = true → l = .fresh
  | i, l, .guard handled b k =>
    Tame true .fresh b ∧ Tame i (if touches b = true ∧ l ≠ .fresh then .other else l) k ∧ (i = true → handled = false → l = .fresh)

end Verif.Sl.Spec
