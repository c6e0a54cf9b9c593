import Verif.Model.Hooks
/-!
# What attached data should be

Read off the events only.
-/
namespace Verif.Hk.Spec
open Verif.Hk

/-- What was attached to a context, the last thing first. -/
def attach (a : List Nat) : Op → List Nat
  | .data d => d :: a.tail
  | .swap d => d :: a
  | .reset => match a with
    | _ :: x :: r => x :: r
    | a => a
  | .unwind _ => a

/-- The contexts, the current one first: calls attach to the current context; nothing else does. -/
def step (st : List (List Nat)) : Ev → List (List Nat)
  | .op o => match st with
    | a :: r => attach a o :: r
    | [] => []
  | .enter d => [d] :: st
  | .leave => st.tail
  | _ => st

def after (tr : List Ev) (st : List (List Nat)) : List (List Nat) := tr.foldl step st

/-- `ex_data_get` gives what was attached to the current context last and not taken back. -/
def Honest (tr : List Ev) (st : List (List Nat)) : Prop :=
  ∀ t₁ t₂ d, tr = t₁ ++ .got d :: t₂ → ∃ a r, after t₁ st = (d :: a) :: r

/-- What is known of the current context. -/
inductive Lv
  /-- Nothing was attached since the last section. -/
  | plain
  /-- Something was attached, or the block is new. -/
  | set
  /-- A swap is to be taken back. -/
  | swapped
  /-- There was an exception. -/
  | lost
  deriving DecidableEq

/-- Programs that begin a section only while nothing is attached, take back each swap before the next, and attach anew in handlers. -/
def Tame : Lv → Prog → Prop
  | _, .done => True
  | l, .op (.data _) k => Tame (if l = .swapped then .swapped else .set) k
  | l, .op (.swap _) k => (l = .plain ∨ l = .set) ∧ Tame .swapped k
  | l, .op .reset k => l = .swapped ∧ Tame .plain k
  | l, .op (.unwind _) k => Tame l k
  | l, .get k => l ≠ .lost ∧ Tame l k
  | l, .hooks _ _ k => Tame l k
  | _, .throw _ => True
  | l, .block _ b h k => Tame .set b ∧ Tame .lost h ∧ Tame l k
  | l, .guard _ _ _ b k => l = .plain ∧ Tame .set b ∧ Tame .plain k

/-- No functions are installed in the program. -/
def NoHooks : Prog → Prop
  | .done | .throw _ => True
  | .op _ k | .get k => NoHooks k
  | .hooks _ _ _ => False
  | .block _ b h k => NoHooks b ∧ NoHooks h ∧ NoHooks k
  | .guard _ _ _ b k => NoHooks b ∧ NoHooks k

/-- An event that is a call of a function of the program's own. -/
def Own : Ev → Prop
  | .setup _ _ | .unwind _ _ => True
  | _ => False

end Verif.Hk.Spec
