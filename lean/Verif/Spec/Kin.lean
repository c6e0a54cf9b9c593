import Verif.Model.Kin
/-!
# Threads that wait for the threads they started
-/
namespace Verif.Kn.Spec
open Verif.Kn

/-- Thread `t` knows that the function of `c` is over: it looked, after `c` had said so. -/
inductive Knows : List Act → Nat → Nat → Prop
  | looked {h₁ h₂ : List Act} {s : Sys} {t c : Nat} : acts h₁ init = some s → s.flag c = true → Knows (h₁ ++ .poll t c :: h₂) t c

/-- A history in which every thread knows that each thread it started is over, before it releases its scope, returns or ends with an exception; and looks at no future started before its last release. -/
inductive Patient : List Act → Prop
  | nil : Patient []
  | snoc {h : List Act} {a : Act} {s : Sys} : Patient h → acts h init = some s →
      (∀ t, a = .release t → ∀ c, 0 < c → c < s.next → s.parent c = t → Knows h t c) →
      (∀ t x, a = .step t x → s.pc t = .body → ∀ c, 0 < c → c < s.next → s.parent c = t → Knows h t c) →
      (∀ t c, a = .poll t c → ¬ ∃ h₁ h₂ s₁, h = h₁ ++ .release t :: h₂ ∧ acts h₁ init = some s₁ ∧ c < s₁.next) →
      Patient (h ++ [a])

end Verif.Kn.Spec
