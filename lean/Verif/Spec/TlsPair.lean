import Verif.Model.TlsPair
/-!
# What a thread should get
-/
namespace Verif.Et

/-- A scope is asked for and got, or a context. -/
def Right : Op → Option Obj → Prop
  | .scope, some (.scope _) => True
  | .context, some (.ctx _) | .context, some (.frame _) => True
  | .enter, some (.ctx _) | .enter, some (.frame _) => True
  | .leave, none => True
  | _, _ => False

/-- A thread gets the same scope whenever it asks, and never another thread's scope or context. -/
def Own (rs : List (Nat × Op × Option Obj)) : Prop :=
  ∀ x ∈ rs, ∀ y ∈ rs, (x.2.1 = .scope → y.2.1 = .scope → x.1 = y.1 → x.2.2 = y.2.2) ∧
    (x.2.2.isSome → x.2.2 = y.2.2 → x.1 = y.1)

end Verif.Et
