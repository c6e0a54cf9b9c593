import Verif.Model.ScopeRace
/-!
# What threads that share a scope rely on
-/
namespace Verif.Rc
variable {α : Type}

/-- What releasing the scope now would run, last first (`raii_deferred_run`, `src/raii.c:394-425`, goes from `elements` down to 0). -/
def Sys.kept (y : Sys α) : List (Option α) :=
  (List.range y.elements).reverse.map fun k => (y.base.bind y.blocks).bind fun o => o.cells k

/-- No freed memory was touched, and once every call has returned, releasing the scope runs each registration once. -/
def Kept (y : Sys α) : Prop := y.wild = false ∧ ((∀ j, y.th j = .idle) → y.kept.Perm (y.done.map some))

/-- Histories in which a call begins only when no other call is going on. -/
def Serial : Sys α → List (Act α) → Prop
  | _, [] => True
  | y, a :: h => (match a with | .call _ _ => ∀ i, y.th i = .idle | _ => True) ∧ Serial (step y a) h

end Verif.Rc
