import Verif.Model.Locals
/-!
# Local variables

What is expected: a variable has the value assigned last.  When it fails is said in terms of what has happened only.
-/
namespace Verif.Loc.Spec
open Verif.Loc

/-- The value assigned last. -/
def latest (init : Nat → Int) : List Ev → Nat → Int
  | [], x => init x
  | .assign y v :: r, x => latest (fun z => if z = y then v else init z) r x
  | _ :: r, x => latest init r x

/-- The open blocks, innermost first: when entered, by which call.  `n` events have happened before, `bs` were open. -/
def opens (n : Nat) (bs : List (Nat × Nat)) : List Ev → List (Nat × Nat)
  | [] => bs
  | .enter f :: r => opens (n + 1) ((n, f) :: bs) r
  | .leave :: r => opens (n + 1) bs.tail r
  | .assign _ _ :: r => opens (n + 1) bs r
  | .jump k :: r => opens (n + 1) (bs.drop k) r

/-- A variable without `volatile` was assigned in a block of its function, at `t`; afterwards, at `t'`, a throw came back to that block; it was not assigned since. -/
def Lost (d : Decl) (h : List Ev) (x : Nat) : Prop :=
  d.vol x = false ∧ ∃ s t t' k v, s < t ∧ t < t' ∧ (opens 0 [] (h.take t'))[k]? = some (s, d.own x) ∧ h[t]? = some (.assign x v) ∧ h[t']? = some (.jump k) ∧
    ∀ u w, t' < u → h[u]? ≠ some (.assign x w)

end Verif.Loc.Spec
