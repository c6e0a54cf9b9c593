import Verif.Model.Array
/-!
# What a growable array is for: a history of appends, each storing a value in the slot it got
-/
namespace Verif

/-- A real allocator never answers with the NULL address as a block, nor with one that runs past the
end of the address space. -/
def Allocator (ans : W → Option Nat) : Prop :=
  ∀ size addr, ans size = some addr → 0 < addr ∧ addr + size.toNat ≤ 2 ^ 64

/-- One use of the array: append, then store `v` through the pointer obtained.
`none`: the store was out of bounds.  `some (none, _)`: append returned NULL. -/
def arrPush {α} (junk : α) (es : W) (a : Arr α) (ans : W → Option Nat) (v : α) :
    Option (Option W × Arr α) :=
  match arrAppend junk a es ans with
  | (none, a') => some (none, a')
  | (some p, a') => (arrStore a' es p.toNat v).map fun a'' => (some p, a'')

/-- A history of uses; the values whose append succeeded are collected in `vs`. -/
def arrHistory {α} (junk : α) (es : W) : List ((W → Option Nat) × α) → Arr α → List α →
    Option (Arr α × List α)
  | [], a, vs => some (a, vs)
  | (ans, v) :: h, a, vs =>
    match arrPush junk es a ans v with
    | none => none
    | some (none, a') => arrHistory junk es h a' vs
    | some (some _, a') => arrHistory junk es h a' (vs ++ [v])

end Verif
