import Verif.Model.Trace
/-!
# Which way an exception came

No call stacks here: a throw comes straight to a handler if its `throw` statement ran in that handler's own block, in none within it.
-/
namespace Verif.Bt.Spec

/-- A throw under way. -/
structure Way where
  e : Nat
  straight : Bool

/-- Where something is printed: the throw the block got last, the last one that came straight to it, and the memory of the block. -/
structure Seen where
  e : Nat
  last : Option Nat
  size : Nat

/-- The last throw that came straight, after one more. -/
def Way.then (w : Way) (last : Option Nat) : Option Nat := if w.straight then some w.e else last

/-- What is thrown in a `finally` section goes first; otherwise what was under way goes on. -/
def onward (o : List Seen) (fin : List Seen × Option Way) (pending : Option Nat) : List Seen × Option Way :=
  (o ++ fin.1, match fin.2 with
    | some w => some w
    | none => pending.map fun e => ⟨e, false⟩)

/-- What is printed at each `look`, and what is thrown on leaving. -/
def follow : Prog → Option Seen → List Seen × Option Way
  | .skip, _ => ([], none)
  | .seq a b, h =>
    match follow a h with
    | (o, none) => (o ++ (follow b h).1, (follow b h).2)
    | (o, some w) => (o, some w)
  | .throw e, _ => ([], some ⟨e, true⟩)
  | .get e, _ => ([], some ⟨e, false⟩)
  | .rethrow, h => ([], h.map fun s => ⟨s.e, false⟩)
  | .look, h => (h.toList, none)
  | .block size body catches handler fin, h =>
    match follow body h with
    | (o, none) => onward o (follow fin none) none
    | (o, some w) =>
      let s : Seen := ⟨w.e, w.then none, size⟩
      if catches w.e then
        match follow handler (some s) with
        | (o', none) => onward (o ++ o') (follow fin (some s)) none
        | (o', some w') => onward (o ++ o') (follow fin (some ⟨w'.e, w'.then s.last, size⟩)) (some w'.e)
      else onward o (follow fin (some s)) (some w.e)

/-- All of a thread, with what nothing handles, which its own context gets. -/
def follows (p : Prog) : List Seen :=
  match follow p none with
  | (o, none) => o
  | (o, some w) => o ++ [⟨w.e, w.then none, 0⟩]

/-- No block, nothing from other threads, nothing thrown on. -/
def Plain : Prog → Prop
  | .skip | .look | .throw _ => True
  | .seq a b => Plain a ∧ Plain b
  | .get _ | .rethrow | .block .. => False

/-- And nothing thrown. -/
def Calm : Prog → Prop
  | .skip | .look => True
  | .seq a b => Calm a ∧ Calm b
  | .throw _ | .get _ | .rethrow | .block .. => False

/-- Blocks one after the other, none in another, each handling all that is thrown in it, with handlers and `finally` sections that throw nothing. -/
def Level : Prog → Prop
  | .skip | .look | .throw _ => True
  | .seq a b => Level a ∧ Level b
  | .block _ body catches handler fin => Plain body ∧ (∀ e, catches e = true) ∧ Calm handler ∧ Calm fin
  | .get _ | .rethrow => False

end Verif.Bt.Spec
