import Verif.Model.Splay
import Verif.Spec.Tree

/-!
What the users of the `SPLAY_*` macros rely on: the tree is the list of its elements in the order of their comparison. `Rb.Order` and `Rb.first` are
those of the red-black trees.
-/
namespace Verif.Spl
open Verif.Rb (first)

inductive Op
  | insert (e : Nat)
  | remove (e : Nat)
  | find (e : Nat)
  | next (e : Nat)
  | min
  | max

/-- Any element that is not NULL may be given to `SPLAY_INSERT`; `SPLAY_NEXT` is for members. -/
def Op.allowed (xs : List Nat) : Op → Prop
  | .insert e => e ≠ 0
  | .next e => e ∈ xs
  | _ => True

/-- What the call returns when `xs` are the members in order. -/
def Op.answer (cmp : Nat → Nat → Int) (xs : List Nat) : Op → Nat
  -- the member equal to the argument, NULL when it was inserted
  | .insert e => first xs fun y => cmp e y = 0
  -- the argument itself, whichever member equal to it was removed; NULL when there was none
  | .remove e => if xs.any fun y => cmp e y = 0 then e else 0
  | .find e => first xs fun y => cmp e y = 0
  -- the least member above the argument
  | .next e => first xs fun y => cmp e y < 0
  | .min => first xs fun _ => true
  | .max => first xs.reverse fun _ => true

/-- The members in order after the call. -/
def Op.after (cmp : Nat → Nat → Int) (xs : List Nat) : Op → List Nat
  | .insert e => if xs.any (fun y => cmp e y = 0) then xs else xs.filter (cmp · e < 0) ++ e :: xs.filter (cmp e · < 0)
  | .remove e => xs.filter fun y => cmp e y ≠ 0
  | _ => xs

/-- The call itself, given a number of rounds for its loops and the address of its `__node`: what it returns and the heap. -/
def Op.call (cmp : Nat → Nat → Int) (n nd : Nat) (h : Heap) : Op → Option (Nat × Heap)
  | .insert e => Spl.insert cmp n nd h e
  | .remove e => Spl.remove cmp n nd h e
  | .find e => Spl.find cmp n nd h e
  | .next e => Spl.next cmp n nd h e
  | .min => Spl.min n nd h
  | .max => Spl.max n nd h

/-- The heaps reached by calls on one tree, with its members. `__node` is never a member. -/
inductive Reach (cmp : Nat → Nat → Int) : Heap → List Nat → Prop
  | init (h : Heap) : Reach cmp h.init []
  | call {h h' : Heap} {xs : List Nat} {op : Op} {n nd a : Nat} : Reach cmp h xs → op.allowed xs → nd ≠ 0 → nd ∉ xs →
      op.call cmp n nd h = some (a, h') → Reach cmp h' (op.after cmp xs)

/-- A tree as the links make it: `Inorder h x ys` when `ys` are the elements below and including `x`, left before right. -/
inductive Inorder (h : Heap) : Nat → List Nat → Prop
  | nil : Inorder h 0 []
  | node {x as bs} : x ≠ 0 → Inorder h (h.l x) as → Inorder h (h.r x) bs → Inorder h x (as ++ x :: bs)

end Verif.Spl
