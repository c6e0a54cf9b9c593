import Verif.Model.RbTree

/-!
What the users of the `RB_*` macros rely on: the tree is the list of its elements in the order of their comparison.
-/
namespace Verif.Rb

/-- The comparison is one: it orders any two elements, in the same way from both sides, and transitively. -/
structure Order (cmp : Nat → Nat → Int) : Prop where
  swap : ∀ a b, cmp a b < 0 ↔ 0 < cmp b a
  trans : ∀ a b c, cmp a b ≤ 0 → cmp b c ≤ 0 → cmp a c ≤ 0

inductive Op
  | insert (e : Nat)
  | remove (e : Nat)
  | find (e : Nat)
  | nfind (e : Nat)
  | next (e : Nat)
  | prev (e : Nat)
  | min
  | max

/-- Any element that is not NULL may be given to `RB_INSERT`; `RB_REMOVE`, `RB_NEXT` and `RB_PREV` are for members. -/
def Op.allowed (xs : List Nat) : Op → Prop
  | .insert e => e ≠ 0
  | .remove e | .next e | .prev e => e ∈ xs
  | _ => True

/-- The first of the members, NULL if there is none. -/
def first (xs : List Nat) (P : Nat → Bool) : Nat := (xs.find? P).getD 0

/-- What the call returns when `xs` are the members in order. -/
def Op.answer (cmp : Nat → Nat → Int) (xs : List Nat) : Op → Nat
  -- the member equal to the argument, NULL when it was inserted
  | .insert e => first xs fun y => cmp e y = 0
  | .remove e => e
  | .find e => first xs fun y => cmp e y = 0
  -- the least member not below the argument
  | .nfind e => first xs fun y => cmp e y ≤ 0
  -- the least member above the argument
  | .next e => first xs fun y => cmp e y < 0
  -- the greatest member below the argument
  | .prev e => first xs.reverse fun y => cmp y e < 0
  | .min => first xs fun _ => true
  | .max => first xs.reverse fun _ => true

/-- The members in order after the call. -/
def Op.after (cmp : Nat → Nat → Int) (xs : List Nat) : Op → List Nat
  | .insert e => if xs.any (fun y => cmp e y = 0) then xs else xs.filter (cmp · e < 0) ++ e :: xs.filter (cmp e · < 0)
  | .remove e => xs.erase e
  | _ => xs

/-- The call itself, given a number of rounds for its loops: what it returns and the heap. -/
def Op.call (cmp : Nat → Nat → Int) (n : Nat) (h : Heap) : Op → Option (Nat × Heap)
  | .insert e => Rb.insert cmp n h e
  | .remove e => (Rb.remove n h e).map (e, ·)
  | .find e => (Rb.find cmp e n h h.root).map (·, h)
  | .nfind e => (Rb.nfind cmp e n h h.root 0).map (·, h)
  | .next e => (Rb.next n h e).map (·, h)
  | .prev e => (Rb.prev n h e).map (·, h)
  | .min => (Rb.min n h).map (·, h)
  | .max => (Rb.max n h).map (·, h)

/-- The heaps reached by calls on one tree, with its members. -/
inductive Reach (cmp : Nat → Nat → Int) : Heap → List Nat → Prop
  | init (h : Heap) : Reach cmp h.init []
  | call {h h' : Heap} {xs : List Nat} {op : Op} {n a : Nat} : Reach cmp h xs → op.allowed xs → op.call cmp n h = some (a, h') → Reach cmp h' (op.after cmp xs)

/-- A way down from the element `x`: each element is a child of the one before. -/
inductive Way (h : Heap) : Nat → List Nat → Prop
  | last (x : Nat) : x ≠ 0 → Way h x [x]
  | left {x ys} : x ≠ 0 → Way h (h.l x) ys → Way h x (x :: ys)
  | right {x ys} : x ≠ 0 → Way h (h.r x) ys → Way h x (x :: ys)

/-- A way down from `x` until there is no child, with the number of black elements on it. -/
inductive Down (h : Heap) : Nat → Nat → Prop
  | out : Down h 0 0
  | left {x n} : x ≠ 0 → Down h (h.l x) n → Down h x (if h.red x then n else n + 1)
  | right {x n} : x ≠ 0 → Down h (h.r x) n → Down h x (if h.red x then n else n + 1)

/-- Elements whose links are the same in both heaps. -/
def Same (h h' : Heap) (z : Nat) : Prop := h'.l z = h.l z ∧ h'.r z = h.r z ∧ h'.p z = h.p z ∧ h'.red z = h.red z

end Verif.Rb
