import Verif.Spec.Splay

/-!
What `tree.h:44-46` promises of splay trees: "The Balance Theorem bounds the total access time for m operations and n inserts on an initially empty tree as
O((m + n)lg n). The amortized cost for a sequence of m accesses to a splay tree is O(lg n)". The time of a call is the number of rounds its loops take.
-/
namespace Verif.Spl

/-- The call takes `k` rounds: with `k` rounds for each of its loops it returns, with fewer it does not. Of the two loops of `SPLAY_REMOVE` and of
`SPLAY_NEXT` this is the longer one, so that all rounds of a call are at most twice as many. -/
def Op.Takes (cmp : Nat → Nat → Int) (nd : Nat) (h : Heap) (op : Op) (k : Nat) (a : Nat) (h' : Heap) : Prop :=
  op.call cmp k nd h = some (a, h') ∧ ∀ j, j < k → op.call cmp j nd h = none

def Op.isInsert : Op → Bool
  | .insert _ => true
  | _ => false

def Op.isNext : Op → Bool
  | .next _ => true
  | _ => false

/-- `SPLAY_FOREACH` from `x` on, `tree.h:287-290`, with a body that does not change the tree: `j` calls of `SPLAY_NEXT`, each on what the one before
returned, which take `c` rounds. -/
inductive Visit (cmp : Nat → Nat → Int) (xs : List Nat) : Heap → Nat → Heap → Nat → Nat → Prop
  | done (h : Heap) : Visit cmp xs h 0 h 0 0
  | step {h h1 h' : Heap} {x y k nd j c : Nat} : x ≠ 0 → nd ≠ 0 → nd ∉ xs → (Op.next x).Takes cmp nd h k y h1 → Visit cmp xs h1 y h' j c → Visit cmp xs h x h' (j + 1) (k + c)

/-- `Spent cmp ok h xs m n c`: `h` is reached from an empty tree by `n` calls of `SPLAY_INSERT` and `m` other ones, which took `c` rounds; `xs` are the
members. The calls are those `ok` holds for and the ones of complete traversals by `SPLAY_FOREACH`. -/
inductive Spent (cmp : Nat → Nat → Int) (ok : Op → Bool) : Heap → List Nat → Nat → Nat → Nat → Prop
  | init (h : Heap) : Spent cmp ok h.init [] 0 0 0
  | call {h h' : Heap} {xs : List Nat} {m n c : Nat} {op : Op} {k nd a : Nat} : Spent cmp ok h xs m n c → ok op → op.allowed xs → nd ≠ 0 → nd ∉ xs →
      op.Takes cmp nd h k a h' → Spent cmp ok h' (op.after cmp xs) (if op.isInsert then m else m + 1) (if op.isInsert then n + 1 else n) (c + k)
  | visit {h h1 h' : Heap} {xs : List Nat} {m n c : Nat} {k nd x j c' : Nat} : Spent cmp ok h xs m n c → nd ≠ 0 → nd ∉ xs →
      Op.min.Takes cmp nd h k x h1 → Visit cmp xs h1 x h' j c' → Spent cmp ok h' xs (m + 1 + j) n (c + k + c')

end Verif.Spl
