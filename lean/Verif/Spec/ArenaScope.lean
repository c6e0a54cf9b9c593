import Verif.Model.ArenaScope
/-!
# What a scope with an arena promises
-/
namespace Verif.As
open Verif.Ar (W Heap Ptr Blk)

/-- What the arena of scope `i` has asked for so far plus `k` bytes stays below 2^63. -/
def Modest (s : St) (i k : Nat) : Prop :=
  (s.heap.arenas i).total + k + (s.heap.arenas i).threshold * 1024 + 1024 < 2 ^ 63

/-- The program creates no scope twice, uses scopes it created and did not delete, asks for at least one byte, asks
scopes with an arena for arena memory, and defers functions that look at memory it was given.  No scope is ended by
`free_arena`. -/
def Op.proper (s : St) : Op → Prop
  | .init i => (s.scopes i).made = false
  | .initArena i => (s.scopes i).made = false
  | .mallocBy i n => (s.scopes i).live = true ∧ 0 < n.toInt ∧ ((s.scopes i).isArena = true → Modest s i n.toNat)
  | .mallocArena i n => (s.scopes i).live = true ∧ (s.scopes i).isArena = true ∧ 0 < n.toInt ∧ Modest s i n.toNat
  | .callocBy i c n => (s.scopes i).live = true ∧ 0 < c.toInt ∧ 0 < n.toInt ∧
      ((s.scopes i).isArena = true → Modest s i (c.toNat * n.toNat))
  | .callocArena i c n => (s.scopes i).live = true ∧ (s.scopes i).isArena = true ∧ 0 < c.toInt ∧ 0 < n.toInt ∧
      Modest s i (c.toNat * n.toNat)
  | .defer i _ p => (s.scopes i).live = true ∧ ∀ q, p = some q → ∃ b ∈ s.blocks, b.p = q
  | .delete i => (s.scopes i).live = true
  | .freeArena _ => False

/-- Every operation of the history is proper. -/
def Proper (oom : Nat → Nat → Bool) (fuel : Nat) : St → List Op → Prop
  | _, [] => True
  | s, o :: os => o.proper s ∧ ∀ s' v, step oom fuel s o = .ok s' v → Proper oom fuel s' os

/-- The operation zeroes memory. -/
def Op.zeroes : Op → Bool
  | .callocBy _ _ _ | .callocArena _ _ _ => true
  | _ => false

/-- The program zeroes memory only if the allocator never refuses (`arena_calloc` does not look, C35). -/
def ZeroSafe (oom : Nat → Nat → Bool) (os : List Op) : Prop :=
  (∃ o ∈ os, o.zeroes = true) → ∀ k t, oom k t = false

/-- The operation asks scope `i` for memory. -/
def Op.asks (i : Nat) : Op → Bool
  | .mallocBy j _ | .mallocArena j _ | .callocBy j _ _ | .callocArena j _ _ => decide (j = i)
  | _ => false

/-- The deferral runs as it should: a function's memory is there, a block is released. -/
def Act.due : Act → Ev
  | .user f _ => .ran f true
  | .release k => .released k

/-- The deferrals of scope `i` registered by a history, oldest first: functions, and one release for every block a
scope without arena was asked for.  `k`: the number of blocks so far; `ar`: the scopes with an arena. -/
def acts (i : Nat) : (Nat → Bool) → Nat → List Op → List Act
  | _, _, [] => []
  | ar, k, .initArena j :: os => acts i (fun m => if m = j then true else ar m) k os
  | ar, k, .init j :: os => acts i (fun m => if m = j then false else ar m) k os
  | ar, k, .defer j f p :: os => if j = i then .user f p :: acts i ar k os else acts i ar k os
  | ar, k, .mallocBy j _ :: os =>
    if ar j then acts i ar k os else if j = i then .release k :: acts i ar (k + 1) os else acts i ar (k + 1) os
  | ar, k, .callocBy j _ _ :: os =>
    if ar j then acts i ar k os else if j = i then .release k :: acts i ar (k + 1) os else acts i ar (k + 1) os
  | ar, k, _ :: os => acts i ar k os

/-- What was done until a run ended or went wrong. -/
def Out.log : Out → Option (List Ev)
  | .ok s _ => some s.log
  | .panic s => some s.log
  | .wild s => some s.log
  | .running => none

/-- The run went on without undefined behaviour. -/
def Out.isOk : Out → Bool
  | .ok _ _ => true
  | _ => false

def Out.isWild : Out → Bool
  | .wild _ => true
  | _ => false

def Out.isPanic : Out → Bool
  | .panic _ => true
  | _ => false

/-- The state of a run that is going on. -/
def Out.st : Out → Option St
  | .ok s _ => some s
  | _ => none

/-- The value of the last call. -/
def Out.val : Out → Option Val
  | .ok _ v => some v
  | _ => none

end Verif.As
