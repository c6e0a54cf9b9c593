import Verif.Spec.Arena
/-!
# Scopes with an arena: `unique_init_arena`, `malloc_by`, `malloc_arena`, `calloc_by`, `free_arena` of `src/raii.c`

The arenas are those of `Verif/Model/Arena.lean`; the arena of a scope has the name of the scope.  A deferral is a
user's function, which may look at a byte of memory obtained from an arena, or `RAII_FREE` of a block that came from
the C allocator.

Simplifications: the C allocator gives every block a scope asks for directly (`try_malloc`; what happens if it does not
is C26); the exception protector that `malloc_full` sets is left out (C33, C34); scopes are not the scope of the
thread; one thread.
-/
namespace Verif.As
open Verif.Ar (W Heap Ptr Blk)

/-- A deferral: a user's function with the byte it looks at, or `RAII_FREE` of block `k`. -/
inductive Act
  | user (f : Nat) (p : Option Ptr)
  | release (k : Nat)
  deriving DecidableEq, Repr

/-- `include/raii.h:162-176` `struct memory_s`: `arena`, `is_arena` and the deferrals, oldest first.  `made`: the scope was
created; `live`: and not yet deleted. -/
structure Scope where
  made : Bool
  live : Bool
  isArena : Bool
  arena : Option Nat
  acts : List Act

/-- What a user sees of the end of a scope.  `valid`: the byte the function looked at was allocated. -/
inductive Ev
  | ran (f : Nat) (valid : Bool)
  | released (k : Nat)
  deriving DecidableEq, Repr

/-- The process: the arenas, the blocks they handed out, the scopes, the number of blocks obtained directly from the C
allocator, the events. -/
structure St where
  heap : Heap
  blocks : List Blk
  scopes : Nat → Scope
  plains : Nat
  log : List Ev

/-- What a call gives. -/
inductive Val
  | unit
  | arena (p : Ptr)
  | plain (k : Nat)
  | null
  deriving DecidableEq, Repr

inductive Out
  | ok (s : St) (v : Val)
  /-- `raii_panic`. -/
  | panic (s : St)
  /-- Undefined behaviour; `s` is what was done until then. -/
  | wild (s : St)
  /-- Not finished within the passes looked at. -/
  | running

def St.setScope (s : St) (i : Nat) (x : Scope) : St :=
  { s with scopes := fun j => if j = i then x else s.scopes j }

/-- `src/raii.c:200-210` `unique_init`. -/
def init (s : St) (i : Nat) : Out := .ok (s.setScope i ⟨true, true, false, none, []⟩) .unit

/-- `src/raii.c:212-218` `unique_init_arena`: `arena_init(0)`. -/
def initArena (s : St) (i : Nat) : Out :=
  .ok { s.setScope i ⟨true, true, true, some i, []⟩ with heap := Ar.init s.heap i 0 } .unit

/-- `src/arena.c:47-49`, `src/raii.c:244-246` `malloc_arena`: `arena_alloc(scope->arena, size)`; `size_t` becomes
`long`. -/
def mallocArena (oom : Nat → Nat → Bool) (fuel : Nat) (s : St) (i : Nat) (n : W) : Out :=
  if (s.scopes i).live then
    match (s.scopes i).arena with
    | none => .panic s
    | some a =>
      match Ar.alloc oom fuel s.heap a n with
      | .got h p => .ok { s with heap := h, blocks := ⟨a, p, n.toInt⟩ :: s.blocks } (.arena p)
      | .null h => .ok { s with heap := h } .null
      | .running => .running
      | _ => .wild s
  else .wild s

/-- `src/raii.c:220-231, 248-259` `malloc_full`, `calloc_full` with `RAII_FREE`. -/
def plainAlloc (s : St) (i : Nat) : Out :=
  .ok { s.setScope i { s.scopes i with acts := (s.scopes i).acts ++ [.release s.plains] } with plains := s.plains + 1 }
    (.plain s.plains)

/-- `src/raii.c:237-242` `malloc_by`. -/
def mallocBy (oom : Nat → Nat → Bool) (fuel : Nat) (s : St) (i : Nat) (n : W) : Out :=
  if (s.scopes i).live then
    if (s.scopes i).isArena then mallocArena oom fuel s i n else plainAlloc s i
  else .wild s

/-- `src/raii.c:272-274` `calloc_arena`: `arena_calloc(scope->arena, (long)count, (long)size)`. -/
def callocArena (oom : Nat → Nat → Bool) (fuel : Nat) (s : St) (i : Nat) (count : BitVec 32) (n : W) : Out :=
  if (s.scopes i).live then
    match (s.scopes i).arena with
    | none => .panic s
    | some a =>
      match Ar.calloc oom fuel s.heap a (count.signExtend 64) n with
      | .got h p => .ok { s with heap := h, blocks := ⟨a, p, (count.signExtend 64).toInt * n.toInt⟩ :: s.blocks } (.arena p)
      | .running => .running
      | _ => .wild s
  else .wild s

/-- `src/raii.c:265-270` `calloc_by`. -/
def callocBy (oom : Nat → Nat → Bool) (fuel : Nat) (s : St) (i : Nat) (count : BitVec 32) (n : W) : Out :=
  if (s.scopes i).live then
    if (s.scopes i).isArena then callocArena oom fuel s i count n else plainAlloc s i
  else .wild s

/-- `raii_deferred(scope, f, p)` (`src/raii.c:345-465`, C08). -/
def defer (s : St) (i f : Nat) (p : Option Ptr) : Out :=
  if (s.scopes i).live then
    .ok (s.setScope i { s.scopes i with acts := (s.scopes i).acts ++ [.user f p] }) .unit
  else .wild s

/-- One deferral runs. -/
def Act.run (h : Heap) : Act → Ev
  | .user f none => .ran f true
  | .user f (some p) => .ran f (h.live p.blk)
  | .release k => .released k

/-- `src/raii.c:276-292` `raii_delete`: the deferrals run, newest first, the scope is freed. -/
def deleteSt (s : St) (i : Nat) : St :=
  { s.setScope i { s.scopes i with live := false, acts := [] } with
    log := s.log ++ (s.scopes i).acts.reverse.map (Act.run s.heap) }

/-- `src/raii.c:276-292` `raii_delete`. -/
def delete (s : St) (i : Nat) : Out :=
  if (s.scopes i).live then .ok (deleteSt s i) .unit else .wild s

/-- `src/raii.c:294-308` `free_arena`: the arena is read, the scope deleted, then the arena freed. -/
def freeArena (fuel : Nat) (s : St) (i : Nat) : Out :=
  if (s.scopes i).live then
    match (s.scopes i).arena with
    | none => .ok (deleteSt s i) .unit
    | some a =>
      let s := deleteSt s i
      match Ar.free fuel s.heap a with
      | .ok h => .ok { s with heap := h, blocks := s.blocks.filter fun b => b.a ≠ a } .unit
      | .running => .running
      | _ => .wild s
  else .wild s

/-- What a program does with scopes. -/
inductive Op
  | init (i : Nat)
  | initArena (i : Nat)
  | mallocBy (i : Nat) (n : W)
  | mallocArena (i : Nat) (n : W)
  | callocBy (i : Nat) (count : BitVec 32) (n : W)
  | callocArena (i : Nat) (count : BitVec 32) (n : W)
  | defer (i f : Nat) (p : Option Ptr)
  | delete (i : Nat)
  | freeArena (i : Nat)

def step (oom : Nat → Nat → Bool) (fuel : Nat) (s : St) : Op → Out
  | .init i => init s i
  | .initArena i => initArena s i
  | .mallocBy i n => mallocBy oom fuel s i n
  | .mallocArena i n => mallocArena oom fuel s i n
  | .callocBy i c n => callocBy oom fuel s i c n
  | .callocArena i c n => callocArena oom fuel s i c n
  | .defer i f p => defer s i f p
  | .delete i => delete s i
  | .freeArena i => freeArena fuel s i

/-- A history. -/
def run (oom : Nat → Nat → Bool) (fuel : Nat) : St → List Op → Out
  | s, [] => .ok s .unit
  | s, o :: os =>
    match step oom fuel s o with
    | .ok s _ => run oom fuel s os
    | r => r

/-- Nothing created. -/
def empty : St := ⟨Ar.empty, [], fun _ => ⟨false, false, false, none, []⟩, 0, []⟩

end Verif.As
