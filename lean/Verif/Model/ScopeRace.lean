/-!
# Several threads registering with one scope

`promise_set` (`src/future.c:23-36`) runs in a worker and calls `calloc_full` on the scope of the thread that made the promise; that thread goes on
using its scope (`promise_create`, `src/future.c:13-21`, does at every `thrd_async` and `thrd_spawn`).  Nothing orders the two.  Here any number
of threads call `raii_deferred_any` (`src/raii.c:449-465`) on one scope, one access to shared memory at a time.

Simplifications: sequential consistency; the allocator does not fail; element sizes and byte addresses are left out (they are in
`Verif.Model.Array`): a block is a number of cells; the three stores of `src/raii.c:457-459` are one step.
-/
namespace Verif.Rc

/-- A heap block: how many entries fit and what is in them. -/
structure Block (α : Type) where
  cap : Nat
  cells : Nat → Option α

/-- Where a thread is in `raii_deferred_any`; `x` is what it registers. -/
inductive Pc (α : Type)
  | idle
  /-- Before `src/raii.c:68`: reads `a->elements`. -/
  | load (x : α)
  /-- Before `realloc_array`, `src/raii.c:77`; `n` is the number of elements it read. -/
  | grow (x : α) (n : Nat)
  /-- Before `a->base = new_base`, `src/raii.c:81`. -/
  | setBase (x : α) (b : Nat)
  /-- Before `src/raii.c:84`. -/
  | slot (x : α)
  /-- In `a->elements++`, after the read of `a->base` and `a->elements`. -/
  | inc (x : α) (b : Option Nat) (n : Nat)
  /-- Before `src/raii.c:457-459`. -/
  | put (x : α) (b : Option Nat) (n : Nat)
  deriving DecidableEq

/-- The deferral array of one scope (`raii_array_t`, `include/raii.h:144-148`), the heap and the threads.  `done`: what the calls that have returned
registered, newest first.  `wild`: freed memory was accessed or freed again, or an access was outside its block. -/
structure Sys (α : Type) where
  elements : Nat
  base : Option Nat
  blocks : Nat → Option (Block α)
  fresh : Nat
  th : Nat → Pc α
  done : List α
  wild : Bool

inductive Act (α : Type)
  /-- Thread `j` calls `raii_deferred(scope, f, x)`. -/
  | call (j : Nat) (x : α)
  /-- One step of thread `j`. -/
  | step (j : Nat)
  deriving DecidableEq

variable {α : Type}

/-- `raii_array_init`, `src/raii.c:5-14`. -/
def init : Sys α := { elements := 0, base := none, blocks := fun _ => none, fresh := 0, th := fun _ => .idle, done := [], wild := false }

def Sys.go (y : Sys α) (j : Nat) (p : Pc α) : Sys α := { y with th := fun i => if i = j then p else y.th i }

/-- `realloc`: the old block is freed, the new one has its contents. -/
def Sys.realloc (y : Sys α) (n : Nat) : Sys α :=
  match y.base with
  | none => { y with blocks := fun i => if i = y.fresh then some ⟨n, fun _ => none⟩ else y.blocks i, fresh := y.fresh + 1 }
  | some b =>
    match y.blocks b with
    | none => { y with wild := true }
    | some o =>
      { y with
        blocks := fun i => if i = y.fresh then some ⟨n, fun k => if k < o.cap then o.cells k else none⟩ else if i = b then none else y.blocks i,
        fresh := y.fresh + 1 }

/-- `raii_array_append` and `raii_deferred_any`: `src/raii.c:67-85`, `src/raii.c:449-465`. -/
def stepTh (y : Sys α) (j : Nat) : Sys α :=
  match y.th j with
  | .idle => y
  | .load x => y.go j (if y.elements % 16 = 0 then .grow x y.elements else .slot x)
  | .grow x n => (y.realloc (n + 16)).go j (.setBase x y.fresh)
  | .setBase x b => { y.go j (.slot x) with base := some b }
  | .slot x => y.go j (.inc x y.base y.elements)
  | .inc x b n => { y.go j (.put x b n) with elements := n + 1 }
  | .put x b n =>
    match b.bind y.blocks with
    | none => { y with wild := true }
    | some o =>
      if n < o.cap then
        { y.go j .idle with
          blocks := fun i => if some i = b then some { o with cells := fun k => if k = n then some x else o.cells k } else y.blocks i,
          done := x :: y.done }
      else { y with wild := true }

def step (y : Sys α) : Act α → Sys α
  | .call j x => match y.th j with | .idle => y.go j (.load x) | _ => y
  | .step j => stepTh y j

def run (y : Sys α) (h : List (Act α)) : Sys α := h.foldl step y

end Verif.Rc
