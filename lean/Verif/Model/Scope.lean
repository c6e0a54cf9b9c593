import Verif.Model.Array
/-!
# Scopes (`memory_t`), deferred functions and scoped memory

Any number of scopes, each with its own deferral array.  Deferred functions are user code: the
environment says, for each function and argument, which scope operations its body performs, so a
deferred function may itself defer, allocate, release, cancel or fire.

Undefined behaviour (an access outside the live block of the array, a call through uninitialised
memory, an access to a deleted scope, a dereference through the protector) is the outcome `wild`.

Simplifications: `RAII_ASSERT` is empty (build without `USE_DEBUG`, `include/raii.h`), `RAII_LOG`
output is dropped, the exception context that `malloc_full` links its protector into is modelled
separately (`Verif.Model.Except`), the scope's arena is modelled separately (`Verif.Model.Arena`).
-/
namespace Verif

/-- A function pointer stored in a deferral: user code, `deferred_canceled` (`src/raii.c:359`), or
whatever uninitialised memory contains. -/
inductive Fn
  | user (n : Nat)
  | canceled
  | garbage
  deriving DecidableEq, Repr

/-- `include/raii.h:155-160` `defer_func_t`, 32 bytes. -/
structure Entry where
  func : Fn
  data : Nat
  check : Bool
  deriving DecidableEq, Repr

/-- Contents of array slots that were never written. -/
def junkEntry : Entry := { func := .garbage, data := 0, check := false }

/-- `sizeof(defer_func_t)`. -/
def DEFER_SIZE : W := 32

/-- `sizeof(raii_array_t)`. -/
def ARRAY_SIZE : W := 24

/-- `include/raii.h:162-175` `memory_t`.  `defer` is the deferral array as `raii_array_t` sees it
through the cast of `defer_t *`: type at offset 0, base at 8, elements at 16.  `tail` is the word
at offset 24 of `defer_t`, which `defer_t` itself calls `base.elements`; nothing ever writes it. -/
structure Scope where
  defer : Arr Entry
  tail : W
  isProtected : Bool
  protector : Bool
  err : Bool
  isRecovered : Bool
  mid : W
  deleted : Bool

/-- `src/raii.c:103-114` (`raii_init`) and `src/raii.c:200-210` (`unique_init`): a fresh scope. -/
def freshScope : Scope :=
  { defer := arrInit, tail := 0, isProtected := false, protector := false, err := false,
    isRecovered := false, mid := -1, deleted := false }

/-- Calls a user makes on a scope. -/
inductive Op
  /-- `raii_deferred(s, f, x)`, `raii_defer`. -/
  | defer (s f x : Nat)
  /-- `raii_recover_by(s, f, x)`, `raii_recover`. -/
  | recover (s f x : Nat)
  /-- `malloc_full(s, size, f)` and `calloc_full`; `malloc_by`, `malloc_default` pass `f = free`. -/
  | malloc (s size f : Nat)
  /-- `raii_deferred_cancel(s, index)`, `raii_defer_cancel`. -/
  | cancel (s : Nat) (index : W)
  /-- `raii_deferred_fire(s, index)`, `raii_defer_fire`. -/
  | fire (s : Nat) (index : W)
  /-- `raii_deferred_free(s)`, `raii_deferred_clean`. -/
  | release (s : Nat)
  /-- `raii_delete(s)` of a scope made by `unique_init`. -/
  | delete (s : Nat)
  /-- An exception being thrown stores itself in the scope: `src/raii.c:91-97`, `src/raii.c:524-531`. -/
  | setErr (s : Nat)

/-- The scope an operation is applied to. -/
def Op.scope : Op → Nat
  | defer s _ _ | recover s _ _ | malloc s _ _ | cancel s _ | fire s _ | release s | delete s
  | setErr s => s

/-- What can be observed. -/
inductive Event
  /-- A deferral was accepted (and which index was returned to the caller). -/
  | registered (s f x : Nat) (index : W)
  /-- A deferral was not accepted: the array could not grow. -/
  | refused (s f x : Nat)
  /-- A block was handed out. -/
  | allocated (s p f : Nat)
  /-- A deferred function was called because its scope is being released. -/
  | ran (s f x : Nat)
  /-- A deferred function was called by `raii_deferred_fire`. -/
  | fired (s f x : Nat)
  /-- Release of a scope begins / is complete. -/
  | relBegin (s : Nat)
  | relEnd (s : Nat)
  deriving DecidableEq, Repr

/-- The scope an event belongs to. -/
def Event.scope : Event → Nat
  | registered s _ _ _ | refused s _ _ | allocated s _ _ | ran s _ _ | fired s _ _ | relBegin s
  | relEnd s => s

/-- All scopes, the observable history (oldest first) and the number of allocator calls so far. -/
structure World where
  scopes : Nat → Scope
  trace : List Event
  tick : Nat

/-- What the outside supplies: the allocator's answer to its `n`-th call, the scope operations made
by the body of user function `f` called with `x`, and the compiler's implementation of subtracting
two `raii_array_t *` given the byte distance (C defines it only for multiples of 24). -/
structure Env where
  alloc : Nat → W → Option Nat
  body : Nat → Nat → List Op
  ptrdiff : W → W

/-- Result of running code. -/
inductive Out
  | ok (w : World)
  /-- Undefined behaviour. -/
  | wild (w : World)
  /-- `raii_panic` was called because memory ran out. -/
  | panic (w : World)
  /-- Did not return within the steps looked at. -/
  | running (w : World)

/-- The world reached. -/
def Out.world : Out → World
  | ok w | wild w | panic w | running w => w

/-- Sequencing: stop at the first outcome that is not a normal return. -/
def Out.andThen (o : Out) (k : World → Out) : Out :=
  match o with
  | .ok w => k w
  | .wild w => .wild w
  | .panic w => .panic w
  | .running w => .running w

/-- Replace one scope. -/
def World.set (w : World) (s : Nat) (sc : Scope) : World :=
  { w with scopes := fun t => if t = s then sc else w.scopes t }

/-- Record an event. -/
def World.log (w : World) (e : Event) : World := { w with trace := w.trace ++ [e] }

/-- One allocator call was made. -/
def World.ticked (w : World) : World := { w with tick := w.tick + 1 }

/-- `src/raii.c:349-352` `raii_deferred_array_get_element`: `&((raii_array_t *)array->base.base)[index]`.
`array->base.base` is at offset 16 of `defer_t`, where `raii_array_t` keeps `elements`. -/
def getElement (sc : Scope) (index : W) : W := sc.defer.elements + ARRAY_SIZE * index

/-- `src/raii.c:344-347` `raii_deferred_array_get_index`: `elem - (raii_array_t *)array->base.base`. -/
def getIndex (env : Env) (sc : Scope) (elem : W) : W := env.ptrdiff (elem - sc.defer.elements)

/-- `src/raii.c:449-465` `raii_deferred_any`. -/
def deferAny (env : Env) (s f x : Nat) (check : Bool) (w : World) : Out :=
  let sc := w.scopes s
  match arrAppend junkEntry sc.defer DEFER_SIZE (env.alloc w.tick) with
  | (none, a) => .ok ((w.ticked.set s { sc with defer := a }).log (.refused s f x))
  | (some p, a) =>
    match arrStore a DEFER_SIZE p.toNat { func := .user f, data := x, check := check } with
    | none => .wild w
    | some a =>
      let sc' := { sc with defer := a }
      .ok ((w.ticked.set s sc').log (.registered s f x (getIndex env sc' p)))

/-- Value the last accepted deferral returned, `(size_t)-1` if it was refused. -/
def lastIndex (w : World) : W :=
  match w.trace.getLast? with
  | some (.registered _ _ _ i) => i
  | _ => -1

/-- `src/raii.c:220-231` `malloc_full` and `src/raii.c:248-259` `calloc_full`. -/
def mallocFull (env : Env) (s size f : Nat) (w : World) : Out :=
  match env.alloc w.tick (BitVec.ofNat 64 size) with
  | none => .panic w.ticked
  | some p =>
    let w := w.ticked
    let cont (w : World) : Out :=
      let sc := { w.scopes s with protector := true, isProtected := true }
      (deferAny env s f p false ((w.set s sc).log (.allocated s p f))).andThen fun w =>
        .ok (w.set s { w.scopes s with mid := lastIndex w })
    if (w.scopes s).protector then cont w
    else match env.alloc w.tick 40 with
      | none => .panic w.ticked
      | some _ => cont w.ticked

/-- `src/raii.c:361-376` `raii_deferred_internal`: `raii_deferred_array_len` reads offset 24. -/
def deferredInternal (s : Nat) (deferred : W) (w : World) : Out :=
  let sc := w.scopes s
  if deferred = getElement sc (sc.tail - 1) then
    .ok (w.set s { sc with defer := { sc.defer with elements := sc.defer.elements - 1 } })
  else
    match arrLoad sc.defer DEFER_SIZE deferred.toNat with
    | none => .wild w
    | some e =>
      match arrStore sc.defer DEFER_SIZE deferred.toNat { e with func := .canceled, check := false } with
      | none => .wild w
      | some a => .ok (w.set s { sc with defer := a })

/-- Address of the array's block, 0 when there is none. -/
def baseAddr (a : Arr Entry) : Nat := (a.base.map Block.addr).getD 0

/-- Address of entry `k` of the block cached in `defers`. -/
def entryAddr (cached k : Nat) : Nat := cached + k * 32

/-- `func(data)` through the function pointer of an entry (`src/raii.c:390`, `src/raii.c:410`); `ev`
is the event to record for user code, `call` runs the user function's body. -/
def invoke (call : Nat → Nat → World → Out) (ev : Nat → Nat → Event) (e : Entry) (w : World) : Out :=
  match e.func with
  | .garbage => .wild w
  | .canceled => .ok w
  | .user f => call f e.data (w.log (ev f e.data))

/-- The loop of `src/raii.c:403-412` (`raii_deferred_run`), from `i` down to 1.  `cached` is the
block address read before the loop; if the block has been reallocated since, using it is a use after
free.  `call` runs the body of a user function. -/
def runLoop (call : Nat → Nat → World → Out) (s cached : Nat) : Nat → World → Out
  | 0, w => .ok w
  | i + 1, w =>
    let sc := w.scopes s
    if baseAddr sc.defer ≠ cached then .wild w
    else match arrLoad sc.defer DEFER_SIZE (entryAddr cached i) with
      | none => .wild w
      | some e =>
        let w := if sc.err && e.check then w.set s { sc with isRecovered := false } else w
        (invoke call (Event.ran s) e w).andThen fun w =>
          let sc := w.scopes s
          if baseAddr sc.defer ≠ cached then .wild w
          else match arrLoad sc.defer DEFER_SIZE (entryAddr cached i) with
            | none => .wild w
            | some e =>
              match arrStore sc.defer DEFER_SIZE (entryAddr cached i) { e with data := 0 } with
              | none => .wild w
              | some a => runLoop call s cached i (w.set s { sc with defer := a })

/-- `src/raii.c:395-428` `raii_deferred_run(scope, 0)`.  If an exception is being handled, the scope
is protected and no deferral ran, the protector's function is called with the first word of the
protected block (`*scope->protector->ptr`, `ptr` being the block itself): `wild`. -/
def deferredRun (call : Nat → Nat → World → Out) (s : Nat) (w : World) : Out :=
  let sc := w.scopes s
  let n := sc.defer.elements.toNat
  (runLoop call s (baseAddr sc.defer) n (w.set s { sc with isRecovered := !sc.err })).andThen fun w =>
    let sc := w.scopes s
    if sc.isProtected && sc.protector && sc.err && n = 0 then .wild w
    else
      let prot := if sc.isProtected && sc.protector && sc.err then false else sc.isProtected
      .ok (w.set s { sc with defer := { sc.defer with elements := 0 }, isProtected := prot,
                             protector := false })

/-- `src/raii.c:436-443` `raii_deferred_free`. -/
def deferredFree (call : Nat → Nat → World → Out) (s : Nat) (w : World) : Out :=
  if (w.scopes s).defer.type = RAII_DEF_ARR then
    (deferredRun call s w).andThen fun w =>
      .ok (w.set s { w.scopes s with defer := arrReset (w.scopes s).defer })
  else .ok w

/-- Run a list of operations in order. -/
def Out.seq (f : Op → World → Out) : List Op → World → Out
  | [], w => .ok w
  | o :: os, w => (f o w).andThen (Out.seq f os)

/-- One scope operation.  `fuel` bounds the nesting of deferred functions calling each other.
`cancel`: `src/raii.c:378-382`; `fire`: `src/raii.c:384-393`; `delete`: `src/raii.c:276-292`
(`raii_delete` frees the scope itself, so any later use of it is `wild`). -/
def exec (env : Env) : Nat → Op → World → Out
  | 0, _, w => .running w
  | fuel + 1, op, w =>
    let call := fun f x => Out.seq (exec env fuel) (env.body f x)
    if (w.scopes op.scope).deleted then .wild w
    else match op with
      | .defer s f x => deferAny env s f x false w
      | .recover s f x => deferAny env s f x true w
      | .malloc s size f => mallocFull env s size f w
      | .cancel s index => deferredInternal s (getElement (w.scopes s) index) w
      | .fire s index =>
        let p := getElement (w.scopes s) index
        match arrLoad (w.scopes s).defer DEFER_SIZE p.toNat with
        | none => .wild w
        | some e =>
          (invoke call (Event.fired s) e w).andThen fun w => deferredInternal s p w
      | .release s =>
        (deferredFree call s (w.log (.relBegin s))).andThen fun w => .ok (w.log (.relEnd s))
      | .delete s =>
        (deferredFree call s (w.log (.relBegin s))).andThen fun w =>
          .ok ((w.log (.relEnd s)).set s { w.scopes s with deleted := true })
      | .setErr s => .ok (w.set s { w.scopes s with err := true })

/-- A whole program: operations one after the other on fresh scopes. -/
def program (env : Env) (fuel : Nat) (ops : List Op) : Out :=
  Out.seq (exec env fuel) ops { scopes := fun _ => freshScope, trace := [], tick := 0 }

end Verif
