import Verif.Model.Scope
/-!
# What scopes promise, said about the observable history alone

The checkers below read the events of one scope, oldest first, and reject (`none`) a history that
breaks the promise.  They know nothing about arrays, blocks or indices.
-/
namespace Verif

/-- The events of scope `s`. -/
def events (s : Nat) (w : World) : List Event := w.trace.filter (fun e => e.scope = s)

/-- The deferrals accepted and not yet run, newest first, and whether a release is under way. -/
structure Check where
  stack : List (Nat × Nat)
  opened : Bool
  deriving DecidableEq

/-- The LIFO promise.  A deferred function is called only during a release, it is always the newest
outstanding deferral and with its own argument (so each runs at most once, in reverse order of
registration), and when a release is complete nothing is outstanding (so each runs). -/
def checkStep (c : Check) : Event → Option Check
  | .registered _ f x _ => some { c with stack := (f, x) :: c.stack }
  | .refused _ _ _ => some c
  | .allocated _ _ _ => some c
  | .ran _ f x =>
    match c.opened, c.stack with
    | true, top :: rest => if top = (f, x) then some { c with stack := rest } else none
    | _, _ => none
  | .fired _ _ _ => none
  | .relBegin _ => if c.opened then none else some { c with opened := true }
  | .relEnd _ => if c.opened ∧ c.stack = [] then some { c with opened := false } else none

/-- Read a whole history. -/
def checkRun : Check → List Event → Option Check
  | c, [] => some c
  | c, e :: es => (checkStep c e).bind fun c => checkRun c es

/-- The history keeps the LIFO promise. -/
def Lifo (es : List Event) : Prop := (checkRun { stack := [], opened := false } es).isSome

/-- Obligations of a scope including the blocks it handed out, newest first.  A block handed out is
an obligation to call its release function with it, whether or not the scope managed to record it:
the acceptance or refusal that comes right after is the scope's own bookkeeping (`pending`). -/
structure MemCheck where
  stack : List (Nat × Nat)
  opened : Bool
  pending : Option (Nat × Nat)
  deriving DecidableEq

/-- The memory promise: as `checkStep`, and each block handed out is released, exactly once, by its
own release function, during the release of the scope and not before. -/
def memStep (c : MemCheck) : Event → Option MemCheck
  | .allocated _ p f => some { c with stack := (f, p) :: c.stack, pending := some (f, p) }
  | .registered _ f x _ =>
    if c.pending = some (f, x) then some { c with pending := none }
    else some { c with stack := (f, x) :: c.stack }
  | .refused _ _ _ => some { c with pending := none }
  | .ran _ f x =>
    match c.opened, c.stack with
    | true, top :: rest => if top = (f, x) then some { c with stack := rest } else none
    | _, _ => none
  | .fired _ _ _ => none
  | .relBegin _ => if c.opened then none else some { c with opened := true }
  | .relEnd _ => if c.opened ∧ c.stack = [] then some { c with opened := false } else none

/-- Read a whole history. -/
def memRun : MemCheck → List Event → Option MemCheck
  | c, [] => some c
  | c, e :: es => (memStep c e).bind fun c => memRun c es

/-- The history keeps the memory promise. -/
def MemLifo (es : List Event) : Prop :=
  (memRun { stack := [], opened := false, pending := none } es).isSome

/-- The operation registers something on scope `s`. -/
def Op.registers (s : Nat) : Op → Bool
  | .defer t _ _ | .recover t _ _ | .malloc t _ _ => t = s
  | _ => false

/-- The operation releases scope `s`. -/
def Op.releases (s : Nat) : Op → Bool
  | .release t | .delete t => t = s
  | _ => false

/-- The operation cancels or fires a deferral of scope `s` by index. -/
def Op.indexes (s : Nat) : Op → Bool
  | .cancel t _ | .fire t _ => t = s
  | _ => false

/-- No scope is used for new registrations after it has been released. -/
def NoReuse (s : Nat) (ops : List Op) : Prop :=
  ops.Pairwise fun a b => a.releases s = true → b.registers s = false

/-- The deferred functions of the program leave scope `s` alone. -/
def Leaves (env : Env) (s : Nat) : Prop := ∀ f x, ∀ o ∈ env.body f x, o.scope ≠ s

/-- Every answer of the allocator is one a real allocator can give. -/
def Env.Real (env : Env) : Prop :=
  ∀ n size addr, env.alloc n size = some addr → 0 < addr ∧ addr + size.toNat ≤ 2 ^ 64

end Verif

namespace Verif

/-- How often `f(x)` was called on behalf of scope `s`. -/
def timesRan (s f x : Nat) (es : List Event) : Nat := es.count (.ran s f x)

/-- How often `f` with argument `x` was accepted as a deferral. -/
def timesRegistered (f x : Nat) (es : List Event) : Nat :=
  es.countP fun
    | .registered _ f' x' _ => f' = f ∧ x' = x
    | _ => false

/-- Once a release of `s` is complete nothing is called on behalf of `s` any more. -/
def QuietAfterRelease (s : Nat) (es : List Event) : Prop :=
  ∀ pre post, es = pre ++ .relEnd s :: post → ∀ f x, Event.ran s f x ∉ post

/-- The calls made by releases of scope `s`, in order. -/
def ranList (s : Nat) (es : List Event) : List (Nat × Nat) :=
  es.filterMap fun
    | .ran t f x => if t = s then some (f, x) else none
    | _ => none

/-- The calls made by `raii_deferred_fire` on scope `s`, in order. -/
def firedList (s : Nat) (es : List Event) : List (Nat × Nat) :=
  es.filterMap fun
    | .fired t f x => if t = s then some (f, x) else none
    | _ => none

/-- The deferred functions perform no scope operation at all. -/
def Leaf (env : Env) : Prop := ∀ f x, env.body f x = []

/-- No deleted scope is used again. -/
def NoUseAfterDelete (ops : List Op) : Prop :=
  ops.Pairwise fun a b => ∀ s, a = .delete s → b.scope ≠ s

/-- The deferrals `ds` on scope `s`, in order. -/
def defers (s : Nat) (ds : List (Nat × Nat)) : List Op := ds.map fun d => .defer s d.1 d.2

/-- Subtraction of pointers to 24-byte objects as the C standard defines it: exact on multiples of
24 (and unspecified elsewhere). -/
def StandardDiff (ptrdiff : W → W) : Prop :=
  ∀ q : Nat, 24 * q < 2 ^ 63 → ptrdiff (BitVec.ofNat 64 (24 * q)) = BitVec.ofNat 64 q

/-- Subtraction of pointers to 24-byte objects as compilers lower it: shift right by 3, then
multiply by the inverse of 3. -/
def shiftDiff (d : W) : W := d.sshiftRight 3 * 0xAAAAAAAAAAAAAAAB

end Verif
