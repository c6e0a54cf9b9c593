import Verif.Model.ThrowThreads
import Verif.Spec.ThrowMem
/-!
# What throwing should do when scoped memory is shared by threads: still nothing
-/
namespace Verif.Tt
open Verif.Tm (Op)

/-! ## Threads that share nothing -/

/-- Whose each scope, record and address is; a thread's own scope is its own. -/
structure Own where
  scope : Nat → Nat
  record : Nat → Nat
  addr : Nat → Nat
  own : ∀ t, scope (2 * t) = t

/-- The operation names only what is thread `t`'s. -/
def Own.ok (w : Own) (t : Nat) : Op → Prop
  | .scope s | .delete s => w.scope s = t
  | .alloc s b _ _ => w.scope s = t ∧ w.addr b = t
  | .store a _ => w.addr a = t
  | .protect r a _ => w.record r = t ∧ w.addr a = t
  | .unprotect r => w.record r = t
  | _ => True

/-- What thread `t` does in a history. -/
def only (t : Nat) (os : List (Nat × Op)) : List (Nat × Op) := os.filter fun p => p.1 = t

/-! ## Threads that share scopes -/

/-- What a thread should see of its own: `Tm.A` without what is common. -/
structure ALoc where
  frame : List (Nat × Nat × Nat)
  outer : List (List (Nat × Nat × Nat))
  out : List (Nat × Nat)
  over : Bool

/-- The process as it should be; `ended` after an uncaught throw. -/
structure A where
  loc : Nat → ALoc
  scopes : Nat → Option (List (Nat × Nat))
  mem : Nat → Nat
  ended : Bool

def A.start (mem : Nat → Nat) : A := ⟨fun _ => ⟨[], [], [], false⟩, fun _ => none, mem, false⟩

/-- What thread `t` should see. -/
def A.view (x : A) (t : Nat) : Tm.A :=
  ⟨(x.loc t).frame, (x.loc t).outer, fun s => x.scopes (look t s), x.mem, (x.loc t).out, (x.loc t).over⟩

/-- Thread `t` does `o`: as if it were alone (`Tm.A.step`); its own scope goes with it. -/
def A.step (x : A) (t : Nat) (o : Op) : A :=
  let y := (x.view t).step (turn t o)
  ⟨fun u => if u = t then ⟨y.frame, y.outer, y.out, y.over⟩ else x.loc u,
   fun s => if s = 2 * t ∧ y.over = true then none else y.scopes (look t s), y.mem,
   x.ended || (o == .throw && (x.loc t).outer == [])⟩

def A.run (x : A) : List (Nat × Op) → A
  | [] => x
  | (t, o) :: os => (x.step t o).run os

/-- As documented, and with several threads: only scopes made by `unique_init` (odd ones) are made and
released, and the local records of different threads are different. -/
def A.legal (x : A) (t : Nat) (o : Op) : Prop :=
  (x.view t).legal (turn t o) ∧
  match o with
  | .scope s | .delete s => s % 2 = 1
  | .protect r _ _ => ∀ u, ∀ fr ∈ (x.loc u).frame :: (x.loc u).outer, ∀ p ∈ fr, p.1 ≠ r
  | _ => True

def A.Legal (x : A) : List (Nat × Op) → Prop
  | [] => True
  | (t, o) :: os => x.ended = false ∧ (x.loc t).over = false ∧ x.legal t o ∧ (x.step t o).Legal os

/-- The histories that go well: every thread's part is tame (`Tm.A.tame`).  `ds t`: whether thread `t`
touched scoped memory in its current block, and in the enclosing ones. -/
def A.Tame (x : A) : (Nat → List Bool) → List (Nat × Op) → Prop
  | _, [] => True
  | ds, (t, o) :: os => match ds t with
    | [] => False
    | d :: e => (x.view t).tame d (turn t o) ∧ (x.step t o).Tame (fun u => if u = t then Tm.flags d e o else ds u) os

end Verif.Tt
