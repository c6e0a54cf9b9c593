import Verif.Model.Tso
/-!
# Memory as the programmer imagines it, and a discipline under which it is so
-/
namespace Verif.Ts
variable {σ : Type}

/-- The imagined machine: no queues. -/
structure Sc (σ : Type) where
  mem : Nat → Nat
  loc : Nat → σ

/-- Every instruction acts on memory at once. -/
def Sc.step (p : Prog σ) (s : Sc σ) (i : Nat) : Option (Sc σ) :=
  match p i (s.loc i) with
  | .load x k => some { s with loc := upd s.loc i (k (s.mem x)) }
  | .store x v k => some ⟨upd s.mem x v, upd s.loc i k⟩
  | .lock x f k => some ⟨upd s.mem x (f (s.mem x)), upd s.loc i (k (s.mem x))⟩
  | .fence k => some { s with loc := upd s.loc i k }
  | .halt => none

inductive Sc.Reach (p : Prog σ) (mem : Nat → Nat) (loc : Nat → σ) : Sc σ → Prop
  | start : Sc.Reach p mem loc ⟨mem, loc⟩
  | step {s s'} (i : Nat) : Sc.Reach p mem loc s → s.step p i = some s' → Sc.Reach p mem loc s'

/-- Who owns each place, in each state of the imagined machine; `none`: nobody. -/
abbrev Owner (σ : Type) := Sc σ → Nat → Option Nat

/-- The next instruction of thread `i` touches only what it may: it stores with a plain store only to what it owns, and nothing of what it touches is
another thread's. -/
def Allowed (p : Prog σ) (o : Owner σ) (s : Sc σ) (i : Nat) : Prop :=
  match p i (s.loc i) with
  | .load x _ => o s x = none ∨ o s x = some i
  | .store x _ _ => o s x = some i
  | .lock x _ _ => o s x = none ∨ o s x = some i
  | _ => True

/-- Ownership changes as it may when thread `i` steps from `s` to `s'`: a thread gives away only what it owns, and that only by a locked instruction
or a fence; it takes only what is nobody's; a plain store changes nothing. -/
def Transfers (p : Prog σ) (o : Owner σ) (s s' : Sc σ) (i : Nat) : Prop :=
  match p i (s.loc i) with
  | .load _ _ => ∀ x, o s' x = o s x ∨ o s x = none ∧ o s' x = some i
  | .store _ _ _ => ∀ x, o s' x = o s x
  | _ => ∀ x, o s' x = o s x ∨ o s x = none ∧ o s' x = some i ∨ o s x = some i ∧ o s' x = none

/-- The program keeps to the discipline in the imagined machine. -/
def Disciplined (p : Prog σ) (mem : Nat → Nat) (loc : Nat → σ) (o : Owner σ) : Prop :=
  ∀ s, Sc.Reach p mem loc s → ∀ i, Allowed p o s i ∧ ∀ s', s.step p i = some s' → Transfers p o s s' i

/-- The machine can go on from `t` to `t'`. -/
inductive Runs (p : Prog σ) (t : Tso σ) : Tso σ → Prop
  | refl : Runs p t t
  | step {u u'} (a : Act) : Runs p t u → Ts.step p u a = some u' → Runs p t u'

/-- Only places other than 0, the lock, are touched while the lock is held. -/
def Body.Data : Body → Prop
  | .done => True
  | .load x k => x ≠ 0 ∧ ∀ v, (k v).Data
  | .store x _ k => x ≠ 0 ∧ k.Data

/-- A section that adds 1 to the number at place 1. -/
def count : Body := .load 1 fun v => .store 1 (v + 1) .done

/-- Holds the lock. -/
def Lk.Holds : Lk → Prop
  | .held _ _ => True
  | _ => False

/-- A section run alone. -/
def Body.run : Body → (Nat → Nat) → Nat → Nat
  | .done, m => m
  | .load x k, m => (k (m x)).run m
  | .store x v k, m => k.run (upd m x v)

/-- From the sections `todo` and memory `m`, running sections whole, one after another, each thread's in its order, can leave the sections `td` and
memory `m'`. -/
inductive Serial (todo : Nat → List Body) (m : Nat → Nat) : (Nat → List Body) → (Nat → Nat) → Prop
  | start : Serial todo m todo m
  | section {td : Nat → List Body} {m' : Nat → Nat} (i : Nat) {b : Body} {l : List Body} : Serial todo m td m' → td i = b :: l →
      Serial todo m (upd td i l) (b.run m')

end Verif.Ts
