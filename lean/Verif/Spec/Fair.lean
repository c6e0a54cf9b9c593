import Verif.Model.Spin
/-!
# Waiting for a lock in runs that never end

A schedule says what is done at every time 0, 1, 2, …; `state v σ n` is the lock and the threads before the `n`-th action.
-/
namespace Verif.Sp

/-- The state before the `n`-th action. -/
def state (v : Nat) (σ : Nat → Act) : Nat → Sys
  | 0 => clear
  | n + 1 => step v (state v σ n) (σ n)

/-- Thread `t` has called `atomic_lock`, and the call has not returned. -/
def Waits (y : Sys) (t : Nat) : Prop := y.pc t = .tas ∨ y.pc t = .spin

/-- Thread `u` gets the lock with the `m`-th action. -/
def Gets (v : Nat) (σ : Nat → Act) (m u : Nat) : Prop := (state v σ m).pc u ≠ .held ∧ (state v σ (m + 1)).pc u = .held

/-- The machine runs every thread that waits: it always takes another step. -/
def Fair (v : Nat) (σ : Nat → Act) : Prop := ∀ t n, Waits (state v σ n) t → ∃ m, n ≤ m ∧ σ m = .step t

/-- The program unlocks what it locks: a thread that has the lock calls `atomic_unlock` some time. -/
def Unlocks (v : Nat) (σ : Nat → Act) : Prop := ∀ t n, (state v σ n).pc t = .held → ∃ m, n ≤ m ∧ σ m = .unlock t

end Verif.Sp
