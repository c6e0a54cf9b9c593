import Verif.Model.Future
/-!
# What futures are for
-/
namespace Verif.Fu

/-- The value a caller of `thrd_get` expects, if the function returns one. -/
def Outcome.word : Outcome → Option Nat
  | .null => some 0
  | .plain v => some v
  | .returning p _ _ => some p
  | .throws _ => none

/-- What may be read of a result: the word, and the size and the data that came with it (zero if the function returned a word only). -/
def Outcome.kept : Outcome → Option Val
  | .null => none
  | .plain v => some ⟨v, 0, 0⟩
  | .returning p size data => some ⟨p, size, data⟩
  | .throws _ => none

/-- The value a result handle should give. -/
def Outcome.handle : Outcome → Option Got
  | .null => some (.word 0)
  | .plain v => some (.word v)
  | .returning p size data => some (if size = 0 then .word p else .copy size data)
  | .throws _ => none

/-- The function has returned (or thrown). -/
def WPc.over : WPc → Bool
  | .clear | .call => false
  | _ => true

/-- The function is over and its outcome - a value, NULL or an exception - was made known. -/
def Sys.told (y : Sys) (i : Nat) : Prop := ∃ f, y.futs i = some f ∧ (f.w = .leave ∨ f.w = .exited)

/-- Future `i` exists and nobody has called `thrd_get` on it, or `thrd_sync` on its pool. -/
def Sys.unasked (y : Sys) (i : Nat) : Prop :=
  (∃ f, y.futs i = some f ∧ f.g = .idle) ∧ (i ∈ y.pool.ids → y.pool.s = .idle)

/-- `thrd_get` is over. -/
def GPc.final : GPc → Bool
  | .returned _ | .threw _ | .logicError | .crashed => true
  | _ => false

/-- A thread uses futures one after the other: when it creates one, `thrd_get` on every earlier one is over; and it throws nothing of its own
in between. -/
def OneByOne (cpus own : Nat) : Sys → List Act → Prop
  | _, [] => True
  | y, a :: h =>
    (match a with
      | .async _ j | .spawn _ j => ∀ k f, y.futs k = some f → f.job.scope = j.scope → f.g.final = true
      | .oops s _ => ∀ k f, y.futs k = some f → f.job.scope = s → f.g.final = true
      | .getter i => ∀ f, y.futs i = some f → ∀ k f', y.futs k = some f' → k ≠ i → f'.job.scope = f.caller → f'.g.final = true
      | _ => True) ∧ OneByOne cpus own (step cpus own y a) h

/-- How often an action occurs. -/
def times (p : Act → Bool) (h : List Act) : Nat := (h.filter p).length

def isWorker (i : Nat) : Act → Bool
  | .worker k => k == i
  | _ => false

def isGetter (i : Nat) : Act → Bool
  | .getter k => k == i
  | _ => false

def isSyncer : Act → Bool
  | .syncer => true
  | _ => false

/-- `thrd_sync` is over. -/
def SPc.final : SPc → Bool
  | .synced | .threw _ | .crashed => true
  | _ => false

/-- Nothing that belongs to a future was released. -/
def Sys.clean (y : Sys) : Prop := ∀ i f, y.futs i = some f → f.live = true ∧ f.p.freed = false

end Verif.Fu
