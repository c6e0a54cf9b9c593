import Verif.Proof.SigAsync
/-!
# C84: signals may arrive at any moment
-/
namespace Verif.Props
open Verif Verif.Sa

/-- C84 in full, on systems whose `ex_setjmp` saves the mask: whatever signals arrive, and whenever, a program runs as it should. -/
def C84_Full : Prop := ∀ (w : World) (passes : Nat) (mask : Nat → Bool) (s : Stmt), w.saves = true → Fine w.name mask (run w passes mask s)

/-- Signal 2 (its exception has the name 102) arrives at moment `t`, if the thread is at `p` then. -/
def once (p : Place) (t : Nat) (saves : Bool := true) : World :=
  { arrivals := fun q u => if q = p ∧ u = t then [2] else [], pick := fun _ => 0, junk := fun _ => 5, saves := saves, name := fun s => s + 100 }

/-- No signal blocked. -/
def unblocked : Nat → Bool := fun _ => false

/-- `try { 1; } catch_any { 2; } end_try; 3;`. -/
def plain : Stmt := .seq (.tryCatch (.act 1) .any (.act 2) none) (.act 3)

/-- `try { throw(7); } catch_any { 2; } end_try`. -/
def throws : Stmt := .tryCatch (.throw 7) .any (.act 2) none

/-- The numbers of the actions done, in order. -/
def acts (tr : List Ev) : List Nat := (tr.filterMap fun | .act n _ => some n | _ => none).reverse

def isWild : Out → Bool
  | .wild _ => true
  | _ => false

def isOk : Out → Bool
  | .ok _ => true
  | _ => false

/-- C84, first refutation: a signal that arrives after `ex_try` has announced the block's context and before it has filled the jump buffer
makes `ex_throw` jump to nowhere. -/
theorem C84_wild_false : isWild (run (once .window 1) 9 unblocked plain) = true := by decide

theorem C84_full_false : ¬ C84_Full := by
  intro h
  have h := h (once .window 1) 9 unblocked plain rfl
  have hw := C84_wild_false
  cases ho : run (once .window 1) 9 unblocked plain with
  | wild st => rw [ho] at h; exact h
  | ok st => rw [ho] at hw; cases hw
  | jump j v st => rw [ho] at hw; cases hw
  | dead e st => rw [ho] at hw; cases hw
  | running st => rw [ho] at hw; cases hw

/-- C84, second refutation: a signal that arrives while `ex_throw` has all signals blocked is delivered as soon as it unblocks them, and its
exception takes the place of the one being thrown: `throw(7)` is caught as 102, and 7 is lost. -/
theorem C84_lost_false : isOk (run (once .blocked 4) 9 unblocked throws) = true ∧
    lost (· + 100) (run (once .blocked 4) 9 unblocked throws).st.trace = [7] := by decide

/-- C84, third refutation: a signal that arrives after `ex_setjmp` returned and before its value is assigned finds whatever was in the
variable; the block's handler, which catches everything, does not run, and the program ends. -/
theorem C84_skipped_false : acts (run (once .assign 2) 9 unblocked plain).st.trace = [] ∧
    (match run (once .assign 2) 9 unblocked plain with | .dead e _ => e | _ => 0) = 102 := by decide

/-- C84, fourth refutation: where `ex_setjmp` does not save the mask, a signal that was caught once stays blocked: the same signal is not
raised again. -/
theorem C84_nosave_false : let w : World := { once .user 3 false with arrivals := fun q u => if q = .user ∧ (u = 3 ∨ u = 11) then [2] else [] }
    isOk (run w 9 unblocked (.seq plain plain)) = true ∧ owed 2 (run w 9 unblocked (.seq plain plain)).st.trace = true ∧
    (run w 9 unblocked (.seq plain plain)).st.mask 2 = true := by decide

/-- C84, partial: where `ex_setjmp` saves the mask, no action of the program - in the body, in a handler, in `finally` or after the block - ever runs with
another mask than the program's own, and the mask is that one at the end: whatever arrives, and whenever, and however the program ends. -/
theorem C84_masks_partial (w : World) (passes : Nat) (mask : Nat → Bool) (s : Stmt) (hs : w.saves = true) :
    Masked mask (run w passes mask s).st.trace ∧ ∀ st, run w passes mask s = .ok st → st.mask = mask := by
  obtain ⟨P, _⟩ := run_post w passes mask s
  cases ho : run w passes mask s with
  | ok st => rw [ho] at P; exact ⟨P.1.tr.acts hs, fun st' e => by cases e; exact P.2.2.1 hs⟩
  | jump j v st => rw [ho] at P; exact ⟨P.1.tr.acts hs, nofun⟩
  | dead e st => rw [ho] at P; exact ⟨P.tr.acts hs, nofun⟩
  | wild st => rw [ho] at P; exact ⟨P.1.acts hs, nofun⟩
  | running st => rw [ho] at P; exact ⟨P.acts hs, nofun⟩

/-- Not vacuous: a signal arrives in the body, is caught, and the handler and what follows run with nothing blocked. -/
example : acts (run (once .user 3) 9 unblocked plain).st.trace = [2, 3] ∧ isOk (run (once .user 3) 9 unblocked plain) = true ∧
    (run (once .user 3) 9 unblocked plain).st.mask 2 = false := by decide

/-- C84, partial: there, a program that comes to its end has had every signal it does not block raised, whenever it arrived. -/
theorem C84_raised_partial (w : World) (passes : Nat) (mask : Nat → Bool) (s : Stmt) (hs : w.saves = true) (st : St)
    (ho : run w passes mask s = .ok st) (t : Nat) (ht : mask t = false) : owed t st.trace = false := by
  obtain ⟨P, Q⟩ := run_post w passes mask s
  rw [ho] at P
  rw [P.1.owed t]
  refine decide_eq_false fun hm => ?_
  have := Q st ho hs t hm
  rw [ht] at this; cases this

/-- Not vacuous: the signal arrives while another exception is thrown, and is raised. -/
example : let o := run (once .blocked 4) 9 unblocked throws
    isOk o = true ∧ (o.st.trace.any fun | .arrived 2 => true | _ => false) = true ∧ (o.st.trace.any fun | .raised 2 => true | _ => false) = true := by
  decide

/-- C84, partial: nothing undefined happens unless a signal arrives in the window of `ex_try` before the jump buffer is filled. -/
theorem C84_defined_partial (w : World) (passes : Nat) (mask : Nat → Bool) (s : Stmt) (hw : ∀ t, w.arrivals .window t = []) (st : St) :
    run w passes mask s ≠ .wild st := by
  intro ho
  obtain ⟨P, _⟩ := run_post w passes mask s
  rw [ho] at P
  obtain ⟨t, ht⟩ := P.2
  exact ht (hw t)

/-- Not vacuous: the signal arrives within `ex_throw`. -/
example : (∀ t, (once .blocked 4).arrivals .window t = []) ∧ isOk (run (once .blocked 4) 9 unblocked throws) = true :=
  ⟨fun t => by simp [once], by decide⟩

/-- C84, partial: whatever arrives, what a handler catches is what was thrown or raised last; the program never throws over an exception in
flight, so that an exception is only ever lost to a signal; a program comes to its end with nothing in flight, and is ended by what is in flight. -/
theorem C84_flight_partial (w : World) (passes : Nat) (mask : Nat → Bool) (s : Stmt) :
    wrong w.name (run w passes mask s).st.trace = false ∧ clash w.name (run w passes mask s).st.trace = false ∧
    (∀ st, run w passes mask s = .ok st → inFlight w.name st.trace = none) ∧
    (∀ e st, run w passes mask s = .dead e st → inFlight w.name st.trace = some e) ∧
    (∀ j v st, run w passes mask s ≠ .jump j v st) := by
  obtain ⟨P, _⟩ := run_post w passes mask s
  cases ho : run w passes mask s with
  | ok st => rw [ho] at P; exact ⟨P.1.tr.wrong, P.1.tr.clash, fun st' e => by cases e; exact P.1.fl, nofun, nofun⟩
  | jump j v st =>
    rw [ho] at P
    obtain ⟨_, _, h3, _, h5, _⟩ := P
    have : j = 0 := h3
    omega
  | dead e st => rw [ho] at P; exact ⟨P.tr.wrong, P.tr.clash, nofun, fun e' st' h => by cases h; exact P.fl, nofun⟩
  | wild st => rw [ho] at P; exact ⟨P.1.wrong, P.1.clash, nofun, nofun, nofun⟩
  | running st => rw [ho] at P; exact ⟨P.wrong, P.clash, nofun, nofun, nofun⟩

/-- Not vacuous: two exceptions are thrown, and a signal arrives while the second one is, which is lost to it. -/
example : let w := { once .user 0 with arrivals := fun _ u => if u = 13 then [2] else [] }
    let o := run w 9 unblocked (.tryCatch (.tryCatch (.throw 7) .any (.throw 8) none) .any (.act 9) (some 4))
    isOk o = true ∧ lost w.name o.st.trace = [8] ∧ acts o.st.trace = [9, 4] ∧ o.st.trace.length = 8 := by decide

/-- C84, partial: if signals arrive one at a time and only while the program's own code runs - in bodies, handlers and elsewhere, but not within `ex_try`,
`ex_throw`, `ex_end_try` or a `finally` part - everything is as it should be: each signal becomes its exception, which is caught or ends
the program; nothing is lost. -/
theorem C84_quiet_partial (w : World) (passes : Nat) (mask : Nat → Bool) (s : Stmt) (hs : w.saves = true) (q : Quiet w) :
    Fine w.name mask (run w passes mask s) := by
  have h1 := C84_masks_partial w passes mask s hs
  have h3 := C84_flight_partial w passes mask s
  obtain ⟨P, _⟩ := run_post w passes mask s
  cases ho : run w passes mask s with
  | ok st =>
    rw [ho] at P h1
    exact ⟨h1.1, h1.2 st rfl, fun t ht => C84_raised_partial w passes mask s hs st ho t ht, P.1.tr.wrong, P.1.tr.lost q hs, P.1.fl⟩
  | jump j v st => exact absurd ho (h3.2.2.2.2 j v st)
  | dead e st => rw [ho] at P h1; exact ⟨h1.1, P.tr.wrong, P.tr.lost q hs, P.fl⟩
  | wild st => exact absurd ho (C84_defined_partial w passes mask s (fun t => q.place _ t (by decide)) st)
  | running st => exact trivial

/-- Signal 2 arrives inBoth while the program's own code runs. -/
def inBoth : World :=
  { once .user 6 with arrivals := fun q u => if q = .user ∧ (u = 6 ∨ u = 11) then [2] else [] }

/-- Not vacuous: the signal arrives in the body of the inner block, and again in its handler; the outer handler runs, and `finally`. -/
example : Quiet inBoth ∧ acts (run inBoth 9 unblocked (.tryCatch plain .any (.act 9) (some 4))).st.trace = [9, 4] ∧
    isOk (run inBoth 9 unblocked (.tryCatch plain .any (.act 9) (some 4))) = true := by
  refine ⟨⟨fun p t hp => if_neg (fun h => hp h.1), fun t => ?_⟩, by decide⟩
  show (if _ then [2] else [] : List Nat).length ≤ 1
  split <;> decide

end Verif.Props
