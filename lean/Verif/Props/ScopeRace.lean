import Verif.Proof.ScopeRace
/-!
# C56: threads registering with one scope
-/
namespace Verif.Props
open Verif Verif.Rc

/-- C56 as stated: whatever the schedule, no freed memory is touched and no registration is lost. -/
def C56_Full : Prop := ∀ h : List (Act Nat), Kept (run init h)

def C56_before : List (Act Nat) := [.call 0 7, .step 0, .step 0, .step 0, .step 0, .step 0, .step 0]

/-- Two threads read the same number of elements: the second overwrites the entry of the first, one registration is lost. -/
def C56_lost_schedule : List (Act Nat) :=
  C56_before ++ [.call 0 8, .call 1 9, .step 0, .step 1, .step 0, .step 1, .step 0, .step 1, .step 0, .step 1]

theorem C56_lost : (run init C56_lost_schedule).done = [9, 8, 7] ∧ (run init C56_lost_schedule).kept = [some 9, some 7] ∧
    ∀ j, (run init C56_lost_schedule).th j = .idle := by
  refine ⟨by decide, by decide, fun j => ?_⟩
  match j with
  | 0 => decide
  | 1 => decide
  | n + 2 => rfl

/-- The array grows in one thread while another is about to write its entry: the entry is written to memory that was freed. -/
def C56_freed_schedule : List (Act Nat) :=
  (List.range 15).flatMap (fun k => [.call 0 k, .step 0, .step 0, .step 0, .step 0, .step 0, .step 0]) ++
  [.call 0 8, .step 0, .step 0, .step 0, .call 1 9, .step 1, .step 1, .step 0]

theorem C56_freed : (run init C56_freed_schedule).wild = true := by decide +kernel

/-- The last entry that fits is taken by another thread after a thread has seen that there is room: it writes behind the end of the block. -/
def C56_outside_schedule : List (Act Nat) :=
  (List.range 15).flatMap (fun k => [.call 0 k, .step 0, .step 0, .step 0, .step 0, .step 0, .step 0]) ++
  [.call 0 8, .step 0, .call 1 9, .step 1, .step 1, .step 1, .step 1, .step 0, .step 0]

theorem C56_outside : (run init C56_outside_schedule).wild = false ∧ (run init C56_outside_schedule).th 0 = .put 8 (some 0) 16 ∧
    ((run init C56_outside_schedule).blocks 0).map (·.cap) = some 16 ∧ (run init (C56_outside_schedule ++ [.step 0])).wild = true := by
  decide +kernel

theorem C56_full_false : ¬ C56_Full := by
  intro h
  have := (h C56_freed_schedule).1
  rw [C56_freed] at this
  cases this

/-- C56, proved part: for every number of threads and every history in which a call begins only when no other is going on, no freed memory is touched,
and once every call has returned, releasing the scope runs exactly what was registered, last first.  Missing: calls that overlap, for which it is
false (`C56_lost`, `C56_freed`). -/
theorem C56_serial_partial {α : Type} (h : List (Act α)) (S : Serial init h) :
    Kept (run init h) ∧ ((∀ j, (run init h).th j = .idle) → (run init h).kept = (run init h).done.map some) := by
  have I := Inv.init.run h S
  exact ⟨⟨I.1, fun hq => I.kept hq ▸ .refl _⟩, I.kept⟩

/-- Non-vacuity: two threads, one after the other; the array grows. -/
example : ∃ h : List (Act Nat), Serial init h ∧ (run init h).kept = [some 9, some 7] ∧ ∀ j, (run init h).th j = .idle := by
  refine ⟨C56_before ++ [.call 1 9, .step 1, .step 1, .step 1, .step 1], ?_, by decide, ?_⟩
  · simp only [C56_before, List.cons_append, List.nil_append, Serial, step, stepTh, init, Sys.go, Sys.realloc, and_true, true_and]
    refine ⟨fun _ => trivial, fun i => ?_⟩
    match i with
    | 0 => rfl
    | n + 1 => rfl
  · intro j
    match j with
    | 0 => decide
    | 1 => decide
    | n + 2 => rfl

end Verif.Props
