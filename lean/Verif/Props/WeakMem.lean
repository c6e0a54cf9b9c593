import Verif.Proof.WeakLive

/-!
# C74: locks and futures order memory, also on machines that do not

The orders of memory that `atomic_lock`, `atomic_unlock`, `promise_set` and `promise_get` ask for are enough: a program that touches shared data only with the lock held,
and the data of a future only in its function and after its result was fetched, has no data race.
-/
namespace Verif.Props
open Verif Wm

/-- What `raii.h` says: `thrd_wait` waits until the future is ready. A program that keeps to the plan, where what the function of a future wrote is read after
`thrd_get` or after `thrd_wait`, has no race. -/
def C74_Full : Prop := ∀ P s, Run P true s → s.raced = false

/-- Two threads never have the same lock. -/
theorem C74_lock_exclusive (P : Plan) (also : Bool) (s : Sys) (h : Run P also s) (l t u : Nat) (ht : .user l ∈ s.held t) (hu : .user l ∈ s.held u) : t = u := by
  rcases h.inv.lk (.user l) (fun _ e => by cases e) with ⟨z, _, _, h3⟩ | ⟨w, _, h2, _⟩
  · exact absurd ht (h3 t)
  · rw [h2 t ht, h2 u hu]

/-- No race when what a function wrote is read after `thrd_get`. Missing: `thrd_wait` is not enough. -/
theorem C74_race_free_partial (P : Plan) (s : Sys) (h : Run P false s) : s.raced = false := h.inv.rc rfl

/-- `thrd_get` returns the value of the function. -/
theorem C74_get_value (P : Plan) (also : Bool) (s : Sys) (h : Run P also s) (t f v : Nat) (hg : (f, v) ∈ s.got t) : s.set f = some v :=
  (h.inv.gt t f v hg).2.2

/-- After `thrd_wait` has returned, `thrd_get` does not wait: the first look at the flag ends its loop. -/
theorem C74_wait_then_get (P : Plan) (also : Bool) (s s' : Sys) (h : Run P also s) (t i a b f : Nat) (k : List Instr) (hw : f ∈ s.saw t) (ht : s.todo t = .await f :: k)
    (hs : step s (.run t i a b) = some s') : s'.todo t = k := h.after hw ht hs

/-- A thread inside a call can always go on. -/
theorem C74_not_stuck (P : Plan) (also : Bool) (s : Sys) (h : Run P also s) (t : Nat) (ht : s.todo t ≠ []) : ∃ i a b s', step s (.run t i a b) = some s' := h.goes ht

/-- A lock nobody holds can be taken by whoever tries. -/
theorem C74_lock_available (P : Plan) (also : Bool) (s : Sys) (h : Run P also s) (t l : Nat) (k : List Instr) (ht : s.todo t = .lock (.user l) :: k) (hn : ∀ u, .user l ∉ s.held u) :
    ∃ i b s', step s (.run t i 0 b) = some s' ∧ .user l ∈ s'.held t ∧ s'.todo t = k := h.available (fun _ e => by cases e) ht hn

/-- A future whose function has ended can be fetched by whoever waits for it. -/
theorem C74_get_available (P : Plan) (also : Bool) (s : Sys) (h : Run P also s) (t f v : Nat) (k : List Instr) (ht : s.todo t = .await f :: k) (hs : s.set f = some v)
    (hd : s.todo (P.worker f) = []) : ∃ i s', step s (.run t i 0 0) = some s' ∧ s'.todo t = k := h.ready ht hs hd

/-! ## Runs -/

/-- The state after some steps, the last of which comes first. -/
def after : List Act → Sys
  | [] => init
  | a :: as => (step (after as) a).getD init

theorem step_after {as : List Act} {a : Act} (q : (step (after as) a).isSome = true) : step (after as) a = some (after (a :: as)) := by
  show _ = some ((step (after as) a).getD init)
  cases h : step (after as) a with
  | none => rw [h] at q; cases q
  | some s => rfl

/-- Data 0 belongs to lock 0, all other data to future 0, which thread 0 runs. -/
def plan : Plan := ⟨fun x => if x = 0 then .lock 0 else .future 0, fun _ => 0⟩

/-- Thread 0 writes its data and sets its future. -/
def worked : List Act := [.run 0 0 0 2, .run 0 0 2 3, .run 0 0 0 0, .run 0 0 0 2, .call 0 (.set 0 9), .run 0 0 0 0, .call 0 (.write 1 7)]

theorem worked_run (also : Bool) : Run plan also (after worked) :=
  .run (.run (.run (.run (.call (.run (.call (s := after []) .init (c := .write 1 7) (t := 0) ⟨rfl, rfl⟩ (step_after (as := []) rfl)) (step_after (by decide +kernel))) (c := .set 0 9) (t := 0) ⟨rfl, rfl⟩
    (step_after (by decide +kernel))) (step_after (by decide +kernel))) (step_after (by decide +kernel))) (step_after (by decide +kernel))) (step_after (by decide +kernel))

/-- Thread 1 waits for it. -/
def waited : List Act := .run 1 0 0 0 :: .call 1 (.wait 0) :: worked

theorem waited_run (also : Bool) : Run plan also (after waited) :=
  .run (.call (worked_run also) (c := .wait 0) (t := 1) trivial (step_after (by decide +kernel))) (step_after (by decide +kernel))

/-- And reads what it wrote. -/
theorem C74_full_false : ¬ C74_Full := by
  intro h
  have r : Run plan true (after (.run 1 0 0 0 :: .call 1 (.read 1) :: waited)) :=
    .run (.call (waited_run true) (c := .read 1) (t := 1) (Or.inr (Or.inr ⟨rfl, List.mem_cons_self⟩)) (step_after (by decide +kernel))) (step_after (by decide +kernel))
  have := h _ _ r
  revert this
  decide +kernel

/-- Thread 1 has waited: its `thrd_get` goes through at once. -/
example : ∃ s, Run plan true s ∧ 0 ∈ s.saw 1 ∧ s.todo 1 = [.await 0, .read (.result 0)] :=
  ⟨after (.call 1 (.get 0) :: waited), .call (waited_run true) (c := .get 0) (t := 1) trivial (step_after (by decide +kernel)), List.mem_cons_self, rfl⟩

/-- Thread 1 fetches the result, then reads what the function wrote. -/
def fetched : List Act := .run 1 0 0 0 :: .call 1 (.read 1) :: .run 1 0 0 0 :: .run 1 0 0 0 :: .call 1 (.get 0) :: worked

theorem fetched_run : Run plan false (after fetched) :=
  .run (.call (.run (.run (.call (worked_run false) (c := .get 0) (t := 1) trivial (step_after (by decide +kernel))) (step_after (by decide +kernel))) (step_after (by decide +kernel)))
    (c := .read 1) (t := 1) (Or.inr (Or.inl ⟨9, List.mem_cons_self⟩)) (step_after (by decide +kernel))) (step_after (by decide +kernel))

example : (after fetched).raced = false ∧ (0, 9) ∈ (after fetched).got 1 ∧ (after fetched).set 0 = some 9 ∧ ((after fetched).evs (.data 1)).length = 2 :=
  ⟨C74_race_free_partial _ _ fetched_run, by decide +kernel, C74_get_value _ _ _ fetched_run 1 0 9 (by decide +kernel), by decide +kernel⟩

/-- Thread 0 writes under the lock; thread 1 finds it taken, waits, takes it after thread 0 has left, and reads. -/
def shared : List Act :=
  [.run 1 0 0 0, .call 1 (.read 0), .run 1 0 0 6, .run 1 0 0 0, .run 0 0 3 5, .call 0 (.unlock 0), .run 1 0 0 3, .call 1 (.lock 0), .run 0 0 0 0, .call 0 (.write 0 5), .run 0 0 0 2, .call 0 (.lock 0)]

theorem shared_run : Run plan false (after shared) :=
  .run (.call (.run (.run (.run (.call (.run (.call (.run (.call (.run (.call (s := after []) .init (c := .lock 0) (t := 0) trivial (step_after (as := []) rfl)) (step_after (by decide +kernel)))
    (c := .write 0 5) (t := 0) List.mem_cons_self (step_after (by decide +kernel))) (step_after (by decide +kernel)))
    (c := .lock 0) (t := 1) trivial (step_after (by decide +kernel))) (step_after (by decide +kernel)))
    (c := .unlock 0) (t := 0) List.mem_cons_self (step_after (by decide +kernel))) (step_after (by decide +kernel))) (step_after (by decide +kernel))) (step_after (by decide +kernel)))
    (c := .read 0) (t := 1) List.mem_cons_self (step_after (by decide +kernel))) (step_after (by decide +kernel))

example : (after shared).raced = false ∧ .user 0 ∈ (after shared).held 1 ∧ ((after shared).evs (.data 0)).length = 2 :=
  ⟨C74_race_free_partial _ _ shared_run, by decide +kernel, by decide +kernel⟩

/-- Without the lock the same accesses are a race. -/
example : (after [.run 1 0 0 0, .call 1 (.read 0), .run 0 0 0 0, .call 0 (.write 0 5)]).raced = true := by decide +kernel

end Verif.Props
