import Verif.Proof.WorkSteal
/-!
# C62: the work-stealing scheduler
-/
namespace Verif.Props
open Verif Verif.Ws

/-- For any number of tasks, any number of workers and any schedule. -/
def C62_Full : Prop :=
  ∀ (n k : Nat) (x : Bool) (ls : List Lbl) (s : St), 1 ≤ n → 1 ≤ k → By k ls → run n x (start n) ls = some s → Right n s

/-- The old join count is kept in an `int`: with 2^32 + 1 tasks the first to join runs the continuation. -/
theorem C62_too_many : ∃ ls s, By 1 ls ∧ run (2 ^ 32 + 1) true (start (2 ^ 32 + 1)) ls = some s ∧
    s.conts = 1 ∧ s.done = true ∧ s.printed 1 = 0 :=
  ⟨[.obtain 0 0, .print 0, .join 0, .cont 0], _, by unfold By; decide, rfl, rfl, rfl, rfl⟩

theorem C62_full_false : ¬ C62_Full := by
  intro h
  obtain ⟨ls, s, hb, hr, hc, _, hp⟩ := C62_too_many
  have := (h (2 ^ 32 + 1) 1 true ls s (by decide) (by decide) hb hr).2.2.2.2.1 hc 1 (by decide)
  omega

/-- A queue that hands a task out twice (C46) makes the scheduler free it twice. -/
theorem C62_twice : ∃ ls s, By 2 ls ∧ run 240 false (start 240) ls = some s ∧ s.bad = true ∧ s.printed 0 = 2 :=
  ⟨[.obtain 0 0, .obtain 1 0, .print 0, .print 1], _, by unfold By; decide, rfl, rfl, rfl⟩

/-- Up to 2^32 tasks, delivered once each: at every moment of every schedule all is as it should be.
Missing: more tasks, and queues that deliver twice. -/
theorem C62_right_partial {n : Nat} (h1 : 1 ≤ n) (h2 : n ≤ 2 ^ 32) (ls : List Lbl) (s : St)
    (h : run n true (start n) ls = some s) : Right n s :=
  (I.run h2 ls (I.start h1 h2) h).right

example : ∃ s, run 2 true (start 2) [.obtain 0 1, .obtain 1 0, .print 1, .print 0, .join 0, .nothing 0, .join 1, .check 0,
    .cont 1, .nothing 0, .check 0] = some s ∧ s.wk 0 = .exited ∧ s.wk 1 = .look ∧ s.conts = 1 ∧ s.printed 0 = 1 ∧
    s.printed 1 = 1 := ⟨_, rfl, rfl, rfl, rfl, rfl, rfl⟩

/-- What the example ships: 240 tasks. -/
theorem C62_shipped (ls : List Lbl) (s : St) (h : run 240 true (start 240) ls = some s) : Right 240 s :=
  C62_right_partial (by decide) (by decide) ls s h

/-- No schedule gets stuck: from every moment the workers can still finish all tasks and leave. -/
theorem C62_ends {n k : Nat} (h1 : 1 ≤ n) (h2 : n ≤ 2 ^ 32) (hk : 1 ≤ k) (ls : List Lbl) (s : St) (hb : By k ls)
    (h : run n true (start n) ls = some s) :
    ∃ ls' s', By k ls' ∧ run n true s ls' = some s' ∧ (∀ w, w < k → s'.wk w = .exited) ∧ ∀ t, t < n → s'.printed t = 1 := by
  obtain ⟨hi, hkk⟩ := IK.run h2 ls (I.start h1 h2) (K.start n k) hb h
  obtain ⟨l1, s1, b1, r1, d1⟩ := to_done h2 hk (work n s) s (Nat.le_refl _) hi hkk
  have hi1 := I.run h2 l1 hi r1
  obtain ⟨l2, s2, b2, r2, d2, e2⟩ := all_leave h2 s1 hi1 d1 k (Nat.le_refl _)
  have hr := (I.run h2 l2 hi1 r2).right
  exact ⟨l1 ++ l2, s2, b1.append b2, by rw [run_append, r1]; exact r2, e2, hr.2.2.2.2.1 (hr.2.2.2.1.1 d2)⟩

/-- And none gets on forever: at most three steps for each task and one for the continuation, whatever the schedule. -/
theorem C62_bounded {n : Nat} (h1 : 1 ≤ n) (h2 : n ≤ 2 ^ 32) (ls : List Lbl) (s : St)
    (h : run n true (start n) ls = some s) : (ls.filter Lbl.busy).length ≤ 3 * n + 1 := by
  have := work_run h2 ls (I.start h1 h2) h
  rw [work_start] at this
  omega

example : ([.obtain 0 0, .nothing 1, .print 0, .check 1, .join 0, .cont 0].filter Lbl.busy).length = 3 * 1 + 1 ∧
    (run 1 true (start 1) [.obtain 0 0, .nothing 1, .print 0, .check 1, .join 0, .cont 0]).isSome := ⟨rfl, rfl⟩

/-- Without any task, no worker ever leaves. -/
theorem C62_no_tasks (x : Bool) (ls : List Lbl) (s : St) (h : run 0 x (start 0) ls = some s) :
    s.done = false ∧ ∀ w, s.wk w ≠ .exited := by
  obtain ⟨a, b⟩ := none_run x ls (fun _ => .inl rfl) rfl h
  refine ⟨a, fun w e => ?_⟩
  rcases b w with e' | e' <;> rw [e] at e' <;> cases e'

end Verif.Props
