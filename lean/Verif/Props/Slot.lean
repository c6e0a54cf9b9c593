import Verif.Proof.Slot
/-!
# C102: guarded sections and spawn scopes in each other

English: `thrd_scope`, `thrd_spawn`, `thrd_destroy`, guarded sections and throws may be used in each other in any way.  `thrd_spawn` starts a thread of the newest spawn scope not destroyed, and is refused only
if there is none; an exception thrown is noted with the innermost section and ends the process only outside all sections.
-/
namespace Verif.Props
open Verif Verif.Sl Verif.Sl.Spec

/-- The full statement. -/
def C102_Full : Prop := ∀ p : Prog, AllRight (run p start).1 ⟨[], []⟩

/-- False: a spawn scope is opened, and `thrd_spawn` called in a guarded section. -/
theorem C102_full_false : ¬ C102_Full := fun h => by
  have := h (.opens (.guard true (.spawn .done) .done)) [.opened 0, .enter 1] .refused [.noted 1 panic, .leave] rfl
  simp [Right, Book.after, Book.note] at this

/-- What holds: all programs that call `thrd_spawn` only in the section that opened the newest spawn scope, and let no exception arise in a section that has opened one. -/
theorem C102_tame_partial (p : Prog) (t : Tame false .fresh p) : AllRight (run p start).1 ⟨[], []⟩ :=
  (run_right p false .fresh start t ⟨fun _ => rfl, fun _ _ _ q => (by cases q), fun e => (by cases e)⟩).1

/-- A spawn scope, a section with one of its own, a section in a section that throws, a thread of the first. -/
private def Sl.p : Prog :=
  .opens (.spawn (.guard false (.guard true (.guard false (.throw 3) .done) .done) (.spawn (.guard true (.opens (.spawn (.destroy .done))) (.destroy (.throw 4))))))

example : Tame false .fresh Sl.p ∧ (run Sl.p start).1 =
    [.opened 0, .started 0, .enter 1, .enter 2, .enter 3, .noted 3 3, .leave, .noted 2 3, .leave, .leave, .started 0, .enter 4, .opened 5, .started 5, .destroyed 5, .leave, .destroyed 0, .uncaught 4] := by
  refine ⟨?_, by decide +kernel⟩
  simp [Sl.p, Tame, touches]

/-- In a section that has opened no spawn scope `thrd_spawn` is refused, whatever was opened outside; what it throws is the section's exception. -/
theorem C102_refused (hd : Bool) (b k : Prog) (s : St) : ∃ t, (run (.guard hd (.spawn b) k) s).1 = .enter s.next :: .refused :: .noted s.next panic :: .leave :: t := by
  cases hd with
  | true => exact ⟨(run k (s.leave s.enter)).1, by simp [run, throwIn, St.enter]⟩
  | false => exact ⟨(throwIn (s.leave s.enter) panic).1, by simp [run, throwIn, St.enter]; rfl⟩

/-- So it is wrong exactly if there is a spawn scope. -/
theorem C102_refused_iff (hd : Bool) (b : Prog) (s : St) (h : s.sec = []) : AllRight (run (.guard hd (.spawn b) .done) s).1 ⟨s.live, s.sec⟩ ↔ s.live = [] := by
  cases hd with
  | true => simp [run, throwIn, St.enter, right_cons, right_nil, Right, Book.note]
  | false => simp [run, throwIn, St.enter, St.leave, h, right_cons, right_nil, Right, Book.note]

example : AllRight (run (.guard true (.spawn .done) .done) start).1 ⟨[], []⟩ := (C102_refused_iff true .done start rfl).mpr rfl
example : ¬ AllRight (run (.guard true (.spawn .done) .done) { start with slot := .pool 0, live := [0], next := 1 }).1 ⟨[0], []⟩ := fun h => by
  simpa using (C102_refused_iff true .done { start with slot := .pool 0, live := [0], next := 1 } rfl).mp h

/-- Any number of `thrd_spawn`. -/
def Sl.spawns : Nat → Prog → Prog
  | 0, p => p
  | n + 1, p => .spawn (Sl.spawns n p)

theorem Sl.run_spawns (p : Prog) (s : St) (j : Nat) (h : s.slot = .pool j) (hl : j ∈ s.live) : ∀ n,
    run (Sl.spawns n p) s = (List.replicate n (.started j) ++ (run p s).1, (run p s).2)
  | 0 => rfl
  | n + 1 => by simp [Sl.spawns, run, h, hl, Sl.run_spawns p s j h hl n, List.replicate_succ]

/-- A section, such as the one every thread's function runs in, that opens a spawn scope, starts any number of threads of it and then throws: the pool is taken for the section's scope. -/
theorem C102_throw_undef (hd : Bool) (n e : Nat) (k : Prog) (s : St) :
    run (.guard hd (.opens (Sl.spawns n (.throw e))) k) s =
      (.enter s.next :: .opened (s.next + 1) :: (List.replicate n (.started (s.next + 1)) ++ [.undef]),
        { s with slot := .pool (s.next + 1), live := (s.next + 1) :: s.live, sec := s.next :: s.sec, next := s.next + 2 }, .over) := by
  simp only [run, St.enter]
  rw [Sl.run_spawns (.throw e) _ (s.next + 1) rfl List.mem_cons_self n]
  simp [run, throwIn]

example : (run (.guard true (.opens (.spawn (.spawn (.throw 3)))) .done) start).1 = [.enter 0, .opened 1, .started 1, .started 1, .undef] := by
  have := C102_throw_undef true 2 3 .done start
  exact congrArg Prod.fst this

/-- Then memory outside the pool is written: `err` and `panic` of a scope lie beyond the end of a `struct future_pool`. -/
theorem C102_outside : (offsets 0 memoryMembers)[10]? = some 72 ∧ (offsets 0 memoryMembers)[11]? = some 80 ∧ (offsets 0 poolMembers).getLast? = some 64 := by decide

/-- A section that does not end the process leaves the field as it found it: `k` goes on in such a state, or the section's exception is thrown on in it. -/
theorem C102_restored (hd : Bool) (b k : Prog) (s : St) (h : (run b s.enter).2.2 ≠ .over) :
    ∃ s₁ : St, s₁.slot = s.slot.init ∧ s₁.sec = s.sec ∧ s₁.live = (run b s.enter).2.1.live ∧
      ((run (.guard hd b k) s).2 = (run k s₁).2 ∨ (hd = false ∧ ∃ e, (run b s.enter).2.2 = .thrown e ∧ (run (.guard hd b k) s).2 = (throwIn s₁ e).2)) := by
  refine ⟨s.leave (run b s.enter).2.1, rfl, rfl, rfl, ?_⟩
  simp only [run]
  revert h
  generalize run b s.enter = R
  obtain ⟨tr, s1, o⟩ := R
  intro h
  cases o with
  | over => exact absurd rfl h
  | ok => exact .inl rfl
  | thrown e =>
    cases hd with
    | true => exact .inl rfl
    | false => exact .inr ⟨rfl, e, rfl, rfl⟩

example : (run (.opens (.guard true (.throw 3) .done)) start).2.1.slot = .pool 0 := rfl

/-- So a spawn scope opened in a section is not the one `thrd_spawn` uses after it: the older one is, though the newer is not destroyed. -/
theorem C102_older (hd : Bool) (k : Prog) (s : St) (j : Nat) (h : s.slot = .pool j) (hl : j ∈ s.live) :
    ∃ t, (run (.guard hd (.opens .done) (.spawn k)) s).1 = [.enter s.next, .opened (s.next + 1), .leave, .started j] ++ t := by
  simp [run, St.enter, St.leave, h, Slot.init, hl]

example : ¬ AllRight (run (.opens (.guard true (.opens .done) (.spawn .done))) start).1 ⟨[], []⟩ := fun h => by
  have := h [.opened 0, .enter 1, .opened 2, .leave] (.started 0) [] rfl
  simp [Right, Book.after, Book.note] at this

/-- Without a spawn scope `thrd_spawn` panics only in a thread that has no scope; a section before it, or anything else that makes the scope, and a null pointer is used. -/
theorem C102_null (hd : Bool) (k : Prog) :
    run (.spawn k) start = ([.refused, .uncaught panic], start, .over) ∧ (run (.guard hd .done (.spawn k)) start).1 = [.enter 0, .leave, .undef] := ⟨rfl, rfl⟩

/-- The field is not cleared when the spawn scope is destroyed. -/
theorem C102_dangling (k : Prog) (s : St) (h : ∀ j ∈ s.live, j < s.next) : (run (.opens (.destroy (.spawn k))) s).1 = [.opened s.next, .destroyed s.next, .undef] := by
  have : s.next ∉ s.live := fun q => Nat.lt_irrefl _ (h _ q)
  simp [run, this]

example : (run (.opens (.destroy (.spawn .done))) start).1 = [.opened 0, .destroyed 0, .undef] := C102_dangling .done start (by simp [start])

end Verif.Props
