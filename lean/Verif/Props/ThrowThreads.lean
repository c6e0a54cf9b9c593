import Verif.Proof.ThrowShared
/-!
# C72: throwing while scoped memory is shared by threads
-/
namespace Verif.Props
open Verif Verif.Tt
open Verif.Tm (Op)

/-- C72 in full: whatever several threads do with blocks, scopes, protected pointers and throws, nothing
undefined happens; every block of a scope is handed to its release function when the scope is released
and at no other time, by the thread that releases it; and a throw releases the pointers its own thread
protected in the current block, and nothing else. -/
def C72_Full : Prop :=
  ∀ (mem : Nat → Nat) (os : List (Nat × Op)), (A.start mem).Legal os →
    ∃ N, ∀ n, N ≤ n → ∃ st, run n (start mem) os = some (some st) ∧ ∀ t, (st.loc t).trace = (((A.start mem).run os).loc t).out

/-- The release functions thread `t` called, in a history that starts with empty memory. -/
def threadCalls (t : Nat) (os : List (Nat × Op)) : Option (Option (List (Nat × Nat))) :=
  (run 20 (start fun _ => 0) os).map (·.map fun st => (st.loc t).trace)

/-- What it should have called. -/
def threadDue (t : Nat) (os : List (Nat × Op)) : List (Nat × Nat) := (((A.start fun _ => 0).run os).loc t).out

/-- Thread 0 takes zeroed memory from its scope in a block; thread 1 puts the number 7 into a result it allocates
from that scope (what `promise_set` does); thread 0 throws. -/
def resultStored : List (Nat × Op) :=
  [(0, .init), (0, .enter false), (0, .alloc 0 100 1 true), (1, .init), (1, .alloc 0 300 1 true), (1, .store 300 7), (0, .throw)]

theorem resultStored_legal : (A.start fun _ => 0).Legal resultStored := by
  simp [resultStored, A.Legal, A.legal, A.start, A.step, A.view, Tm.A.legal, Tm.A.step, Tm.A.set, turn, look, Tm.Apart]

/-- Alone, thread 0 would have released nothing; but because thread 1 allocated its result from the same
scope, thread 0's throw passes the other thread's *result* to the release function. -/
theorem C72_result_released :
    threadCalls 0 resultStored = some (some [(1, 7)]) ∧ threadDue 0 resultStored = [] ∧
    threadCalls 0 (only 0 resultStored) = some (some []) := by decide

theorem C72_full_false : ¬ C72_Full := by
  intro h
  obtain ⟨N, h⟩ := h _ _ resultStored_legal
  obtain ⟨st, h1, h2⟩ := h (N + 20) (by omega)
  have : (run (N + 20) (start fun _ => 0) resultStored).map (·.map fun st => (st.loc 0).trace) = some (some [(1, 7)]) := rfl
  rw [h1] at this
  simp only [Option.map_some, Option.some.injEq, h2] at this
  exact absurd this (by decide)

/-- A throw in one thread releases a pointer another thread has protected and still uses. -/
theorem C72_others_pointer :
    let os : List (Nat × Op) := [(0, .scope 5), (1, .enter false), (1, .alloc 5 100 1 true), (0, .enter false), (0, .store 10 55),
      (0, .protect 0 10 2), (0, .alloc 5 200 1 true), (0, .store 200 7), (1, .throw)]
    threadCalls 1 os = some (some [(1, 7), (2, 55)]) ∧ threadDue 1 os = [] := by
  decide

/-- One thread took zeroed memory from a scope, another releases the scope: the first one's throw reads freed memory. -/
theorem C72_reads_freed :
    let os : List (Nat × Op) := [(0, .scope 5), (1, .enter false), (1, .alloc 5 100 1 true), (0, .delete 5), (1, .throw)]
    threadCalls 1 os = none ∧ threadDue 1 os = [] := by
  decide

/-- Threads that share nothing: whatever they do, and in whatever order, each sees exactly what it would
see if it were the only thread - it is defined for all together if and only if it is for each alone, and
then each calls the same release functions, and its memory holds the same. -/
theorem C72_apart (w : Own) (mem : Nat → Nat) (os : List (Nat × Op)) (hw : ∀ p ∈ os, w.ok p.1 p.2) (n : Nat) :
    ((∃ st, run n (start mem) os = some (some st)) ↔ ∀ t, ∃ st, run n (start mem) (only t os) = some (some st)) ∧
    ∀ st, run n (start mem) os = some (some st) → ∀ t, ∃ sa, run n (start mem) (only t os) = some (some sa) ∧
      (st.loc t).trace = (sa.loc t).trace ∧ (st.loc t).over = (sa.loc t).over ∧ ∀ a, w.addr a = t → st.mem a = sa.mem a := by
  have h := run_apart (n := n) (sa := fun _ => start mem) (fun t => Alone.start w t mem) hw
  refine ⟨h.1, fun st e t => ?_⟩
  obtain ⟨sa, e1, e2⟩ := h.2 st e t
  have h3 : view st t = _ := e2.same
  refine ⟨sa, e1, congrArg Tm.St.trace h3, congrArg Tm.St.over h3, fun a ha => ?_⟩
  have := congrFun (congrArg Tm.St.mem h3) a
  simp only [Tm.patch, Own.zone, ha, beq_self_eq_true, if_true] at this
  exact this

/-- Even threads own the even addresses, odd ones the odd; each throws with scoped memory in use. -/
example : ∃ w : Own, ∀ p ∈ ([(0, .init), (1, .init), (0, .enter false), (1, .enter false), (0, .alloc 0 100 1 false), (0, .store 100 7),
    (1, .alloc 2 101 3 true), (0, .throw), (1, .throw), (1, .leave), (1, .finish)] : List (Nat × Op)), w.ok p.1 p.2 :=
  ⟨⟨fun s => s / 2, fun _ => 0, fun a => a % 2, fun t => by omega⟩, by simp [Own.ok]⟩

example : threadCalls 1 [(0, .init), (1, .init), (0, .enter false), (1, .enter false), (0, .alloc 0 100 1 false), (0, .store 100 7),
    (1, .alloc 2 101 3 true), (0, .throw), (1, .throw), (1, .leave), (1, .finish)] = some (some [(3, 101)]) := by decide

/-- C72 for histories in which no thread throws in a block in which it allocated scoped memory or released
a scope (and the other conditions of C57 hold of each thread): however the threads share the scopes,
nothing undefined happens, every block is released with its scope, by the thread that releases it, and
a throw releases the pointers its thread protected in the current block and nothing else.
Missing: the other histories, for which it fails; and operations that overlap in time. -/
theorem C72_released_partial (mem : Nat → Nat) (os : List (Nat × Op)) (hl : (A.start mem).Legal os)
    (ht : (A.start mem).Tame (fun _ => [false]) os) (n : Nat) (hn : os.length ≤ n) :
    ∃ st, run n (start mem) os = some (some st) ∧ ∀ t, (st.loc t).trace = (((A.start mem).run os).loc t).out :=
  (M.start mem).run (k := 0) (by intro t fr hf; simp [A.start, A.view] at hf; simp [hf]) (by omega) hl ht

/-- Two threads, one scope: thread 1 allocates from thread 0's scope and from a common one, both throw in blocks
that only protect pointers, thread 0 releases everything. -/
def sharedHistory : List (Nat × Op) :=
  [(0, .init), (0, .scope 5), (0, .alloc 5 100 1 false), (1, .init), (1, .alloc 0 200 3 true), (1, .alloc 5 300 3 true), (1, .store 200 9),
   (0, .store 10 55), (1, .store 11 66), (0, .enter false), (1, .enter false), (0, .protect 0 10 2), (1, .protect 1 11 4), (0, .throw),
   (1, .throw), (1, .leave), (1, .finish), (0, .leave), (0, .delete 5), (0, .finish)]

theorem noName {l : List (List (Nat × Nat × Nat))} {r : Nat} (h : ∀ fr ∈ l, ∀ p ∈ fr, p.1 ≠ r) : ∀ fr ∈ l, ∀ p ∈ fr, p.1 ≠ r := h

example : (A.start fun _ => 0).Legal sharedHistory :=
  ⟨rfl, rfl, ⟨trivial, trivial⟩,
   rfl, rfl, ⟨⟨by simp [look], rfl⟩, rfl⟩,
   rfl, rfl, ⟨⟨Option.some_ne_none _, by simp⟩, trivial⟩,
   rfl, rfl, ⟨trivial, trivial⟩,
   rfl, rfl, ⟨⟨Option.some_ne_none _, by simp⟩, trivial⟩,
   rfl, rfl, ⟨⟨Option.some_ne_none _, by simp⟩, trivial⟩,
   rfl, rfl, ⟨trivial, trivial⟩,
   rfl, rfl, ⟨trivial, trivial⟩,
   rfl, rfl, ⟨trivial, trivial⟩,
   rfl, rfl, ⟨trivial, trivial⟩,
   rfl, rfl, ⟨trivial, trivial⟩,
   rfl, rfl, ⟨noName (l := [[], []]) (by simp), fun | 0 => noName (l := [[], []]) (by simp) | 1 => noName (l := [[], []]) (by simp) | _ + 2 => noName (l := [[]]) (by simp)⟩,
   rfl, rfl, ⟨noName (l := [[], []]) (by simp), fun | 0 => noName (l := [[(0, 10, 2)], []]) (by simp; omega) | 1 => noName (l := [[], []]) (by simp) | _ + 2 => noName (l := [[]]) (by simp)⟩,
   rfl, rfl, ⟨⟨by decide, by decide, trivial⟩, trivial⟩,
   rfl, rfl, ⟨⟨by decide, by decide, trivial⟩, trivial⟩,
   rfl, rfl, ⟨List.cons_ne_nil _ _, trivial⟩,
   rfl, rfl, ⟨trivial, trivial⟩,
   rfl, rfl, ⟨List.cons_ne_nil _ _, trivial⟩,
   rfl, rfl, ⟨⟨by simp [look], Option.some_ne_none _⟩, rfl⟩,
   rfl, rfl, ⟨trivial, trivial⟩, trivial⟩

example : (A.start fun _ => 0).Tame (fun _ => [false]) sharedHistory :=
  ⟨Or.inl rfl, trivial, trivial, Or.inl rfl, trivial, trivial, trivial, trivial, trivial, rfl, rfl, trivial, trivial, rfl, rfl, trivial, trivial, trivial, trivial, trivial, trivial⟩

example : threadDue 0 sharedHistory = [(2, 55), (3, 300), (1, 100), (3, 200)] ∧ threadDue 1 sharedHistory = [(4, 66)] := by decide

end Verif.Props
