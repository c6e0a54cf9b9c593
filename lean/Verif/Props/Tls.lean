import Verif.Proof.Tls
/-!
# C61: thread-local variables are private to their threads
-/
namespace Verif.Props
open Verif Verif.Tl

/-- **C61, in full.**  In both builds, whatever the threads do with the variables, in whatever order: a thread reads
what it wrote last to that variable, 0 if nothing, whatever others did; and the variable is empty until that
thread uses it. -/
def C61_Full : Prop :=
  (∀ h, N.run h = expectedAll [] h) ∧ (∀ junk h, E.run junk h = expectedAll [] h)

/-- **C61 with the compiler's thread-local storage.** -/
theorem C61_native (h : List (Nat × Tl.Op)) : N.run h = expectedAll [] h :=
  native (fun _ _ => rfl) (fun _ _ => rfl) h

example : N.run [(0, .write 5 7), (1, .isEmpty 5), (1, .read 5), (1, .write 5 8), (0, .read 5), (0, .isEmpty 6)] =
    [.done, .bool true, .val 0, .done, .val 7, .bool true] := rfl

/-- **C61 emulated, for careful programs**: each call of `var()` runs without interruption by another thread, no
thread reads what it has not written, and none asks whether a variable is empty that no thread has used yet. -/
theorem C61_emulated_partial (junk : Nat → Nat) (h : List (Nat × Tl.Op)) (hc : careful [] h) :
    E.run junk h = expectedAll [] h := emulated EI.start junk h hc

example : careful [] [(0, .write 5 7), (1, .isEmpty 5), (1, .write 5 8), (0, .read 5)] ∧
    E.run (fun _ => 99) [(0, .write 5 7), (1, .isEmpty 5), (1, .write 5 8), (0, .read 5)] =
      [.done, .bool true, .done, .val 7] := by
  refine ⟨?_, rfl⟩
  simp [careful, lastWrite, everUsed]

/-- Emulated, a variable nobody has used is *not* empty for a thread that used the first variable of the program: its
key is still 0, that variable's key.  So `raii_init` (`src/raii.c:103`), which sets up the thread's scope if
`is_raii_empty()`, does not, once the thread has entered a try block. -/
theorem C61_not_empty (junk : Nat → Nat) (t v v' x : Nat) (h : v' ≠ v) :
    E.run junk [(t, .write v x), (t, .isEmpty v')] = [.done, .bool false] ∧
    expectedAll [] [(t, .write v x), (t, .isEmpty v')] = [.done, .bool true] := by
  constructor
  · simp [E.run, runWith, E.step, E.get, E.fetch, E.tssGet, E.start, E.mark, E.create]
  · simp [expectedAll, expected, used, Ne.symm h]

example : (1 : Nat) ≠ 0 := by decide

/-- Emulated, a thread's first read finds whatever `malloc` found. -/
theorem C61_junk (junk : Nat → Nat) (t v : Nat) : E.run junk [(t, .read v)] = [.val (junk 0)] := by
  simp [E.run, runWith, E.step, E.get, E.fetch, E.tssGet, E.start, E.mark, E.create]

theorem C61_full_false : ¬ C61_Full := by
  intro h
  have := h.2 (fun _ => 99) [(0, .read 0)]
  rw [C61_junk] at this
  revert this
  decide

/-- Emulated, two threads at once.  Thread 0 has marked the variable as set up and is about to create the key; thread 1
finds it set up, and looks under key 0.  If another variable has that key, thread 1 gets the *other* variable's
object: what it writes to one it reads from the other. -/
theorem C61_wrong_object (junk : Nat → Nat) (v w x : Nat) (h : v ≠ w) :
    -- thread 1 used `w`, then thread 0 starts `v()`
    let s := ((E.step junk E.start 1 (.write w x)).1).mark v
    -- thread 1 calls `v()`
    (s.get junk 1 v).2 = (s.get junk 1 w).2 ∧ (s.get junk 1 v).2 ≠ none := by
  simp [E.step, E.get, E.fetch, E.tssGet, E.start, E.mark, E.create, h, Ne.symm h]

/-- … and if there is no other variable it gets NULL. -/
theorem C61_null (junk : Nat → Nat) (v : Nat) : ((E.start.mark v).get junk 1 v).2 = none := by
  simp [E.get, E.fetch, E.tssGet, E.start, E.mark]

example : ∃ v w : Nat, v ≠ w := ⟨0, 1, by decide⟩

end Verif.Props
