import Verif.Spec.TlsMore
import Verif.Proof.TlsMore
import Verif.Proof.TlsEmu
/-!
# C91 — a thread-local variable can be set to another object and deleted, in the one thread

For `thrd_local(type, var, NULL)`: after `var_update(&o)` the calling thread's `var()` is `&o`; what is written through it is written to `o` and what is
written to `o` is seen through it.  After `var_del()` the calling thread has no object, and its next `var()` is a new one, holding zeros.  Other threads'
variables are as before.  The specification is in `Spec/TlsMore.lean`.
-/
namespace Verif.Props
open Verif Verif.Tu
open Verif.Tl (Res)

/-- **C91**, full: whatever the threads do, with either storage, and whatever `malloc`'s blocks hold. -/
def C91_Full : Prop :=
  (∀ h : History, N.run h = expectedAll true [] h) ∧ ∀ (junk : Nat → Nat) (h : History), E2.run junk h = expectedAll true [] h

/-! ## The compiler's storage -/

/-- **C91**, exactly what holds with the compiler's storage: everything, but that the object is not new after `var_del`: it holds what was last written to
the thread's own object. -/
theorem C91_native (h : History) : N.run h = expectedAll false [] h :=
  native ⟨fun _ _ => rfl, fun _ _ => rfl, fun _ => rfl⟩ h

/-- **C91**, with the compiler's storage: the statement, for histories in which no thread, after `var_del`, reads its own object before it writes to it. -/
theorem C91_native_partial (h : History) (hf : fresh [] h) : N.run h = expectedAll true [] h := by
  rw [C91_native, expected_new hf]

-- Two threads; the first sets its variable to object 7, writes through it, deletes it, and has its own again.
example : fresh [] [(0, .write 0 5), (1, .write 0 6), (0, .update 0 7), (0, .write 0 8), (0, .peek 7), (0, .del 0), (0, .isEmpty 0), (0, .write 0 9),
    (0, .read 0), (1, .read 0)] ∧
    N.run [(0, .write 0 5), (1, .write 0 6), (0, .update 0 7), (0, .write 0 8), (0, .peek 7), (0, .del 0), (0, .isEmpty 0), (0, .write 0 9), (0, .read 0),
      (1, .read 0)] = [.done, .done, .done, .done, .val 8, .done, .bool true, .done, .val 9, .val 6] := by
  refine ⟨⟨trivial, trivial, trivial, trivial, trivial, trivial, trivial, trivial, ?_, ?_, trivial⟩, by decide⟩ <;> intro h <;> exact absurd h (by decide)

/-- After `var_del` a thread finds in its new object what it left in the old one. -/
theorem C91_stale (t v x : Nat) :
    N.run [(t, .write v x), (t, .del v), (t, .isEmpty v), (t, .read v)] = [.done, .done, .bool true, .val x] ∧
    expectedAll true [] [(t, .write v x), (t, .del v), (t, .isEmpty v), (t, .read v)] = [.done, .done, .bool true, .val 0] := by
  rw [C91_native]
  simp [expectedAll, expected, value, refers, ownVal, has]

/-! ## Emulated -/

/-- **C91**, emulated: as long as nothing is deleted (and each thread writes before it reads, as in C61) `var_update` copies what the object holds into the
thread's own; C61 holds of that. -/
theorem C91_emulated_partial (junk : Nat → Nat) (h : History) (hn : ∀ t v, (t, Op.del v) ∉ h) (hc : Tu.careful [] h) :
    E2.run junk h = expectedCopy [] h :=
  copied ⟨⟨fun _ => rfl, fun _ h => (by cases h), fun _ _ h => (by cases h), fun _ _ h => (by cases h), fun _ _ h => (by cases h),
    fun _ _ _ h => (by cases h), fun _ _ _ _ _ h => (by cases h), fun _ _ _ _ h => (by cases h)⟩, fun _ => rfl, fun _ => rfl, fun _ => rfl⟩ junk h hn hc

-- Two threads and two variables, each with its own value, one copied from object 7.
example : Tu.careful [] [(0, .poke 7 5), (0, .update 0 7), (1, .write 0 6), (0, .write 1 8), (0, .read 0), (1, .read 0), (1, .isEmpty 1)] ∧
    E2.run (fun _ => 99) [(0, .poke 7 5), (0, .update 0 7), (1, .write 0 6), (0, .write 1 8), (0, .read 0), (1, .read 0), (1, .isEmpty 1)]
      = [.done, .done, .done, .done, .val 5, .val 6, .bool true] := by
  refine ⟨⟨rfl, rfl, rfl, rfl, by decide, by decide, by decide, trivial⟩, by decide⟩

/-- `var_update` does not set the variable to the object: what is then written to the object is not seen through the variable, what is written through the
variable is not in the object. -/
theorem C91_copy (junk : Nat → Nat) (t v o x y z : Nat) :
    E2.run junk [(t, .poke o x), (t, .update v o), (t, .poke o y), (t, .read v), (t, .write v z), (t, .peek o)]
      = [.done, .done, .done, .val x, .done, .val y] ∧
    expectedAll true [] [(t, .poke o x), (t, .update v o), (t, .poke o y), (t, .read v), (t, .write v z), (t, .peek o)]
      = [.done, .done, .done, .val y, .done, .val z] := by
  refine ⟨?_, by simp [expectedAll, expected, value, refers, extVal]⟩
  rw [C91_emulated_partial]
  · simp [expectedCopy, expectedC, copies, pokeVal, Tl.expected, Tl.lastWrite]
  · intro t v; simp
  · simp [Tu.careful, copies, pokeVal, Tl.lastWrite]

/-- `var_del` by one thread deletes the other threads' variables: thread `t'` has written `x`, and finds the variable empty and in its next object whatever
`malloc` gives. -/
theorem C91_others (junk : Nat → Nat) (t t' v x : Nat) (hne : t ≠ t') :
    E2.run junk [(t', .write v x), (t, .del v), (t', .isEmpty v), (t', .read v)] = [.done, .done, .bool true, .val (junk 1)] ∧
    expectedAll true [] [(t', .write v x), (t, .del v), (t', .isEmpty v), (t', .read v)] = [.done, .done, .bool false, .val x] := by
  constructor
  · simp [E2.run, runWith, E2.step, E2.put, E2.get, E2.del, E2.tssGet, E2.start, Tl.E.get, Tl.E.fetch, Tl.E.tssGet, Tl.E.mark, Tl.E.create, Tl.E.start]
  · simp [expectedAll, expected, value, refers, has, ownVal, hne]

/-- And their objects are lost.  In whatever state the history `h` leads to, if another thread `t'` has an object for `v` when `t` deletes `v`, then whatever
is done later that object is not given back and no thread's `var()` is it, for any variable. -/
theorem C91_lost (junk : Nat → Nat) (h later : History) (t t' v b : Nat) (hne : t' ≠ t)
    (hm : (E2.after junk E2.start h).e.made v = true) (hb : (E2.after junk E2.start h).tssGet t' v = some b) :
    let s := E2.after junk E2.start (h ++ (t, .del v) :: later)
    b ∉ s.freed ∧ ∀ u w, (s.get junk u w).2 ≠ some b := by
  intro s
  have hs : s = E2.after junk ((E2.after junk E2.start h).del t v) later := by
    show List.foldl _ _ _ = _
    rw [List.foldl_append]
    rfl
  obtain ⟨hj, -⟩ := J.start.after junk h
  obtain ⟨h1, -, h2⟩ := hj.del t v
  obtain ⟨h3, h4⟩ := h1.after junk later
  rw [← hs] at h3 h4
  have hl := h4 b (h2 t' b hm hne hb)
  refine ⟨hl.kept, fun u w => ?_⟩
  obtain ⟨s', b', e, -, -, -, -, h5⟩ := h3.get junk u w
  rw [e]
  intro hh
  injection hh with hh
  exact (h5 b hl).2 hh

-- Thread 1 has block 1 when thread 0 deletes the variable; thread 0's block 0 is given back, block 1 is not.
example : (E2.after (fun _ => 99) E2.start [(0, .write 0 5), (1, .write 0 6)]).e.made 0 = true ∧
    (E2.after (fun _ => 99) E2.start [(0, .write 0 5), (1, .write 0 6)]).tssGet 1 0 = some 1 ∧
    (E2.after (fun _ => 99) E2.start [(0, .write 0 5), (1, .write 0 6), (0, .del 0), (1, .del 0), (1, .write 0 7), (1, .del 0)]).freed = [2, 0] := by decide

/-- The object of the thread that deletes is given back, once: no block is freed twice, whatever the threads do, and none that a thread's `var()` is. -/
theorem C91_freed (junk : Nat → Nat) (h : History) (t v : Nat) :
    let s := E2.after junk E2.start h
    s.freed.Nodup ∧ (∀ b, (s.get junk t v).2 = some b → b ∉ s.freed) ∧
    (∀ b, s.e.made v = true → s.tssGet t v = some b → b ∈ (s.del t v).freed) := by
  intro s
  obtain ⟨hj, -⟩ := J.start.after junk h
  refine ⟨freed_once junk h, fun b hb => ?_, fun b hm hb => ?_⟩
  · obtain ⟨s', b', e, hj', hm, hs, hf, -⟩ := hj.get junk t v
    rw [show s.get junk t v = _ from e] at hb
    injection hb with hb
    subst hb
    intro hm'
    rw [← show s'.freed = s.freed from hf] at hm'
    have := hj'.freed_dead b' hm' t _ hs
    rw [hj'.alive v hm] at this
    cases this
  · rw [E2.del, if_pos hm, hb]
    exact List.mem_cons_self ..

theorem C91_full_false : ¬ C91_Full := by
  intro h
  have := h.1 [(0, .write 0 5), (0, .del 0), (0, .isEmpty 0), (0, .read 0)]
  rw [(C91_stale 0 0 5).1, (C91_stale 0 0 5).2] at this
  exact absurd this (by decide)

/-- Nor does the emulation do what the statement says. -/
theorem C91_emulated_false (junk : Nat → Nat) : ¬ ∀ h : History, E2.run junk h = expectedAll true [] h := by
  intro h
  have := h [(0, .poke 0 1), (0, .update 0 0), (0, .poke 0 2), (0, .read 0), (0, .write 0 3), (0, .peek 0)]
  rw [(C91_copy junk 0 0 0 1 2 3).1, (C91_copy junk 0 0 0 1 2 3).2] at this
  exact absurd this (by decide)

/-! ## Variables that are no pointers -/

/-- What `var()` is to return in the history of a variable of a type that is no pointer: what it was last set to, at first `initial`. -/
def plainSpec : Nat → List POp → List Nat
  | _, [] => []
  | x, .get :: h => x :: plainSpec x h
  | _, .update x :: h => plainSpec x h

/-- `thrd_local_plain`: a value other than `initial` is returned until another is set. -/
theorem C91_plain_partial (initial address x : Nat) (h : List POp) (hx : x ≠ initial) (hu : POp.update initial ∉ h) :
    plainRun initial address initial (.update x :: h) = plainSpec initial (.update x :: h) := by
  have : ∀ (h : List POp) (x : Nat), x ≠ initial → POp.update initial ∉ h → plainRun initial address x h = plainSpec x h := by
    intro h
    induction h with
    | nil => intros; rfl
    | cons o h ih =>
      intro x hx hu
      have hu' : POp.update initial ∉ h := fun hm => hu (List.mem_cons_of_mem _ hm)
      cases o with
      | get =>
        have e : plainGet initial address x = x := if_neg hx
        rw [plainRun, plainSpec, e, ih x hx hu']
      | update y =>
        rw [plainRun, plainSpec]
        exact ih y (fun e => hu (e ▸ List.mem_cons_self ..)) hu'
  exact this h x hx hu

example : plainRun 0 1000 0 [.update 3, .get, .update 4, .get, .get] = [3, 4, 4] ∧ POp.update 0 ∉ [POp.get, .update 4, .get, .get] := by decide

/-- `initial` itself is never returned (unless it is the buffer's address): where it is to be, the buffer's address is, converted to the type. -/
theorem C91_plain_never (initial address : Nat) (hne : address ≠ initial) (tls : Nat) (h : List POp) : initial ∉ plainRun initial address tls h := by
  have hg : ∀ t, plainGet initial address t ≠ initial := by
    intro t
    unfold plainGet
    split <;> assumption
  induction h generalizing tls with
  | nil => simp [plainRun]
  | cons o h ih =>
    cases o with
    | get =>
      rw [plainRun, List.mem_cons]
      rintro (e | e)
      · exact hg _ e.symm
      · exact ih _ e
    | update x => exact ih x

theorem C91_plain_wrong (initial address : Nat) :
    plainRun initial address initial [.get] = [address] ∧ plainSpec initial [.get] = [initial] := by
  simp [plainRun, plainGet, plainSpec]

end Verif.Props
